import Verif.Lemmas.Annoy
import Verif.Lemmas.AnnoyConc
import Verif.Lemmas.Batch
import Verif.Lemmas.ChunkTail
import Verif.Lemmas.Chunking
import Verif.Lemmas.Cleaning
import Verif.Lemmas.Crash
import Verif.Lemmas.Debugging
import Verif.Lemmas.Dict
import Verif.Lemmas.Disk
import Verif.Lemmas.DiskCrash
import Verif.Lemmas.DiskThreads
import Verif.Lemmas.DocPipe
import Verif.Lemmas.Duplicates
import Verif.Lemmas.Embedding
import Verif.Lemmas.Fair
import Verif.Lemmas.Flat
import Verif.Lemmas.FlatRest
import Verif.Lemmas.HeapDb
import Verif.Lemmas.HeapMem
import Verif.Lemmas.Hnsw
import Verif.Lemmas.HnswAlike
import Verif.Lemmas.HnswConc
import Verif.Lemmas.HnswDrawn
import Verif.Lemmas.HnswLinks
import Verif.Lemmas.HnswPar
import Verif.Lemmas.HnswTop
import Verif.Lemmas.Hybrid
import Verif.Lemmas.Incr
import Verif.Lemmas.Index
import Verif.Lemmas.Ivf
import Verif.Lemmas.IvfConc
import Verif.Lemmas.IvfConcSearch
import Verif.Lemmas.IvfSearch
import Verif.Lemmas.IvfTotal
import Verif.Lemmas.IvfTrained
import Verif.Lemmas.IvfTrainedInv
import Verif.Lemmas.IvfTrainedOnce
import Verif.Lemmas.IvfTrainedSearch
import Verif.Lemmas.Lawful
import Verif.Lemmas.LoneLsh
import Verif.Lemmas.Lsh
import Verif.Lemmas.LshConc
import Verif.Lemmas.LshConcInv
import Verif.Lemmas.LshConcSteps
import Verif.Lemmas.Nan
import Verif.Lemmas.Oblivious
import Verif.Lemmas.Parse
import Verif.Lemmas.Pipeline
import Verif.Lemmas.Product
import Verif.Lemmas.Saq
import Verif.Lemmas.SaqSearch
import Verif.Lemmas.SaqSeg
import Verif.Lemmas.Scalar
import Verif.Lemmas.Semantic
import Verif.Lemmas.Shared
import Verif.Lemmas.Similarity
import Verif.Lemmas.SplitInsert
import Verif.Lemmas.Storage
import Verif.Lemmas.ThreadEnds
import Verif.Lemmas.Threads
import Verif.Lemmas.TopK
import Verif.Model.Annoy
import Verif.Model.AnnoyConc
import Verif.Model.AnnoyTemp
import Verif.Model.Backend
import Verif.Model.Batch
import Verif.Model.BatchLines
import Verif.Model.Chunking
import Verif.Model.Cleaning
import Verif.Model.Client
import Verif.Model.ClientFull
import Verif.Model.ClientIndices
import Verif.Model.ClientLsh
import Verif.Model.ClientStats
import Verif.Model.Configs
import Verif.Model.Crash
import Verif.Model.CrashHybrid
import Verif.Model.CrashIndices
import Verif.Model.Debugging
import Verif.Model.DeleteOne
import Verif.Model.Disk
import Verif.Model.DiskIo
import Verif.Model.DiskThreads
import Verif.Model.DocPipe
import Verif.Model.Duplicates
import Verif.Model.Embedding
import Verif.Model.Fixed
import Verif.Model.Flat
import Verif.Model.FlatConc
import Verif.Model.HeapDb
import Verif.Model.HeapMem
import Verif.Model.Hnsw
import Verif.Model.HnswConc
import Verif.Model.HnswPar
import Verif.Model.HybThreads
import Verif.Model.Hybrid
import Verif.Model.Incr
import Verif.Model.IndexPerf
import Verif.Model.InsertLines
import Verif.Model.Ivf
import Verif.Model.IvfConc
import Verif.Model.IvfPar
import Verif.Model.IvfTrained
import Verif.Model.JsonMeta
import Verif.Model.Logging
import Verif.Model.Lsh
import Verif.Model.LshConc
import Verif.Model.Memory
import Verif.Model.Monitor
import Verif.Model.Nan
import Verif.Model.Np
import Verif.Model.ParInsert
import Verif.Model.Parse
import Verif.Model.ParseRich
import Verif.Model.Paths
import Verif.Model.PersistStats
import Verif.Model.Pipeline
import Verif.Model.PipelineInfo
import Verif.Model.PrintAnalysis
import Verif.Model.PrintProfile
import Verif.Model.ProcInit
import Verif.Model.ProcStats
import Verif.Model.Product
import Verif.Model.Progress
import Verif.Model.Py
import Verif.Model.QuantStats
import Verif.Model.Saq
import Verif.Model.SaqWidth
import Verif.Model.Scalar
import Verif.Model.ScalarFloat
import Verif.Model.SearchDb
import Verif.Model.Similarity
import Verif.Model.Tensor
import Verif.Model.Text
import Verif.Model.Threads
import Verif.Model.Validation
import Verif.Model.VecStats
import Verif.Model.VectorsFile
import Verif.Props.Annoy
import Verif.Props.AnnoyConc
import Verif.Props.AnnoyEnds
import Verif.Props.AnnoyOrder
import Verif.Props.AnnoyTemp
import Verif.Props.Batch
import Verif.Props.BatchLines
import Verif.Props.ChunkBreaks
import Verif.Props.Chunking
import Verif.Props.Cleaning
import Verif.Props.Client
import Verif.Props.ClientAnnoy
import Verif.Props.ClientFull
import Verif.Props.ClientIndices
import Verif.Props.ClientLsh
import Verif.Props.ClientOrder
import Verif.Props.ClientStats
import Verif.Props.Configs
import Verif.Props.Crash
import Verif.Props.CrashHybrid
import Verif.Props.CrashIndices
import Verif.Props.Database
import Verif.Props.Debugging
import Verif.Props.DecodeWidth
import Verif.Props.DeleteOne
import Verif.Props.DiskIo
import Verif.Props.DiskThreads
import Verif.Props.DistWidth
import Verif.Props.DocPipe
import Verif.Props.Embedding
import Verif.Props.EmbeddingStats
import Verif.Props.Factory
import Verif.Props.FailedInit
import Verif.Props.FailedInsert
import Verif.Props.FairEnds
import Verif.Props.FairLsh
import Verif.Props.Fixed
import Verif.Props.FixedZero
import Verif.Props.Flat
import Verif.Props.FlatCache
import Verif.Props.FlatConc
import Verif.Props.FlatRest
import Verif.Props.HeapDb
import Verif.Props.HeapMem
import Verif.Props.Hnsw
import Verif.Props.HnswConc
import Verif.Props.HnswConcCases
import Verif.Props.HnswCopies
import Verif.Props.HnswHarmless
import Verif.Props.HnswLinks
import Verif.Props.HnswOrder
import Verif.Props.HnswPar
import Verif.Props.HnswTop
import Verif.Props.HybThreads
import Verif.Props.Incr
import Verif.Props.IncrFails
import Verif.Props.IncrFiles
import Verif.Props.IncrNames
import Verif.Props.IndexContract
import Verif.Props.IndexPerf
import Verif.Props.InsertLines
import Verif.Props.Ivf
import Verif.Props.IvfConc
import Verif.Props.IvfExact
import Verif.Props.IvfOrder
import Verif.Props.IvfPar
import Verif.Props.IvfRest
import Verif.Props.IvfTrained
import Verif.Props.IvfTrainedCases
import Verif.Props.IvfTrainedSearch
import Verif.Props.JsonAccept
import Verif.Props.JsonMeta
import Verif.Props.Logging
import Verif.Props.LoneAnnoy
import Verif.Props.LoneFlat
import Verif.Props.LoneHnsw
import Verif.Props.LoneHnswObjects
import Verif.Props.LoneIvf
import Verif.Props.LoneIvfSearch
import Verif.Props.LoneIvfTrained
import Verif.Props.LoneLsh
import Verif.Props.LookFurther
import Verif.Props.Lsh
import Verif.Props.LshClear
import Verif.Props.LshConc
import Verif.Props.LshConcCases
import Verif.Props.LshConcSearch
import Verif.Props.LshEnds
import Verif.Props.LshOrder
import Verif.Props.LshRest
import Verif.Props.LshShift
import Verif.Props.Monitor
import Verif.Props.MoreResults
import Verif.Props.Nan
import Verif.Props.NegativeIds
import Verif.Props.Normalize
import Verif.Props.Oblivious
import Verif.Props.Office
import Verif.Props.OtherLength
import Verif.Props.ParInsert
import Verif.Props.Parse
import Verif.Props.ParseRich
import Verif.Props.ParserChunks
import Verif.Props.Paths
import Verif.Props.PersistStats
import Verif.Props.PipeStats
import Verif.Props.Pipeline
import Verif.Props.PipelineInfo
import Verif.Props.PrintAnalysis
import Verif.Props.PrintProfile
import Verif.Props.ProcInit
import Verif.Props.ProcStats
import Verif.Props.Product
import Verif.Props.Progress
import Verif.Props.QuantContract
import Verif.Props.QuantStats
import Verif.Props.QuantWidth
import Verif.Props.Reinit
import Verif.Props.Reopened
import Verif.Props.SameAnswers
import Verif.Props.Saq
import Verif.Props.SaqBits
import Verif.Props.SaqSearch
import Verif.Props.SaqWidth
import Verif.Props.Scalar
import Verif.Props.ScalarContract
import Verif.Props.ScalarFloat
import Verif.Props.SearchDb
import Verif.Props.Similarity
import Verif.Props.SplitInsert
import Verif.Props.Storage
import Verif.Props.StoreContract
import Verif.Props.Tensor
import Verif.Props.ThreadEnds
import Verif.Props.ThreadEndsCases
import Verif.Props.ThreadEndsHnsw
import Verif.Props.ThreadEndsHnswCases
import Verif.Props.Threads
import Verif.Props.Universal
import Verif.Props.UniversalLsh
import Verif.Props.UniversalTwo
import Verif.Props.Validation
import Verif.Props.VecStats
import Verif.Props.VectorsFile
import Verif.Spec.Annoy
import Verif.Spec.AnnoyConc
import Verif.Spec.AnnoyTemp
import Verif.Spec.Approximate
import Verif.Spec.Batch
import Verif.Spec.Chunking
import Verif.Spec.Cleaning
import Verif.Spec.Client
import Verif.Spec.Crash
import Verif.Spec.Database
import Verif.Spec.Debugging
import Verif.Spec.Embedding
import Verif.Spec.Fair
import Verif.Spec.Fixed
import Verif.Spec.FlatRest
import Verif.Spec.HnswDrawn
import Verif.Spec.Incr
import Verif.Spec.Index
import Verif.Spec.JsonAccept
import Verif.Spec.JsonMeta
import Verif.Spec.LastWord
import Verif.Spec.Ledger
import Verif.Spec.LshConc
import Verif.Spec.NoWorse
import Verif.Spec.Paths
import Verif.Spec.Persist
import Verif.Spec.Quant
import Verif.Spec.SameAnswers
import Verif.Spec.Saq
import Verif.Spec.Session
import Verif.Spec.SharedObjects
import Verif.Spec.Slots
import Verif.Spec.Storage
import Verif.Spec.Threads
