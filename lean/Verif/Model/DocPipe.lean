import Verif.Model.Pipeline
import Verif.Model.Cleaning
import Verif.Model.Chunking
import Verif.Model.Embedding

/-!
# The pipeline with its three processors: processors/pipeline.py, factory.py:65-135
-/

namespace Valori

variable {K X : Type}

/-- A document dictionary on its way through the pipeline.  `rest` is everything the processors leave
alone ("metadata", "structure", …); `used` is `pipeline_metadata["processors_used"]`.
Simplification: every chunk has a text (true of the parsers and of the chunking processor; chunks
without are the subject of C116). -/
structure RichDoc (K X : Type) where
  text : Option Text
  chunks : Option (List Chunk) := none
  embedding : Option (List K) := none
  chunkEmb : Option (List (List K)) := none
  used : Option (List ProcKind) := none
  rest : X

/-- An initialised processor with its state. -/
inductive Stage (K : Type) where
  | clean (L : CleanLib) (c : CleanCfg) (s : CleanStats)
  | chunk (p : Chunker)
  | embed (E : EmbEnv K) (s : EmbSt K)

/-- `p.__class__.__name__` -/
def Stage.kind : Stage K → ProcKind
  | clean .. => .cleaning
  | chunk .. => .chunking
  | embed .. => .embedding

/-- `process` of a processor: cleaning.py:83-120, chunking.py:49-86, embedding.py:108-139, each on the
entries of the dictionary it reads and writes. -/
def Stage.process : Stage K → RichDoc K X → Res (Stage K) (RichDoc K X)
  | clean L c s, d =>
    let r := cleanProcess L c (⟨d.text, d.chunks.map fun l => l.map fun ch => (some ch.text, ch), ()⟩ :
      Doc Chunk Unit) s
    (.ok { d with
      text := r.1.text
      chunks := r.1.chunks.map fun l => l.map fun p => { p.2 with text := p.1.getD [] } },
      clean L c r.2)
  | chunk p, d =>
    match p.process d.text with
    | (.error e, p) => (.error e, chunk p)
    | (.ok cs, p) => (.ok { d with chunks := some cs }, chunk p)
  | embed E s, d =>
    match embedProcess E s d.text (d.chunks.map fun l => l.map fun ch => some ch.text) with
    | (.error e, s) => (.error e, embed E s)
    | (.ok (v, vs), s) =>
      (.ok { d with embedding := v.or d.embedding, chunkEmb := vs.or d.chunkEmb }, embed E s)

/-- The processors one after the other, pipeline.py:83-85; those after an exception do not run. -/
def runStages : List (Stage K) → RichDoc K X → Res (List (Stage K)) (RichDoc K X)
  | [], d => (.ok d, [])
  | p :: ps, d =>
    match p.process d with
    | (.error e, p) => (.error e, p :: ps)
    | (.ok d, p) =>
      let r := runStages ps d
      (r.1, p :: r.2)

/-- The processors of a pipeline and `_initialized`. -/
structure DocPipe (K : Type) where
  stages : List (Stage K)
  init : Bool

/-- Steps 2 and 3 of `process_document` on what the parser answered, pipeline.py:79-99. -/
def DocPipe.processParsed (P : DocPipe K) (parsed : Except Err (RichDoc K X)) :
    Res (DocPipe K) (RichDoc K X) :=
  if !P.init then (.error .processing, P) else
  match parsed with
  | .error _ => (.error .processing, P)
  | .ok d =>
    match runStages P.stages d with
    | (.error _, ps) => (.error .processing, { P with stages := ps })
    | (.ok d, ps) => (.ok { d with used := some (ps.map Stage.kind) }, { P with stages := ps })

/-- `process_text`, pipeline.py:101-140; `rest` holds "metadata" and "structure". -/
def DocPipe.processText (P : DocPipe K) (text : Text) (rest : X) : Res (DocPipe K) (RichDoc K X) :=
  P.processParsed (.ok { text := some text, rest := rest })

/-- A call: a text, or a document with what the parser answers. -/
inductive DocCall (K X : Type) where
  | text (t : Text) (rest : X)
  | parsed (r : Except Err (RichDoc K X))

/-- One call. -/
def DocCall.run (P : DocPipe K) : DocCall K X → Res (DocPipe K) (RichDoc K X)
  | .text t r => P.processText t r
  | .parsed r => P.processParsed r

/-- The pipeline after some calls. -/
def DocPipe.after (P : DocPipe K) (calls : List (DocCall K X)) : DocPipe K :=
  calls.foldl (fun P c => (c.run P).2) P

/-- A pipeline with all three processors, just initialised, pipeline.py:29-61. -/
def docPipe (L : CleanLib) (cc : CleanCfg) (ck : ChunkCfg) (E : EmbEnv K) : DocPipe K :=
  ⟨[.clean L cc ⟨0, 0, 0⟩, .chunk ⟨ck, true, 0, 0⟩, .embed E .fresh], true⟩

/-- The chunking configuration of `create_document_db`, factory.py:89-101, completed by the defaults of
chunking.py:22-37. -/
def shippedChunking (chunkSize chunkOverlap : Int) : ChunkCfg where
  strategy := "semantic"
  chunkSize := chunkSize
  chunkOverlap := chunkOverlap
  minChunkSize := 50
  maxChunkSize := 2000
  separators := [nl2, ['\n'], ['.', ' '], ['!', ' '], ['?', ' '], [' ']]

/-- The pipeline of `create_document_db`, factory.py:81-110; its cleaning options are the defaults. -/
def shippedPipe (L : CleanLib) (chunkSize chunkOverlap : Int) (E : EmbEnv K) : DocPipe K :=
  docPipe L {} (shippedChunking chunkSize chunkOverlap) E

end Valori
