# Design

Formal model (Lean 4.33.0, Mathlib modules imported one at a time) of the
vector database `valori` (Python, `/repo/src/valori`).  The properties are in
`properties.jsonl`; `MANIFEST.json` maps each of them to theorem names.

## Layout

* `lean/Verif/Model/*.lean`  the model, function by function.  Every definition
  cites file and lines.  Exceptions are values (`Except Err`), and the state is
  kept when an exception is raised, because Python keeps it.
* `lean/Verif/Spec/*.lean`   the specification vocabulary (abstract maps, top-k
  answers, coverage ...).  It uses at most the input types of the model.
* `lean/Verif/Lemmas/*.lean` helper lemmas.
* `lean/Verif/Props/*.lean`  the property theorems only, each followed by an
  `example` that shows a concrete non-trivial case meeting the hypotheses.
* `seeded/LOG.jsonl`         the mutation log.

## Modelling conventions

* Vectors `V` and metadata `M` are type parameters where their content does not
  matter (storage, index bookkeeping).  Geometry enters through parameters
  (`dim`, `finite`, distance into a linear order), so theorems hold for every
  choice, floats without NaN included.
* A Python `dict` is an insertion-ordered association list: assigning an
  existing key keeps its position, deleting removes the entry.
* Python `list.sort` is stable; numpy `argsort` (introsort) is not, so there the
  order is an oracle constrained only to be a sorting permutation.
* `uuid4`, `random.random`, `random.sample`, KMeans, the annoy library, md5, the
  embedding model, pickle/JSON encoders (except in C239) and thread schedules are parameters
  (oracles).  Theorems quantify over all their outcomes and the assumption on
  them, if any, is a visible hypothesis (e.g. fresh uuids).
* The file system of one directory is a finite map from names to contents, where
  a content may be `torn`.  Crash points are placed between the primitive steps
  (truncate, partial write, complete write, unlink).  This is a process-crash
  model, not a power-loss model: completed steps are durable and ordered.
* Numerics of the quantisers and similarity functions use exact rational or real
  arithmetic.  Float rounding is not modelled, except for the
  integers the scalar quantiser converts (C192); overflow and NaN are outside.
* Timing and type annotations are not modelled; the set-up of loggers is (C157,
  C158), the text of messages is not.  Values are immutable, except where sharing
  is the subject: `Model/HeapMem` (memory storage), `Model/HeapDb` (clients over it) and the embedding heap
  (see "Not modelled").
* Where the code violates a property the negation is proved on a concrete
  witness (`..._refuted`), and the strongest true part is kept as `..._partial`.

## Plan per property

| id | title | model and proof |
|---|---|---|
| C01 | In-memory storage is a last-write-wins map | Model/Memory (all of MemoryStorage). Refinement to `Id -> Option (V x Option M)`, induction over histories. |
| C02 | In-memory listing and counting agree with content | Same model; invariant (distinct keys, metadata keys subset, count = size) + order specification by replaying the history. |
| C03 | Storage backends refuse work outside their lifetime | Guards of the three storage models; direct case analysis, state equality. |
| C04 | Disk storage is a last-write-wins map up to file-name aliasing | Model/Disk: directory as map stem -> (vector file, metadata file). Refinement to a map over file names; sanitize fixed points for safe characters; injectivity on safe ids. |
| C05 | Disk content survives close and reopen | Disk initialize/close as operations of the history; content is a function of the files alone. |
| C06 | Distinct ids never share a disk entry | `Props/Universal`: equivalence with different sanitised names; witness a/b vs a_b. |
| C07 | A crash during a disk operation never damages other ids | Disk operations as lists of primitive file steps; crash = any prefix. Frame lemma for other stems. |
| C08 | Disk operations are atomic under crashes | Same step lists; delete proved atomic; store/update: exact set of outcomes (partial) + refutation. |
| C09 | Hybrid storage is a last-write-wins map whatever the cache does | Model/Hybrid over the Memory and Disk models. Invariant: memory entry = disk entry; refinement to the map, all memory limits. |
| C10 | Hybrid memory use is bounded | Invariant memory count <= max(limit,1) for all id strings (no aliasing restriction). |
| C11 | Hybrid storage loses nothing on restart | Corollary of the hybrid invariant; restart as an operation. |
| C12 | Hybrid storage and disk storage agree on every id string | Refuted by an aliasing history; partial = histories with pairwise different file names. |
| C13 | Flat search is exact k-nearest-neighbour search | Model/Flat over an abstract lawful storage; `IsTopK` specification; argsort oracle. |
| C14 | Index contents follow the history (flat) | Flat history refinement to an ordered list of (id, vector, metadata). |
| C15 | Deleted vectors never come back (flat, IVF, HNSW, LSH) | Corollaries of the invariants of Flat, IVF, HNSW, LSH. |
| C16 | Insert pairs rows, ids and metadata in order | Insert loop lemma, uuid freshness as hypothesis; shared by Flat, IVF, HNSW. |
| C17 | A failed batch insert is all-or-nothing | Any backend: exactly the prefix before the failing row is added (partial). Refuted on disk storage for every history and every batch with metadata that cannot be pickled (`Props/FailedInsert`, with the directory lemmas of C216). |
| C18 | When flat search fails | Case analysis of the search function; iff. |
| C19 | Flat index over durable storage survives restart | Flat over Disk through the lawful-storage interface; close and reopen. |
| C20 | IVF clusters partition the live vectors | Model/Ivf; partition invariant by induction over histories; KMeans labels arbitrary (< n_clusters). |
| C21 | IVF search results are sound | From the C20 invariant + cache coherence. |
| C22 | IVF search is exact when it looks everywhere | From C20 + `IsTopK`. |
| C23 | IVF places vectors in the nearest cluster | argmin loop lemma; nearest-centroid statement. |
| C24 | HNSW graph stays well-formed | Model/Hnsw; graph invariant by induction; random level and sample arbitrary. |
| C25 | HNSW search results are sound | From the C24 invariant. |
| C26 | HNSW search finds something in a non-empty index | Refuted for every history that leaves at most one live vector on the highest level drawn (Props/HnswCopies), exact criterion for at most m vectors; partial at max_level = 0. |
| C27 | HNSW search returns no id twice | Refuted (witness); partial at max_level = 0; exact criterion for at most m vectors without ties (Props/HnswCopies). |
| C28 | LSH hash tables mirror the live vectors | Model/Lsh; bucket invariant by induction; hash function parametric in projections. |
| C29 | An LSH query equal to a stored vector finds it | From C28. |
| C30 | LSH search results are sound | From C28; set iteration order arbitrary. |
| C31 | LSH ids are sequential and never reused | Invariant next_id = number of slots; history theorem. |
| C32 | A rejected LSH add changes no content | Case analysis of add. |
| C33 | A failed LSH update changes nothing | `Lsh.Inv.update`; `Props/UniversalLsh`: for every history and live id, what an update of another length leaves behind. |
| C34 | Deleting an id that was never assigned has no effect (LSH) | Refuted with id '-1'; partial for non-negative and non-numeric ids. |
| C35 | LSH hashing stays in range | Index arithmetic of _hash_vector. |
| C36 | Annoy ids and metadata stay aligned while no update happens | Model/Annoy, annoy library as an item table with arbitrary answers among added items. |
| C37 | Deleted vectors are not returned by Annoy search | Refuted for every state and library: a delete changes neither ids nor scores of any search (`Props/UniversalTwo`); partial: returned deleted ids always carry metadata None. |
| C38 | Annoy update keeps ids and metadata aligned | Refuted for every history: the updated id reports None, and the next id handed out reports the metadata of the update (`Props/UniversalTwo`); partial: what update does to other positions. |
| C39 | An Annoy index can be reused after clear | Refuted for all states with a dimension; partial for indexes never given a vector. |
| C40 | Annoy similarity scores respect distance order | Rational functions, monotonicity and range. |
| C41 | Tensor persistence round trip | Model/Tensor over a file map; refinement to path -> value. |
| C42 | Vectors saved under a path load back from that path | iff over path strings. |
| C43 | A failed save keeps the previous content | Refuted; partial: other paths are unaffected. |
| C44 | Incremental persistence returns the latest saved state | Model/Incremental with restart operations; invariant relating file names and counters. |
| C45 | Incremental persistence survives crashes | Crash steps inside save_state; refuted; partial outside the window. |
| C46 | Operation log and checkpoint counters are consistent | Counter invariant by induction. |
| C47 | Incremental load_state honours its path argument | Refuted; partial for single-path histories. |
| C48 | Scalar quantiser codes are in range and decode into the training range | Model/Scalar over rationals; rint half-even. |
| C49 | Scalar quantisation error bound | Rounding error lemma. |
| C50 | Scalar quantisation is idempotent and order-preserving | Monotone rounding, code fixed points. |
| C51 | Product quantisation picks the nearest codeword | Model/Product; first argmin per subspace, separability of squared distance. |
| C52 | Product quantiser distance equals distance to the decoded vector | Algebraic identity. |
| C53 | SAQ segments tile the dimensions | Model/Saq dynamic program and backtracking. |
| C54 | SAQ bit allocation uses exactly the budget | Arithmetic of the allocation loop over rational variances. |
| C55 | SAQ code adjustment never increases the reconstruction error | Fold invariant of the adjustment loop; exact-arithmetic no-op. |
| C56 | SAQ rescoring is exact when the rescoring set covers everything | argsort oracle, `IsTopK`. |
| C57 | Fixed-size chunking terminates and covers the text | Model/Chunking; strings as List Char; well-founded loop. |
| C58 | Fixed-size chunking stops once the end is reached | Refuted; partial for overlap = 0. |
| C59 | Semantic chunking keeps every paragraph whole | Fold invariant over paragraphs. |
| C60 | Semantic chunks respect the size limit | Bound for overlap > 0 (partial); for overlap 0 refuted for every text: each chunk begins with the chunk before it (invariant of the fold, `Props/UniversalTwo`). |
| C61 | Sliding-window chunking covers the text | Range arithmetic. |
| C62 | Chunk filter and process contract | Filter contract. |
| C63 | Parser chunkers terminate and cover the text | Model/ParserChunks, three loops. |
| C64 | Docling chunker loses no text element | Fold invariant. |
| C65 | PDF chunks name a page of the document | Scan lemma. |
| C66 | Whitespace normalisation | Model/Cleaning: whitespace normalisation on List Char. |
| C67 | Embedding cache is transparent | Model/Embedding cache invariant. |
| C68 | Batch document processing isolates failures | Model/Pipeline batch loop. |
| C69 | A configured pipeline can parse documents | Config as a nested value; refuted for every documented config; partial for doubly nested config. |
| C70 | Parser selection | Model/Registry, stable sort by priority. |
| C71 | Batch insert accounting | Model/Batch loops. |
| C72 | Parallel batch insert returns the same ids in some order | Completion order = arbitrary permutation. |
| C73 | Batch search answers line up with queries | Loop lemma. |
| C74 | Duplicate groups | Model/Helpers.find_duplicates double loop. |
| C75 | Input validators accept exactly the documented inputs | Model/Validation, iff theorems. |
| C76 | Similarity functions | Model/Similarity over reals. |
| C77 | Normalisation | Same. |
| C78 | Configuration recommendation returns a configuration | Model/Configs as a finite table; for-all failure theorem. |
| C79 | Index recommendation is total and constructible | Case analysis of the thresholds; constructor checks modelled. |
| C80 | Client lifecycle | Model/Client over an arbitrary index/storage. |
| C81 | Memory usage accounting is exact | Invariant of the Memory model: usage = sum over both dictionaries; re-expressed per listed id. |
| C82 | HNSW index tracks the set of live vectors | Corollary of the HNSW invariant (memory side equals the live list, storage content equals it). |
| C83 | HNSW search is exact on a single-level graph's neighbourhood | Candidates with max_level 0 are the first node and its neighbours; clique invariant for at most m vectors. |
| C84 | LSH metadata belongs to its id | Model/Lsh; from the C30 soundness theorem without None entries; with one, refuted for every history: the lists of vectors and metadata are shifted by one (`Props/LshShift`). |
| C85 | LSH statistics are true | `Model/Lsh` get_stats; count from the invariant; bucket statistics characterised for every history in `Props/UniversalLsh` (each table is a permutation of the live ids). |
| C86 | A saved Annoy index answers after load | Model `Annoy.save/load` (file contents as a value); universal refutation that a loaded index answers nothing, and a partial theorem on what survives. |
| C87 | A failed incremental save keeps the previous state loadable | Model `Incr.saveState/loadState`; universal refutation from the checkpoint-number invariant, partial theorem that the next successful save repairs it. |
| C88 | A failed training call leaves a trained quantiser as it was | Model/Scalar and Model/Product keep the assignments made before an exception; refuted for every trained quantiser (`Props/Universal`): scalar of width other than 1, product, SAQ; partial: decoding with the scalar quantiser, and calls that keep the width. |
| C89 | SAQ segmentation ignores the data | `Model/Saq` `train` with `exactCost`; induction over the rows of the dynamic program (`Lemmas/SaqSeg`). |
| C90 | SAQ segment count after training again | `Model/Saq` `train` twice; equivalence (`Props/Universal`), positive theorem with the stored number, witness for the negation. |
| C91 | SAQ codes name the nearest decodable vector | `Model/Saq` `quantize` with `pickExact` and exact `mix`; blockwise optimality summed over the tiling. |
| C92 | Semantic chunks report where they are | Refuted by a witness; bounds on the positions by fold invariant (partial). |
| C93 | PDF chunks name the page they start on | Scan lemma over the joined pages: lower bound (partial), universal refutation for inner pages. |
| C94 | Docling chunks name their elements | Running totals of group sizes by induction (partial); start_element is `k * chunk_size` for every document (`Props/UniversalTwo`). |
| C95 | Batch cosine similarity agrees with the single one | Model/Similarity: rows as real lists, dot products and norms. |
| C96 | Identical vectors are duplicates of each other | Model/Similarity: findDuplicatesOf with eps a parameter > 0; exact self-similarity. |
| C97 | Jaccard distance is a metric | Supports as finsets; Mathlib finite set algebra. |
| C98 | validate_config keeps values in their range | Model/Validation with NaN and infinities as values. |
| C99 | Configuration listing and lookup agree | Model/Configs: the tables as data, lookup and listing; general lemmas over tables. |
| C100 | create_vector_db works with its defaults | Model/Configs: keyword arguments as a dictionary; client.initialize and the annoy package are parameters. |
| C101 | Shipped configuration values take effect | Constructors as functions from configurations to parameter records. |
| C102 | Templates build what they say | The template table and the constructors. |
| C103 | Template overrides take effect | create_vector_db depends on seven keys only; dict.update lemma. |
| C104 | create_document_db uses the index configuration given | Same. |
| C105 | Progress callbacks do not influence batch insert | The callback is a parameter that may raise; runs are compared with and without it. |
| C106 | Batch counters add up | Counters are part of the state of the model; refutation for every non-zero starting state. |
| C107 | Tag removal removes tags | The regular expression is a scanner; `TagsOut` and `HasTag` are separate specifications; library functions are parameters. |
| C108 | Stop-word removal keeps the other words | `IsWords` is a separate inductive specification of the words of a text. |
| C109 | Word length bounds are respected | Corollary of C108; the refutation is universal. |
| C110 | Cleaning touches only texts | Record of text, chunks and the rest. |
| C111 | Embeddings of one processor have one length | Arrays live on a heap in the model; invariant on the cache by induction over histories. |
| C112 | Batch embedding agrees with single embedding | Same model; the sequential calls are the relation `Calls`. |
| C113 | Statistics of the embedding processor are read-only | Same model; refutation for all states. |
| C114 | Cache hit rate | Same model; induction over call sequences. |
| C115 | Returned embeddings are the caller's | Same model; `write` is an operation of the caller on the heap. |
| C116 | Chunk embeddings line up with chunks | Same model. |
| C117 | Initialising a pipeline gives the configured processors | Parser and processor classes are parameters that may raise; refutations for all configurations. |
| C118 | create_vectors_from_files returns vectors | Built on the pipeline model; universal refutation. |
| C119 | Adding and removing parsers | Induction over histories of registry calls. |
| C120 | Supported formats are the formats that can be parsed | Sorting and removal of duplicates are library functions of the model, proved about with Mathlib. |
| C121 | Saved vectors load back | File contents are values; suffix and name rules are modelled on characters. |
| C122 | Measuring does not change a program | Programs are a small syntax (arbitrary code, sequence, measured block) in Model/Debugging; the run with the profiler is compared with the run without it by induction. |
| C123 | Every measured block is recorded | Induction over programs; the names of the blocks left are a separate recursive specification. |
| C124 | Profiler summaries are exact | Invariant: no name has an empty record list; summaries characterised by membership and bounds. |
| C125 | Decorated functions are called once | Functions are arbitrary state transformers with exceptions; equality of the decorated and the plain function; a universal refutation for ImportError. |
| C126 | Quality score | Cells are finite, NaN or infinite; counting argument: zero rows hold no NaN or infinite cell. |
| C127 | Similar pairs are counted once | Counting over positions; the number of unordered pairs is a separate recursion. |
| C128 | Every non-empty data set can be analysed | Case analysis; sampling by an oracle giving a thousand indices in range. |
| C129 | Sparsity is the fraction of zeros | Counting. |
| C130 | Query history | Induction over the calls. |
| C131 | An index can be inspected | From the LSH table invariant of C28: the entries of a table are a permutation of the live ids. |
| C132 | Scalar codes are nearest codes | rint is a nearest integer with ties to even, shown from its definition; clipping keeps the nearest legal code; scaled by the step of the column. |
| C133 | Scalar quantiser failures | Case analysis of every branch. |
| C134 | Scalar distances are cosine distances | The list operations are those of Euclidean space (Lemmas/Similarity); cos of InnerProductGeometry.angle. |
| C135 | Product codebook contents | Induction over the loop of subspaces; the mean is stated column by column. |
| C136 | Product quantiser failures | Case analysis; success from C51. |
| C137 | SAQ failures | Case analysis. |
| C138 | SAQ distances are cosine distances | C55 for the decoded vector, then as C134. |
| C139 | search_with_rescoring searches the vectors that were encoded | C56 with the real distances; a one-dimensional counterexample over the reals. |
| C140 | LSH failures and replies | Case analysis of each call; the replies from the refinement to slots (C31). |
| C141 | Annoy failures and replies | Case analysis of each call; the delete reply from the alignment invariant (C36). |
| C142 | Storage failures and statistics | Case analysis of every branch of the three backends. |
| C143 | Index failures | Case analysis over an arbitrary backend. |
| C144 | SAQ gives bits to variance | Telescoping of the cumulative sums over the tiling (C53); floors are monotone; counterexample over the rationals. |
| C145 | HNSW links are bounded by m | Invariant: every link is owed to one end and nobody owes more than m; double counting. The refutation is for all n: the sample of oldest nodes makes a star. |
| C146 | Stored values are isolated from the caller | Heap model with object identity; invariant that the objects of storage and caller are disjoint; refinement to the abstract store over values. |
| C147 | Order of starting and stopping components | Case analysis over logging components with arbitrary failures. |
| C148 | What the text parser returns | Case analysis; chunks by C63; the word list is compared through a duplicate-free list of infixes. |
| C149 | What the Word parser returns | Round trip of join and split. |
| C150 | What the Excel and PowerPoint parsers return | Round trip of join and split with blank lines (no block begins or ends with a newline or has two in a row). |
| C151 | Where chunks end | Complete specification of rfind by induction on the search position; lifted to every chunk of the loop through the span invariant of C63. |
| C152 | Normalised rows | Real analysis: norms of scaled vectors; least and greatest entries of a list by induction. |
| C153 | Similarity matrix and duplicates by distance | Entrywise over ℝ with Mathlib inner products; groups through the invariant of C74. |
| C154 | Cleaning with default options | Composition of the lemmas of C66 and C107. |
| C155 | Incremental persistence returns indices and vectors | Refinement of the directory to the last call naming the file, by induction over histories. |
| C156 | Operation numbers are unique | Computation on an arbitrary open state; invariant by induction for interval one. |
| C157 | Logger set-up can be repeated | State of all loggers as a function of the dotted name; one-step equations, invariant by induction over histories. |
| C158 | Every message is written once | Emission follows parents as in the logging library; invariant by induction over helper calls, then computation. |
| C159 | A document goes through the whole pipeline | Composition of the models of the three processors; invariant of the cache by induction over histories; the answer is characterised by the specifications of C57, C66 and C67. |
| C160 | The shipped document pipeline cuts documents into chunks that cover the text | Cleaned text is tidy (C66), so splitting at paragraph breaks gives one part; for fixed sizes, induction over the loop shows that short pieces at the end are covered by their predecessor. |
| C161 | The reported compression ratio is the true one | Size of a row of codes computed from the integer types the code chooses, compared with what get_stats reports after the modelled training; combined with C48, C51 and C54. |
| C162 | Closing a quantiser makes it new | Induction over histories: only nSegments changes among the parameters. |
| C163 | In-memory storage may be shared by threads | `Model/Threads`: threads around one lock as a transition system; the proof gives the order of the calls by the moments at which the lock is held (induction over schedules), the refutation excludes every order. |
| C164 | Parallel insertion into a flat index loses nothing | `Model/ParInsert` `FPar`: one step per statement; an invariant over all schedules says which statements each thread has done. |
| C165 | Parallel insertion into an LSH index keeps vectors under their ids | `Model/ParInsert` `LPar`: one step per statement; invariant for ids, another for one running thread; concrete schedules for the refutations. |
| C166 | The resource monitor runs one thread and stops when told | `Model/Monitor`: callers and threads as a transition system, one step per statement; invariant over all runs with one caller, a decreasing measure after stop. |
| C167 | The resource summary is true of the samples | Induction over the samples, exact rationals. |
| C168 | Progress lines make sense | `Model/Progress`: induction over updates; the bar is compared with the exact share. |
| C169 | Batch statistics give the time and the rate of the last operation | Histories of events folded over the two times and the counter. |
| C170 | A client over an Annoy index answers searches | `Model/SearchDb` `annoyParts`: the client model over the Annoy model; `built` stays false in every history. |
| C171 | A hybrid search database keeps the metadata of its documents | `hybridDb` against a table of keys (`described`); induction over the documents. |
| C172 | A semantic search database holds all its texts | `semanticDb`, then C13 and C16 for the flat index. |
| C173 | An image search database holds the images that can be read | Induction over the list of images. |
| C174 | Saves acknowledged after a crash are in the log | `IDisk.cut` marks a piece of a line without newline at the end of the log; induction over the session (`session_log`). |
| C175 | Tensor persistence answers True or raises PersistenceError | Case analysis of `Model/Tensor`, stated as decision tables. |
| C176 | Statistics of tensor persistence | `Model/PersistStats`; the paths written are read from calls and replies (`writtenTo`); induction. |
| C177 | Statistics of incremental persistence | `Incr.stats`; invariant `FirstSession` and `session_log`. |
| C178 | Restarting a parser registry | `Model/PipelineInfo`; the class of a name is computed from calls and replies (`classOf`, `regLog`); induction over the history, and over the configuration (`startLoop_get`). |
| C179 | The pipeline raises ProcessingError only | Case analysis; induction over the batch. |
| C180 | Texts and files go through the same processors | A relation `Through` for the processors in turn; induction. |
| C181 | get_parser_info tells which parsers can be used | `classOf` as for C178; induction over the classes. |
| C182 | The description of a pipeline | `startLoop_get`. |
| C183 | An index whose initialize raised refuses work | Existing index models over an arbitrary backend; computation. |
| C184 | A refused write to disk does no lasting harm | Each call gets an oracle that says after how many file steps the next one raises; invariant of one id against what the replies say (Spec/LastWord). |
| C185 | The hybrid storage after refused writes | As C184; the invariant also says that what memory holds of the id is what is known, and that its vector file exists. |
| C186 | What the PDF parser returns | The page loop keeps the order of its statements, so the text of a page is kept before its images are counted; induction over the pages. |
| C187 | What the docling parser returns | Elements with optional text and label; C64 for the chunks. |
| C188 | Statistics of chunking and cleaning | Counters over a list of documents by induction, compared with totals computed from inputs and replies alone; the length of a cleaned text is bounded stage by stage. |
| C189 | Starting parsers and the cleaning processor | Each library use answers, is missing or raises; the first that does not answer decides. |
| C190 | Starting the embedding processor | State of the processor with model, tokenizer and device, step by step; all libraries are parameters. |
| C191 | Measuring an index | Index as a record of optional methods, clock as a parameter. |
| C192 | How many bits the scalar quantiser really has | Rounding of integers to p binary digits, ties to even, is defined on natural numbers; the functions with the three conversions equal those of Model/Scalar for at most 24 bits; the refutations are for every p and bits. |
| C193 | What the quantizer and the persistence manager of a client do | The four components are parameters; a simulation between the client with all four and the client with two gives equal answers, and an invariant over all histories shows that only `initialize` and `close` reach the optional ones. |
| C194 | A client over a flat index is an exact search database | Forward simulation: the open client holds a permutation of the abstract live list (the listing order of the storage may change it), the closed one holds storage that opens to it; every call keeps this, and answers are invariant under permutation. |
| C195 | Clients over IVF and HNSW indices are honest search databases | One forward simulation for every index that keeps its vectors in the storage, instantiated for IVF and HNSW with the invariants of C20 and C24; totality of the IVF methods when distances and k-means are defined. On storage that keeps its content the histories may call `initialize` on an open client (`Props/Reinit`): HNSW then needs that no method reads the order of its vectors (`Lemmas/HnswAlike`). |
| C196 | A client over an LSH index is a database for one session | Forward simulation between the client (lshParts) and the abstract session of Spec/Session.lean, using the invariant of C28; the two false expectations refuted for every state, query and storage; the storage shown to receive only initialize and close. |
| C197 | Files stay in their directory | Model of joining paths as pathlib does and of following them as the operating system does; confinement for relative paths that never climb above their start; refutation: for every directory and every file there is an absolute and a relative path naming that file; sanitised ids proved to be plain names; a trace in which an index saved as checkpoint.json makes a later acknowledged save invisible. |
| C198 | Threads with different ids do not disturb each other on disk | Every call is a tree of single file accesses; the trees touch only the files of their id, equal views give equal steps, and steps of other threads keep the view (frame); by induction over the schedule each thread is where it would be alone. The trees run without interruption are proved equal to the sequential model. |
| C199 | Parallel calls on a disk storage are orderly | Refuted by four schedules (vector of one thread with metadata of the other; deleted vector back after an update that was told True; StorageError while reading; wrong count), each shown to be unexplained by any order; proved for threads with different file names. |
| C200 | Distances of integer vectors | Model of numpy arithmetic in fixed-width types (wrapping at every step, proved equal to wrapping once); equality with the float functions whenever the intermediate results fit, for signed types whenever one bit is unused; refutations for every unsigned type (the two Manhattan distances add up to 2^bits per differing coordinate), for every type (a far vector before a near one), and for squared distance and cosine. |
| C201 | Numbers reported about a data set | Model of the three functions over an ordered field with a square root; `Describes` says independently what four numbers should say about a list; law of total variance by exchanging sums; Cauchy-Schwarz and the square of the sum of the unit rows for the similarities. |
| C202 | A hybrid storage may be shared by threads | `Model/HybThreads`: methods with a lock next to methods without. Every locked call takes effect at the step that makes a vector file appear or disappear, or closes the disk part; what `list_vectors` can notice changes only there (invariant over schedules, `Lemmas/Shared`). Two schedules refute the claim for `get_stats` and `initialize`. |
| C203 | The batch size of batch_insert does not matter | `Props/SplitInsert`: the insert of each index (`Model/Flat`, `Hnsw`, `Ivf`, `Lsh`, `Annoy`) cut in two gives the same state (`Lemmas/SplitInsert`), hence, by induction over the batches of `Model/Batch`, in batches of any size. For IVF only when the insert does not train the index; a concrete run refutes the rest. |
| C204 | An IVF index filled by several threads can be searched | `Model/IvfPar` extends the threads of `Model/ParInsert` by the part of `insert` after the loop, one operation on the shared state at a time, with `_train_index` and `_add_to_cluster`. `Props/IvfPar`: stored rows and ids by simulation of the flat index, for every schedule; clusters by an invariant if the index is trained before and has a list for every cluster concerned, or stays too small to be trained; concrete schedules refute the rest. |
| C205 | A search beside inserts answers for one moment | `Model/FlatConc`: threads that insert, search, update and delete on one flat index, one statement on the shared state at a time, a search looping over the list of ids while it changes. `Props/FlatConc`: an invariant ties what a searching thread has read to the current state; the moment is when it reaches the end of the list. The answer is compared with the sequential search of `Model/Flat`. Proved if `k` is not larger than the number of vectors at the start, and for every `k` with two moments; a run refutes the rest. |
| C206 | Searches do not disturb inserts, updates and deletions | `Model/FlatConc`: threads that insert, search, update and delete on one flat index, one statement on the shared state at a time, a search looping over the list of ids while it changes. `Props/FlatConc`: simulation of the schedule by the one without searching threads. `Props/LoneIvfSearch`: the same for `Model/IvfConc`; there insertions read the cache that searches fill, so the simulation uses that the cache agrees with the storage; the schedule without searches is one of `Model/IvfPar`, so C204 holds beside searches. `Props/HnswHarmless`: the same for `Model/HnswPar`. |
| C207 | A search beside updates and deletions answers for one moment | `Model/FlatConc`: threads that insert, search, update and delete on one flat index, one statement on the shared state at a time, a search looping over the list of ids while it changes. `Props/FlatConc`: every hit is justified piece by piece (id listed, vector kept, metadata stored at some moment of the call), for every schedule; concrete runs refute the whole claim. |
| C208 | Threads leave the cache in agreement with the storage | `Model/FlatConc`: threads that insert, search, update and delete on one flat index, one statement on the shared state at a time, a search looping over the list of ids while it changes. `Props/FlatCache`: an invariant, if nobody deletes, no two threads update one id and every updated id is in the cache before; concrete runs refute the rest. |
| C209 | Configurations that cannot work are refused when the database is made | `Props/Factory` about the constructors of `Model/Configs`: the accepted configurations are characterised by conditions on the values under the keys, with the error of the first parameter that does not fit, and the parameters of what is built are compared with the values given. The seed check is that of `np.random.RandomState`. |
| C210 | Parallel insertion into an HNSW index keeps the graph well-formed | `Model/HnswPar`: threads that insert and search, one statement on the shared state at a time. `Lemmas/HnswPar`, `Props/HnswPar`: nothing is ever lost from one state to the next; an invariant says what each thread has achieved and where every entry comes from, with symmetry of links up to threads between the two directions. Runs refute the count, the top level and doubled links. One thread alone is compared with `Model/Hnsw` on examples, and every index reached by a history of calls is shown to be a possible start. |
| C211 | A search beside inserts into an HNSW index is sound | `Model/HnswPar`: threads that insert and search, one statement on the shared state at a time. `Props/HnswPar`: the same invariant with the candidates of searching threads; the only statement at which a search can come to raise is identified, and a run shows that it does. |
| C212 | A vector that is not finite is refused or harms nobody | `Model/Nan`: the searches of IVF and HNSW with distances that may be NaN (a value on top of the order) and any sort that permutes, leaves a list without a descent alone and sorts numbers stably. `Lemmas/Nan`, `Props/Nan`: soundness; agreement with the earlier models while distances are numbers; the exact answer of an untrained IVF index on a list without a descent, from which the wrong order follows for every such sort; refusal by LSH and Annoy; flat from C18. |
| C213 | A call that nobody interrupts is that of a single caller | `Props/LoneFlat`, `Props/LoneIvf`, `Props/LoneIvfSearch`, `Props/LoneIvfTrained`, `Props/LoneHnsw`, `Props/LoneHnswObjects`, `Props/LoneLsh`: the thread models (`Model/FlatConc`, `Model/IvfPar`, `Model/IvfConc`, `Model/IvfTrained`, `Model/HnswPar`, `Model/HnswConc`, `Model/LshConc`) run with one thread, shown to reach the result of the sequential models by induction over rows, ids, clusters, levels, neighbours, tables and buckets. `Model/HnswConc` has neighbour lists as objects: insertions and searches are reduced to `Model/HnswPar`; a deletion walks through the list of the node while it takes the node out of other lists, which is the sequential model as lists are not shared and nodes not linked to themselves (`C213_hnsw_links`: an invariant of every execution). `Model/IvfTrained` has cluster lists as objects; they are not shared in any execution (`C213_ivf_trained_own`). `Model/LshConc` starts after the dimension is set; a relaxed LSH search reads a table item by item and then the bucket of each code, which is the sequential filter as codes are not repeated (`C213_lsh_keys`: an invariant of every execution). For insertions into and updates on an IVF index k-means and the distances to the centroids are assumed not to raise, as in `Model/IvfPar`. `Props/LoneAnnoy` does the same for `Model/AnnoyConc` and `Model/Annoy`, for an index that is built and has its dimension. |
| C214 | Statistics of a pipeline | `Props/PipeStats`: `DocPipe.after` from a new pipeline, by induction over the calls with the counters as invariant; `C214_failed_refuted` shows that chunks of a document whose embedding failed are counted though nobody got them. |
| C215 | A client over an Annoy index keeps count of what it was given | `Spec/Ledger` (slots that are filled and emptied) and `Props/ClientAnnoy`: refinement of `Client.request` over `annoyParts`, by induction over the requests; the two refutations start from the state after any such history. |
| C216 | A database on disk after the death of its process | `Model/Crash` (a disk backend that also records its file steps; a death keeps a prefix of them), `Spec/Crash` (a call as a sequence of edits, interrupted at one of them), `Props/Crash`: the recorded steps of a call are those of its edits, every prefix of steps leaves the edits so far or one torn item, and C194 gives all later answers. |
| C217 | IVF and HNSW databases on disk after the death of their process | `Model/CrashIndices` and `Props/CrashIndices`: the file steps of a call over any index that keeps its vectors in storage are those of its edits (`Taped`); the forward simulation of C195 gives the directory before the call and all later answers; a torn file makes `initialize` raise on HNSW always, on IVF when it trains, and this state is closed under all calls. |
| C218 | The statistics of a database are true | `Model/ClientStats` and `Props/ClientStats`: the forward simulations of C194 and C195 carry the exact counts of the indices; a count law (`Counts`) is proved for every refinement of the abstract store, hence for the three backends. `Props/Reinit`: every history on disk and hybrid storage; on memory storage the counts after initialising an open HNSW client, for every history. |
| C219 | Deleting one id deletes that vector | `Model/DeleteOne` and `Props/DeleteOne`: a string run through in a `for` is the list of its characters (`pyChars`); the client theorems C194, C195 and the invariants of LSH and Annoy then give the effect of the call for every history. |
| C220 | The embedding processor counts its texts | `Props/EmbeddingStats` over `Model/Embedding`: a relation `Rises` between the states before and after says by how much both counters and the hits grow; it composes along single texts and batches. |
| C221 | When an HNSW search finds nothing | `Props/HnswTop` over `Model/Hnsw`: an invariant gives the number of nodes of every level as a function of the draws, that levels are nested, and that no node of a level with two or more nodes is without neighbours; the walk down then ends early exactly at a lone top node. This makes C26 exact. |
| C222 | An id that was never handed out touches nothing | `Props/NegativeIds` over `Model/Lsh` and `Model/Annoy`: Python list positions with negative numbers are part of the model (`pyGet`, `pySet`); the refutations hold for every history or state with a live slot, not for one witness. This makes the refutation of C34 universal. |
| C223 | A vector of another length is refused or harms nobody | `Props/OtherLength` over `Model/Ivf`, `Model/Hnsw`: comparability is a property of `env.dist` and `env.kmeans` (parameters that may raise); lengths enter through an arbitrary `dim : V → Nat`. Exact characterisations (`_iff`) of the failing searches, and universal refutations. The flat index is C18. |
| C224 | A hybrid database after the death of its process | `Model/CrashHybrid` (hybrid storage that records the file steps of its disk part; a death keeps a prefix of them and loses the memory part), specification and cut lemmas of C216, `Props/CrashHybrid`: the steps of a call are those of its edits; on the new process the memory part starts empty and never holds anything but items of the directory, so an unreadable file is met by every search. |
| C225 | Databases with the same content give the same answers | `Spec/SameAnswers`: agreement of two answers up to exchange of the items at the greatest distance. `Props/SameAnswers`: the simulation of C194 on both sides, over permuted contents; exact answers are unique up to such exchanges. |
| C226 | Storage backend and earlier searches leave no trace in IVF and HNSW answers | `Lemmas/Oblivious`: on a lawful storage every method of the two indices is a function of the index and the content alone (IVF: up to the cache). `Props/Oblivious`: a twin simulation over two storages; searches return the state they got. |
| C227 | An IVF database that probes all its clusters is exact | `Props/IvfExact`: the invariant of C20 with two more clauses, every live id is in a cluster and there are at most as many clusters as probes, gives exact searches; then the simulations of C195 and, for histories that initialise an open client, of `Props/Reinit`. Agreement with the flat database through uniqueness of exact answers (C225). |
| C228 | Closing and opening a persistent database changes no answer | `Props/Reopened`. Flat: `C225_reopened`. IVF with all clusters probed: the simulation of C227 on both sides. IVF and HNSW in general: every answer but search results is determined by the content; refuted for search results. |
| C229 | Asking for more results only adds results at the end | `Props/MoreResults`: each search sorts its candidates, cuts at k and loads the metadata one by one; loading a prefix gives a prefix. For every state, also unreachable ones. Annoy: the library answers are a parameter with the prefix property assumed. |
| C230 | Looking at more of the index never makes results worse | `Props/LookFurther`, order `Spec/NoWorse`: probed clusters grow with n_probes, so the scanned ids do (a sublist up to order), and sorting a part and the whole gives distances no worse rank by rank; two clients run side by side over every history. HNSW: the same for graphs of at most two levels. SAQ: the candidates of a smaller rescore_top_k are a prefix of those of a larger one, and a count of indices. |
| C231 | What an HNSW search finds in a database of at most m vectors | `Spec/HnswDrawn` computes the levels from the calls and draws alone and the number of copies by recursion on the level; `Lemmas/HnswDrawn` proves by induction over the history that the graph has these levels and, with complete samples, links all pairs on each level, and by induction on the level that the candidates are every live vector as often as the specification says; `Props/HnswCopies`. The same file proves for every sampling that a lone node on top finds nothing (C26) and characterises C26 and C27 for at most m vectors. |
| C232 | Changing metadata dictionaries in place does not change the database | `Model/HeapDb`: dictionaries are cells of a heap, the client over memory holds references (metadata type `Nat`), inserts and updates copy. `Spec/SharedObjects` maps references to contents in the abstract database. `Lemmas/HeapDb`: the abstract database commutes with that map. `Props/HeapDb`: one invariant for all three indices (references in the database exist and are not the caller's), induction over programs; write-through for every program, with a search before and after. |
| C233 | A search beside insertions into an IVF index is right | `Model/IvfConc` adds searching threads to the threads of `Model/IvfPar`, one operation on the shared state at a time, with the lists of the clusters as objects, so that a search goes on through a list that was replaced. `Lemmas/IvfConc`: invariant for every schedule (storage only grows; cache, lists and candidates agree with it). `Lemmas/IvfConcSearch`: if the clusters stay, what a search has seen is a sublist of the clusters it went through and contains what was there at the start. `Props/IvfConc`: the theorems; two schedules refute the rest. |
| C234 | A search of an HNSW index beside updates and deletions is sound | `Model/HnswConc`: threads that insert, search, update and delete on one HNSW index, one statement on the shared state at a time; lists of neighbours are objects, so that a search or a deletion keeps walking through the list of a node that has been deleted. `Props/HnswConc`: induction over the schedule, with the past of the search in the invariant. `Props/HnswConcCases`: schedules in which the search raises. |
| C235 | Inserts, updates and deletions of several threads on an HNSW index all take effect | `Model/HnswConc` as for C234. `Lemmas/HnswConc`: the effect of a statement on storage, vectors and levels, and an invariant for the progress of each call. `Props/HnswConc`: the claims for each call, for the end of all calls, and for a later search, which is shown to end. `Props/HnswConcCases`: refutations. |
| C236 | Inserts, updates and deletions of several threads on a trained IVF index all take effect | `Model/IvfTrained`: threads that insert, search, update and delete on one trained IVF index, one statement on the shared state at a time; the lists of the clusters are objects, iterators over the dictionary of clusters raise when its size has changed. `Lemmas/IvfTrained`: for each call an invariant of its progress (stages of each row, part of the clusters already looked through, part of the ids already deleted), kept by its own statements and by those of the others. `Lemmas/IvfTrainedInv`: the invariant of all threads. `Props/IvfTrained`: the claims; `Props/IvfTrainedCases`: cases and refutations. `Props/IvfRest`: an index at rest satisfies the invariant of the sequential index, so a later search is answered as C21 and C22 say. |
| C237 | A search of a trained IVF index beside inserts, updates and deletions is sound | `Model/IvfTrained` as for C236. `Lemmas/IvfTrainedSearch`: what a search has collected, and when it may raise; `Lemmas/IvfTrainedOnce`: without updates a list only gets new ids at its end or loses some, so no id comes back. `Props/IvfTrainedSearch`: the claims; `Props/IvfTrainedCases`: cases and refutations. |
| C238 | A call comes to its end whatever other threads do | `Lemmas/ThreadEnds`, `Props/ThreadEnds`, `Props/ThreadEndsHnsw`: for each call the number of statements it has left as a function of its place; its own statements make it smaller, others do not make it larger, by induction over the execution; for IVF with the invariant that clusters have numbers of centroids, for HNSW with levels that are never taken away. `Props/ThreadEndsCases`, `Props/ThreadEndsHnswCases`: searches, and deletions on HNSW, loop over a list other threads append to; for every number of statements an execution in which the call is not over is constructed by induction. `Props/LshEnds` and `Props/AnnoyEnds`: the same for LSH and Annoy; an LSH search has a bound while tables stay below a number of buckets and ids below a number, an Annoy search in the number of neighbours that the library names. |
| C239 | Metadata saved in a JSON file comes back as it was | `Model/JsonMeta`: metadata values as a tree, `json.loads(json.dumps(x))` as a function on it (standard library as documented), `validate_metadata` over it. `Spec/JsonMeta`: the values JSON has a word for, as an inductive predicate. `Props/JsonMeta`: a value comes back as it was iff it satisfies the predicate, by mutual induction; composed with the files of C121; keys that collide make the dictionary shorter. `Spec/JsonAccept`, `Props/JsonAccept`: `validate_metadata` accepts exactly None and the dictionaries with texts for keys and values that can be written; what becomes of keys that are no texts. |
| C240 | A search of an LSH index beside inserts, updates and deletions is sound and finds what nobody touches | `Model/LshConc`: threads that insert, search, update and delete on one LSH index, one statement on the shared state at a time; the iterator over the buckets of a table raises when a bucket has been added. `Lemmas/LshConc`: what a step keeps of an id that nobody names, what a search has collected. `Props/LshConcSearch`: the claims; `Props/LshConcCases`: cases and refutations. |
| C241 | Inserts, updates and deletions of several threads on an LSH index all take effect | `Model/LshConc` as for C240. `Spec/LshConc`: what it means that an id lives or is gone and that an index is at rest. `Lemmas/LshConcInv`: for each call an invariant of its progress (rows done, tables from which the id has been taken out or into which it has been put), kept by statements of other threads; `Lemmas/LshConcSteps`: kept by its own. `Props/LshConc`: the claims, a case and refutations. `Props/LshRest`: an index at rest is related to a list of slots as the sequential index of C30 is, so a later search is answered as C30 says. |
| C242 | A call that keeps getting its turn comes to its end | `Spec/Fair`: executions without end. `Lemmas/Fair`: a rank in a well-founded order that every own statement lowers and others leave gives an end in every fair execution; schedules each of which goes on in the next make an execution without end. `Props/FairLsh`: for LSH the rank is three numbers compared from the left, as a search counts the buckets of a table only when it begins with it, so no number of statements can be given beforehand. `Props/FairEnds`: the other indexes, from the bounds of C238, and the executions in which searches (and HNSW deletions) never end. `Props/AnnoyEnds`: Annoy, with a rank of two numbers, as a search knows the length of its loop only when the library has answered. |
| C243 | Threads that keep out of each other's way leave the same index in whatever order | `Props/LshOrder`, `Props/IvfOrder`, `Props/FlatRest`, `Props/HnswOrder` on the thread models `Model/LshConc`, `Model/IvfTrained`, `Model/FlatConc`, `Model/HnswConc`: what C241, C236, C244 and C235 say about each id after the end of its call determines the vector, the metadata and the number of times the id is in each list, so two executions agree on every id; lists with the same counts are permutations. Executions that run the calls one after the other are among those quantified over; by C213 they are those of a single caller. HNSW: `_partial` for vectors and metadata, a witness for the graph. `Props/AnnoyOrder`: Annoy from C245, and with the invariant that the library was given exactly the finished rows of the inserting thread. |
| C244 | Inserts, updates and deletions of several threads on a flat index all take effect | `Spec/FlatRest` (an index at rest, calls that keep apart), `Lemmas/FlatRest` (an invariant that says for each thread, at each of its statements, what is stored, cached and listed under each of its ids; a search only puts vectors of rows that are being inserted into the cache), `Props/FlatRest` on the thread model `Model/FlatConc`. The search afterwards: C213 reduces it to the sequential search, whose invariant (C13) the index at rest satisfies. |
| C245 | Threads that insert, search and delete on one Annoy index do not harm each other | `Model/AnnoyConc`: threads on one Annoy index, one statement on the shared state at a time, a library call as one step. `Spec/AnnoyConc`: what is assumed of the library (`LibOk`: it takes every item, answers every query and names only ids it was given; nothing about which). The library's own documentation does not promise that items can be added after `build`: with insertions after it the claim about searches stands only under this assumption; insertions and deletions alone do not need the index to be built. `Lemmas/AnnoyConc`: an invariant of all threads, `Props/AnnoyConc`: the claims, a case, and the two failures, each as a witness and for every index and every library. |
| C246 | An Annoy index that builds on disk removes its temporary file | `Model/AnnoyTemp`: the temporary file and the file system, around `Model/Annoy`; `mkstemp` and the library are parameters (assumed: `mkstemp` names a file that did not exist, nobody else creates files; saving to a path of the caller's is not among the calls). `Spec/AnnoyTemp`: histories, when `initialize` is in its turn, which files should be left. `Props/AnnoyTemp`: an invariant of all histories, the comparison with a build in memory, and the two failures for every index and every later history. |
| C247 | An index may be saved under any name without harm to the saved states | `Props/IncrNames` on `Model/Incr`: saving under another name keeps the list of checkpoint files and their content; files are never removed by any call or crash, so that a name without a number stays in the way for ever; the highest number wins. The half about `load_index` for other names is C155. |
| C248 | A cleared LSH index behaves like a new one | `Props/LshClear` on `Model/Lsh`: a simulation between the cleared and the new index. While neither has content all replies agree and they differ in the remembered length alone; the first insertion makes the two states equal. The projections are a function of seed and length in the model, as in the code where they are drawn once. |
| C249 | An incremental save that raises leaves what was saved before | `Props/IncrFails` on `Model/Incr`: case analysis of the saves; `load_state` by a characterisation of the sorted list of numbered names. Simplification: operating-system errors are not modelled and paths are strings; with a path that is no JSON value `save_state` and `save_index` would raise after saving too. |
| C250 | SAQ refuses codes with the wrong number of entries | `Model/SaqWidth` (saq.py:411-483 for any number of columns) and `Props/SaqWidth`: induction over the segments of one dimension; the columns a segment gets add up to all columns, so that a long code gives some segment two of them. That the first segments are single dimensions is C89 (exact arithmetic) and a hypothesis here. |
| C251 | Scalar and product quantisers refuse to encode vectors of another width | `Props/QuantWidth` over `Model/Scalar` and `Model/Product`: which operands `bzip` (numpy broadcasting of one row) accepts; division of the width by the part size finds the part that cannot be broadcast; cells that agree give rows of codes that agree. |
| C252 | Scalar and product quantisers refuse to decode codes of another width | `Props/DecodeWidth` over `Model/Scalar` and `Model/Product`: the same facts about `bzip` as C251; the loop over parts fails at the first entry that is missing or names no centroid and reads no entry beyond the last part (induction over the codebooks). |
| C253 | Distances are refused for exactly the codes that cannot be decoded | `Props/DistWidth` over `Model/Scalar` and `Model/Product`: both loops of the product quantiser fail at the first entry that is missing or names no centroid and read no entry beyond the last part (induction over the codebooks), the rest is C52; for the scalar quantiser the cases of C252 one by one. |
| C254 | Every data set that can be analysed can be printed | `Model/PrintAnalysis` (debugging.py:261-292, with what was printed) and `Props/PrintAnalysis`: by C128 and the branches of the model. The layout of the lines and the numbers of the lines for memory, range, mean and norms are not modelled. |
| C255 | A printed profile shows every measured operation once | `Model/PrintProfile` (debugging.py:91-109, with what was printed) and `Props/PrintProfile`: from C123, C124 and the invariants over programs that names are not doubled and no list of records is empty. The layout and rounding of the numbers are not modelled. |
| C256 | The progress a batch search shows ends at 100 per cent | `Model/BatchLines` (batch_manager.py:139-168 with the lines of 254-275) and `Props/BatchLines`: induction over the batches with the number of processed items as invariant. Elapsed time and ETA are not modelled; the lines of batch_insert are C257, those of parallel_batch_insert are not modelled. |
| C257 | The progress a batch insert shows ends at 100 per cent | `Model/InsertLines` (batch_manager.py:83-111 with the lines of 254-275) and `Props/InsertLines`: induction over the batches; no line exceeds the sum of the sizes of the batches the client can store, and all sizes add up to the number of vectors. Elapsed time and ETA are not modelled. |

## Where the code disagrees with the property

* **C06** `store('a_b')` overwrites what `store('a/b')` wrote: both ids map to the file name `a_b`. True for ids with different sanitised names.
* **C08** A crash inside `store_vector`/`update_vector` can leave the new vector with the old metadata, or an unreadable id. Delete is atomic.
* **C12** After `store('a/b')`, `delete('a_b')` the hybrid backend still returns the vector from memory, plain disk storage does not.
* **C17** A failing row leaves the rows before it stored and searchable while the reported count is stale; on disk storage a row with metadata that cannot be pickled leaves an unreadable id, and after a restart every search raises.
* **C20** An IVF update that raises (wrong dimension) has already stored the new vector and removed the id from its cluster: the live id is in no cluster and no search sees it. An insert that raises while placing rows leaves the remaining rows stored but in no cluster.
* **C26** A search on a non-empty HNSW index returns [] when the entry node of the top level has no neighbour there (single vector drawn above level 0) or when the top level lost its nodes by deletes: candidates of a level are only the neighbours, and max_level is never lowered.
* **C27** With more than one level the level-0 step appends neighbours of several candidates without checking for repetition, so an id is returned twice and displaces others from the top k.
* **C33** lsh.py:234-267 assigns the new vector before hashing it; hashing a vector of another dimension raises, the method returns False, and the old vector is already lost (C33_lsh_update_refuted).
* **C34** lsh.py:201-218 has no lower bound on the id, so "-1" denotes the last vector (C34_lsh_delete_refuted).
* **C84** lsh.py:104-107 appends the vector before it calls metadata.copy(); a None entry raises in between and shifts the metadata of all later ids (C84_lsh_metadata_refuted).
* **C85** lsh.py:282-286 extends a list with the ids in each bucket instead of appending bucket sizes; max_bucket_size is the largest id (C85_lsh_stats_refuted).
* **C37** annoy.py:281-297 only blanks the python lists; the id stays in the annoy structure and search returns it with metadata None.
* **C38** annoy.py:140-147 blanks position id, then `add` appends the vector and metadata at the end of the lists while the annoy item is stored under id; the updated id reports None, and the next inserted id reports the updated metadata.
* **C39** annoy.py:299-312 and 416-427 drop the annoy index but keep the dimension, and annoy.py:169-175 creates the annoy index only when the dimension is None; later adds call add_item on None.
* **C86** annoy.py:361-380 writes no vectors or metadata; annoy.py:260-270 skips ids beyond the empty vector list.
* **C43** tensor.py:49-50 opens the file with "wb" before pickling, so a failing or interrupted dump leaves a truncated file and later loads raise.
* **C45** incremental.py:64-70 writes the checkpoint and the counter file non-atomically: a torn checkpoint makes load_state raise, and a crash between the two makes later acknowledged saves reuse lower numbers, which load_state ignores.
* **C47** incremental.py:81-105 never uses `path`.
* **C87** incremental.py:65-66 truncates checkpoint_n.pkl before pickling; load_state then picks the broken file.
* **C88** train assigns self.dim before the checks. A rejected array of another width leaves the scalar quantiser unable to encode, and makes the product quantiser decode to vectors of another width. An array that StandardScaler rejects leaves the SAQ quantiser without scaler statistics: nothing can be encoded or decoded.
* **C89** The dynamic program of SAQ minimises a sum that is the same for every segmentation, so in exact arithmetic the data do not matter.
* **C90** `self.n_segments = dim` is kept: training on wider data afterwards uses too few segments.
* **C57** `initialize` accepts a negative `chunk_overlap`; text between the chunks is then lost (C57_negative_overlap).
* **C58** After the chunk that reaches the end of the text, up to `chunk_overlap` further chunks follow, each a suffix of it.
* **C60** With `chunk_overlap = 0` the slice `[-0:]` is the whole chunk, so every chunk repeats all text before it.
* **C92** Semantic chunks' `start_pos`/`end_pos` do not locate the text.
* **C93** `_get_page_for_position` does not count the page separators.
* **C94** Docling's `start_element` is `chunk_id * chunk_size`.
* **C96** normalize_vectors adds 1e-8 to the norm (helpers.py:140-151), so the matrix diagonal is below 1 and identical vectors are missed at threshold 1, and short ones at any fixed threshold.
* **C98** Range checks only reject what compares as outside (validation.py:181-188); NaN and non-numbers pass.
* **C78** get_config("index", "small_dataset") searches inside the groups (configs.py:389-392), so every call of get_recommended_config raises ValueError.
* **C100** create_vector_db() raises TypeError: None < 1000 (factory.py:52, helpers.py:387).
* **C101** hnsw.py:30 reads "m"; configs.py, factory.py and helpers.py all write "M". hybrid.py:31-38 reads "memory", "disk", "memory_limit", none of which the shipped hybrid configuration sets.
* **C103** Unknown keyword arguments of create_vector_db are dropped (factory.py:43-63).
* **C104** factory.py:117-133 assigns index_config after merging the caller's arguments.
* **C105** batch_manager.py:83-113: the callback is called inside the try block after the counters are updated.
* **C106** batch_manager.py: total_items is assigned, processed and failed are incremented.
* **C107** cleaning.py:127-135: normalize("NFKD") after re.sub of tags.
* **C109** cleaning.py:154-164: the bounds are only read inside the stop-word branch.
* **C69** pipeline.py:33-35 passes config["parsers"] to the registry, registry.py:50 looks up "parsers" in it again.
* **C111** embedding.py:143-145.
* **C112** embedding.py:242-258 against 143-145.
* **C113** embedding.py:299 calls get_embedding_dimension.
* **C114** embedding.py:283.
* **C115** embedding.py:152, 169-176 return and store the same array.
* **C116** embedding.py:131-135.
* **C117** pipeline.py:43-55 appends; only close clears.
* **C118** helpers.py:116-117, see C69.
* **C121** helpers.py:272-282 writes any name, helpers.py:307-327 chooses the format by the suffix.
* **C125** memory_usage_decorator wraps the call of the function in the `try` meant for `import psutil`; an ImportError of the function makes it run twice.
* **C127** similarity_matrix[mask] holds both (i, j) and (j, i); the counts of pairs are doubled.
* **C128** For one vector the off-diagonal selection is empty and np.min raises ValueError. A one-dimensional array raises IndexError.
* **C129** count_nonzero / size is the density, not the sparsity.
* **C131** HNSW keeps its vectors in a dict, which is sliced; a deleted vector is a None slot, which cannot be stacked with arrays.
* **C139** _rescoring_search looks candidates up in full_precision_vectors, the last training data, whatever vectors the codes come from; more codes than training vectors raise IndexError.
* **C144** The last segment gets the remaining bits whatever its variance: 2 bits over 3 segments leave none for a last segment with 98% of the variance.
* **C145** Links back to chosen neighbours are never pruned, so the degree of one node is not bounded.
* **C146** retrieve_vector (and so search) hands out the stored metadata dictionary itself; nested lists are shared with the caller.
* **C148** "en" for German texts; an undetected encoding is reported as None, the default "utf-8" is never used.
* **C149** Text in Word tables does not enter text or chunks.
* **C150** Empty cells and rows are dropped, so columns do not line up.
* **C152** Rows never have norm one; identical rows have cosine below one (see C96).
* **C156** Log numbers repeat after restarts unless checkpoint_interval is 1.
* **C157** logging.py:61-63 returns early when handlers exist, without setting the level; debugging.py adds handlers unconditionally.
* **C158** Loggers have a handler of their own and propagate to the root, so messages come twice; their level INFO is fixed at first use.
* **C160** cleaning.py normalises all white space to single blanks before chunking.py:125-184 looks for paragraph breaks; chunks over max_chunk_size = 2000 are dropped at chunking.py:227-237, so long documents are lost.
* **C161** scalar.py:232 reports 32/bits although codes are int32 or int64; product.py:252-257 forgets that one code stands for subvector_dim coordinates; saq.py:127-130 counts total_bits although codes are int32.
* **C162** initialize of all three leaves _trained set; saq.py:638 then reads explained_variance_ratio_ of an unfitted PCA. saq.py:97-98 reduces n_segments for good.
* **C163** memory.py: _initialized is tested outside the lock.
* **C164** flat.py insert ends with _vector_count = len(_vector_ids), a read and a write that another thread can come between.
* **C165** lsh.py:95-115: the id is taken before the vector is appended to the list that it is an index of, without a lock; dimension is set before projections are drawn. annoy.py:175-200 has the same pattern. batch_manager parallel_batch_insert calls add from several threads.
* **C166** batch_manager.py:412-413 leaves the loop without clearing monitoring; lines 368-376 test and set without a lock.
* **C167** start_monitoring does not clear resource_data.
* **C168** batch_manager.py:334 divides by total; lines 345-347 do not limit the bar.
* **C169** start_time is overwritten by every operation but processed_items is never cleared; end_time keeps the value of the previous operation.
* **C170** client.py has no build and insert does not build; annoy.py:241-244 refuses.
* **C171** factory.py:245 assigns doc_id after merging.
* **C172** factory.py:165 (and 252 for hybrid search) reads vectors.shape[1] of an array with one axis.
* **C174** incremental.py:248-249 appends to the log without looking for a missing newline.
* **C177** incremental.py:69-75 writes the counters before the operation is counted, so a restart reads an old operation_count (the same cause as C156).
* **C178** registry.py:50-52 builds parsers only for the entries of the configuration given to the constructor; add_parser (registry.py:160-177) records the class but not the configuration of an added parser.
* **C183** flat.py:36, ivf.py:43, hnsw.py:46 set `_initialized` before the storage is listed.
* **C184** disk.py:60-76: the vector file exists before the count is refreshed, so a refused store leaves a listed vector that is not counted.
* **C185** hybrid.py:130-149: a refused update of the disk leaves the old vector in memory and possibly the new one on disk.
* **C186** pdf_parser.py:69-82: the text is appended before `get_images` is called, so an exception there leaves a text without an entry and shifts the pages of later chunks.
* **C187** docling_parser.py:165-208: the parameter `tables` is never read.
* **C188** chunking.py:250-251 divides the characters read, not the characters in the chunks, and by at least 1; cleaning.py:182-183 can be negative.
* **C189** cleaning.py:45-52 empties the stop words first and only catches ImportError, while nltk raises LookupError for a missing corpus; docling_parser.py:41 constructs the converter where only ImportError is caught.
* **C190** embedding.py:63-71 and 96-102 overwrite `_model` and `device` before everything has worked.
* **C191** helpers.py:456 calls `add`, which flat.py, hnsw.py and ivf.py do not have; helpers.py:472 divides by the sum of an empty list.
* **C192** scalar.py:118 clips to `upper_bound` in the type of the array, where 2^bits - 1 becomes 2^bits, and scalar.py:156 makes every code a float32.
* **C193** client.py:66-97 forward to the index alone: `quantizer` and `persistence_manager` are only started, stopped and asked for statistics.
* **C195** Initialising an open client on memory storage again empties the storage, but `IVFIndex.initialize` keeps clusters and cached vectors (ivf.py:40-56): every search that probes such a cluster raises ValoriIndexError. `HNSWIndex.initialize` keeps `vectors` (hnsw.py:43-61): the reported vector_count counts vectors that are gone.
* **C196** `LSHIndex.initialize` ignores the storage (lsh.py:59-63) and `close` clears the index (lsh.py:397-400): a client over an LSH index never stores anything in its storage, so closing loses all vectors even on disk. Calling initialize on an open client makes new empty tables and keeps the vectors: all stored vectors become unfindable while the count stays; ids restart at 0 after a close.
* **C197** `self.data_dir / path` (tensor.py:46, 65, 84, 108, 130, 150; incremental.py:113, 140, 160, 181) is not checked: an absolute path or enough ".." names any file on the machine, which a save overwrites and a load unpickles. `IncrementalPersistence.save_index(..., "checkpoint.json")` overwrites the counters of the manager; after a restart they start at 0 and load_state returns a state older than the last acknowledged save.
* **C199** `DiskStorage` has no lock although `parallel_batch_insert` uses it from several threads: `store_vector` writes vector and metadata files separately (disk.py:60-73), `update_vector` checks existence before writing (disk.py:145-150), and `_vector_count` is a length listed earlier (disk.py:75). Two stores under one id may leave a mixed pair, an update may bring a deleted vector back, a reader may get StorageError, and vector_count may be too small for good.
* **C200** Nothing converts integer arrays to floats: `a - b` and `np.dot` wrap around in narrow types (similarity.py:28, 77, 97-98, 118, 138, 158; hnsw.py:324, 332; ivf.py:400, 408). For uint8 vectors distances are not symmetric, a vector may have cosine similarity 0 with itself, and HNSW/IVF search ranks far vectors first. The flat index is not affected: sklearn converts.
* **C202** `get_stats` (hybrid.py:158-172) asks memory and disk one after the other without the lock, so it may report a vector in memory that is not on disk; `initialize` (hybrid.py:41-48) takes no lock, so a storage closed meanwhile may look open with closed parts.
* **C203** `IVFIndex.insert` (ivf.py:94-99) trains on the first batch that brings the index to `n_clusters` vectors, so a small batch size gives other clusters and other search results than one insert. LSH and Annoy check that there are as many metadata entries as vectors per batch only (lsh.py:78-82), so surplus metadata is dropped silently when the last batch is full.
* **C204** `IVFIndex.insert` takes no lock. Two threads that both see an untrained index with enough vectors both train it (ivf.py:94-95): a stored vector can end in no cluster and never be found again, every vector can be listed twice (and returned twice by one search), or a thread can raise because the other one cleared the clusters. Also `_add_to_cluster` (ivf.py:341-343) can replace a list another thread has just made.
* **C205** `FlatIndex.search` cuts `k` to the number of vectors (flat.py:101) before it walks through the list, which may have grown until then: the answer can hold fewer than `k` vectors although there are more, and be one that no state of the index justifies.
* **C207** `FlatIndex` has no lock: when another thread deletes a vector, the loop over `vector_ids` (flat.py:111) skips a vector that is not concerned, or the search raises at flat.py:147; beside an update a hit can carry the old distance and the new metadata.
* **C208** Storage and cache are written one after the other without a lock (flat.py:205-209, 115-119): two updates of one vector, or an update and a search that loads the vector, can leave an old vector in the cache for ever; a deleted vector can stay in it.
* **C209** `FlatIndex`, `HNSWIndex` and `IVFIndex` (flat.py:25-31, hnsw.py:27-41, ivf.py:25-38) check no parameter: `{"metric": "foo"}` or `n_clusters = -1` makes a database that fails, or answers nonsense, later.
* **C210** `HNSWIndex._insert_vector_internal` has no lock: `_vector_count` and `max_level` (hnsw.py:264, 286) are read and written separately, so both can end too low, and two threads linking to each other (hnsw.py:299-302) can enter a link twice, of which a later delete removes only one.
* **C211** `next(iter(...))` over the nodes of a level (hnsw.py:123) raises RuntimeError, passed on as an index error, when another thread adds a node in between.
* **C212** Only LSH and Annoy validate (lsh.py:95-96, annoy.py:183): a NaN taken by FlatIndex makes every search raise until it is deleted; in IVFIndex and HNSWIndex it leaves `sort` (ivf.py:129, 157, 377; hnsw.py:144, 163) with keys that do not compare, so that a far vector is answered for a near one; k-means refuses it, so that every insert into an untrained IVFIndex with `n_clusters` vectors raises although its rows are stored. AnnoyIndex.update removes the vector before the new one is refused (annoy.py:117-150).
* **C214** chunks of a document that is refused because its embedding failed are counted in `chunks_created` (`C214_failed_refuted`); when the model answers every text the counters agree with the answers.
* **C215** an updated vector can no longer be deleted, though delete says yes, and stays in the count (`C215_update_refuted`); after close and initialize every insert of the old dimension raises AttributeError and is counted as one more vector (`C215_reopen_refuted`).
* **C216** every insert has a moment after which every search of the new client raises until an id nobody was told is deleted (`C216_unsearchable_refuted`), one after which only the first vector of the batch is there (`C216_half_batch_refuted`), and every update one after which the new vector stands with the old metadata (`C216_mixed_refuted`).
* **C217** every insert has a moment after which an HNSW database can never be opened again through a client: `initialize` raises and every request is refused, so that not even the bad item can be deleted (`C217_hnsw_locked_refuted`); the same for IVF once there are as many files as clusters (`C217_ivf_locked_refuted`).
* **C218** an HNSW client that is open and is initialised again on memory storage reports the vectors of before in its index count and none in its storage count, for every history (`C218_reinit_refuted`, witness `C218_hnsw_refuted`).
* **C219** on flat, IVF and HNSW indices whose ids are longer than one character the call answers False and deletes nothing; on LSH and Annoy an id of several digits answers True, keeps this vector and deletes the vectors whose ids are its digits (`C219_flat_refuted`, `C219_ivf_refuted`, `C219_hnsw_refuted`, `C219_lsh_refuted`, `C219_annoy_refuted`; docs/getting_started.rst:202 against the signature `ids: List[str]`).
* **C220** a batch given to a model that is not sentence-transformers is counted twice: each text when it is embedded, and the whole batch again at the end (embedding.py:249-261; `C220_batch_refuted`). Blank texts count in a batch and not alone.
* **C222** lsh.py:240-265 and 203-218, annoy.py:131-147 and 291-297 only compare the number with the length from above; negative numbers reach `self.vectors[id]` and count from the end. After an Annoy update with "-1" `_next_id` is 0.
* **C223** ivf.py:58-104 and hnsw.py:63-99 never compare the length of a new vector with the stored ones; ivf.py:71-89 stores rows before ivf.py:98-99 assigns clusters; ivf.py:351-357 removes the id from its cluster before the new distance is computed; ivf.py:52-54 trains in initialize, so `np.array` of unequal rows stops the opening.
* **C224** as for C216: every insert has a moment after which every search of the new client raises until the first id of the batch is deleted (`C224_unsearchable_refuted`), and one after which only the first vector is there (`C224_half_batch_refuted`).
* **C228** opening an IVF database trains it again on all vectors, opening an HNSW database draws a new graph: the same search then returns other items with other distances (`C228_ivf_refuted`, `C228_hnsw_refuted`).
* **C230** for HNSW the claim is false: a larger ef_search keeps more candidates on the middle levels, whose neighbours then fill the places on the level below and push the better path out (`C230_ef_refuted`: ef_search 1 finds the nearest vector, 2 does not).
* **C232** memory.py:82-83 returns the stored metadata dictionary without a copy (vectors are copied, and metadata is on the way in), and searches pass it on: a caller that edits a result edits the database.
* **C233** `IVFIndex.search` takes no lock and reads the dictionary of clusters twice (ivf.py:137-138): with a second training in between it raises KeyError, passed on as an index error; with a second training between two clusters it can return a vector twice.
* **C234** A search that meets a deletion may raise ValoriIndexError: the vector is tested to be in the index or found there, and then is no longer in the index (KeyError) or in the storage (TypeError on unpacking None) (`C234_search_raises_refuted`).
* **C235** Two threads that delete two linked vectors: one deletion raises (KeyError in `level[neighbor_id]`, reported as ValoriIndexError) after the vector is gone from the storage and from `vectors` but not from the levels; if its node is the first of the top level, every search raises from then on, whatever the query and k (`C235_two_deletions_refuted`, with the general `C235_broken_entry`). An insertion beside a deletion of a vector it chose as a neighbour raises and leaves its row behind (`C235_insert_beside_delete_refuted`). An update and a deletion of one id may both return True and leave a vector in the index that is not stored (`C235_update_beside_delete_refuted`). The theorems about insertions, deletions and the end of all calls are for calls that did not raise.
* **C236** After an insertion beside a deletion `_vector_count` may be wrong (`C236_count_refuted`). If a cluster has no list (k-means left it empty), an insertion or update that makes one lets a deletion or update of another id raise (RuntimeError: dictionary changed size during iteration) half-way (`C236_new_cluster_refuted`). If two threads touch the same id: an update and a deletion may both return True and leave an id in a cluster that is not stored, so that later searches raise (`C236_update_beside_delete_refuted`); two updates may leave the id twice in a list, so that later searches return it twice (`C236_two_updates_refuted`). The rest of the claim is proved.
* **C237** A search may raise when an id is deleted between the test whether it is cached and the reading of its vector (`C237_raises_refuted`; never without deletions: `C237_answers_partial`), may miss the nearest vector that nobody touches when a deletion or update shifts the list it walks through (`C237_misses_refuted`), and may return an id twice when an update moves it (`C237_twice_refuted`; never without updates: `C237_once_partial`).
* **C238** A search on a flat or trained IVF index loops over the list object that insertions append to (flat.py:111, ivf.py:138), so insertions that keep pace keep it busy for as long as they like (`C238_flat_search_refuted`, `C238_ivf_search_refuted`, for every index with a vector). The same holds for a search of an HNSW index, which walks the list of neighbours of a node, and for a deletion, which loops over the list of neighbours of the deleted node (hnsw.py:314) while insertions connect new nodes to it (`C238_hnsw_search_refuted`, `C238_hnsw_delete_refuted`). The other calls have a bound; so have these while lists stay below a bound or, for the flat index, nobody inserts.
* **C239** validate_metadata checks with `json.dumps` that a value can be written (validation.py:336), not that it can be read back: `{"size": (640, 480)}` and `{"labels": {1: "cat", "1": "dog"}}` pass and come back as a list, and with one label only (`C239_file_refuted`, `C239_collision_refuted`). save_vectors_to_file does not validate: a value JSON has no word for (an array, say) raises TypeError after the file has been opened for writing, and its earlier content is gone (`C239_unvalidated_refuted`).
* **C240** A search may raise RuntimeError when it tries the buckets near to the query and another thread adds a bucket (`C240_raises_refuted`; never beside searches and deletions only: `C240_calm`); it may return None as metadata of a vector that is being deleted (`C240_metadata_refuted`), the similarity of the old vector with the metadata of the new one (`C240_mixed_refuted`), and may miss a vector while it is updated, even to the same vector (`C240_missed_refuted`). Vectors that nobody updates or deletes are found (`C240_finds`).
* **C241** If two threads name the same id: two updates may both return True and leave the vector of one with the metadata of the other and the id twice in a bucket (`C241_updates_refuted`); an update and a deletion may both return True though the vector is still there (`C241_revived_refuted`). With two inserting threads see C165. The rest of the claim is proved for calls that name different ids.
* **C242** Searches on flat, trained IVF and HNSW indexes, and deletions on an HNSW index, loop over a list object that insertions append to (flat.py:111, ivf.py:138, hnsw.py:314): beside insertions that keep pace they never end, though they get their turn infinitely often (`C242_flat_search_refuted`, `C242_ivf_search_refuted`, `C242_hnsw_search_refuted`, `C242_hnsw_delete_refuted`). An LSH search has no such execution: the iterator of the table notices that it has grown and the search raises (C240).
* **C243** HNSW: the first node of the top level is where every search starts, and new nodes are linked to nodes already there, so the order of two insertions changes what searches find (hnsw.py:120-129, 289-302; `C243_hnsw_refuted`).
* **C245** annoy.py:187-196 reads and raises `_next_id` and appends to two lists without a lock, so that two threads get the same id and `metadata` can be appended in the other order than `vectors`; annoy.py:293-297 tests the length of `vectors` and then writes to `metadata`, which an insertion extends one statement later.
* **C246** annoy.py:74-77 makes a new file on every `initialize` and forgets the old one; annoy.py:310-312 removes the file in `clear` although the index stays in use, so that annoy.py:216 calls `save(None)`.
* **C247** incremental.py:88-93 takes every file of the directory that matches `checkpoint_*.pkl` for a saved state, also those that incremental.py:160-165 wrote under a path of the caller's.
* **C248** lsh.py:269-274 leaves `dimension` and `projections` as they are, and lsh.py:84-92 refuses vectors of another length from then on.
* **C249** incremental.py:117 writes the file before incremental.py:120-127 logs the operation, and a failure of `json.dumps` (incremental.py:249) on the ids is reported as a failure to save.
* **C250** saq.py:430-433 splits codes of another width by the dimensions of the segments, saq.py:457 skips segments that got no column.
* **C251** scalar.py:108-109 and product.py:119-130 check no width: they subtract and slice, and numpy broadcasts an axis of length 1 and cuts slices short.
* **C252** scalar.py:156-157 multiplies and adds without looking at the width (the array made in line 153 is thrown away), product.py:155-162 reads the first m columns only.
* **C253** scalar.py:191 takes the dot product of the query cut to one entry and of the decoded vector, which has as many entries as the code (scalar.py:157).
* **C254** debugging.py:270 looks up a key that the answer for an empty array (debugging.py:135-136) does not have.
* **C256** batch_manager.py:133 sets the total anew and batch_manager.py:158-160 adds to the old number of processed items; nothing but reset_stats sets it to zero.
* **C257** batch_manager.py:77 sets the total anew and batch_manager.py:91-93 adds to the old number of processed items; failed batches are counted in another counter (104-106) and print no line.

## Trusted base

* Lean's kernel.  The axioms each theorem may depend on are `propext`,
  `Classical.choice` and `Quot.sound`; nothing else (no own axioms, no compiled
  evaluation).
* That the model reads the code faithfully.  The code is not run.

## Mutation tests

`seeded/LOG.jsonl` has one line per edit of a model file.  The edits are generated by
pattern (boundaries, swapped branches, dropped updates, exception classes) in a copy of
the project without the `example`s; edits that do not compile by themselves are not counted.
How to read a line:

* "a proof stopped checking" means that the build failed at `theorems_failed`.  It does not
  show by itself that a property theorem became false: a helper lemma may be more precise than
  the claim.  `claim` and `property_theorems_nearest` are computed from the dependencies of the
  failing declarations, not judged by hand, and a build stops at the first failing file of each
  chain, so later failures are not listed.
* For an edit that survived, `review` says why it changes nothing a caller can see, or that it was
  "not yet reviewed".
* The first runs were made at earlier commits; survivors are run again on later ones.

## Not modelled

Float rounding (except C192), NaN propagation (except in C212 and where a `finite` predicate is named),
numpy dtype conversions, aliasing of arrays and metadata dictionaries outside the
memory storage, clients of flat, IVF and HNSW indices over memory (C232) and the embedding cache, power loss, the
libraries that decode PDF, Office and docling files (parameters),
sentence-transformer models.

Concurrent use of one component from several threads is modelled for the in-memory storage (C163),
disk storage (C198, C199), hybrid storage (C202), for all calls on a flat index (C164,
C205-C208), for insertion into LSH indices (C165), for insertion and search on IVF indices (C204, C233), and for all
calls on HNSW indices (C210, C211, C234, C235), trained IVF indices (C236, C237) and LSH indices (C240, C241), for insertion, search and deletion on Annoy indices (C245);
within how many statements calls end is C238.  For everything else calls come one after the other.
