import Verif.Model.Configs
import Mathlib.Data.String.Basic
import Mathlib.Data.List.Sort
import Mathlib.Data.List.Dedup

/-!
# Parser registry and processing pipeline: parsers/registry.py, processors/pipeline.py,
utils/helpers.py:62-119
-/

namespace Valori

/-- A parser object, parsers/base.py:10-81.  Parsing acts on the world `σ` (files, counters of the
objects) and may raise. -/
structure ParserObj (σ D : Type) where
  className : String
  formats : List String
  canParse : String → Bool
  parse : σ → String → Res σ D
  close : Except Err Unit

/-- A parser class: constructor followed by `initialize`, which may raise. -/
abbrev ParserClass (σ D : Type) := Cfg → Except Err (ParserObj σ D)

/-- `ParserRegistry`, registry.py:18-45. -/
structure Registry (σ D : Type) where
  config : Conf
  parsers : Dict String (ParserObj σ D)
  classes : Dict String (ParserClass σ D)
  priorities : Dict String Int
  init : Bool

variable {σ D : Type}

/-- The four built-in classes. -/
structure Builtin (σ D : Type) where
  text : ParserClass σ D
  pdf : ParserClass σ D
  office : ParserClass σ D
  docling : ParserClass σ D

/-- `__init__`, registry.py:26-45. -/
def Registry.new (B : Builtin σ D) (config : Conf) : Registry σ D where
  config := config
  parsers := []
  classes := [("text", B.text), ("pdf", B.pdf), ("office", B.office), ("docling", B.docling)]
  priorities := [("text", 1), ("pdf", 2), ("office", 3), ("docling", 4)]
  init := false

/-- The loop of `initialize`, registry.py:50-58: unknown names and parsers that raise are skipped. -/
def startLoop (classes : Dict String (ParserClass σ D)) :
    List (String × Cfg) → Dict String (ParserObj σ D) → Dict String (ParserObj σ D)
  | [], ps => ps
  | (name, cfg) :: items, ps =>
    match classes.get? name with
    | none => startLoop classes items ps
    | some cls =>
      match cls cfg with
      | .error _ => startLoop classes items ps
      | .ok p => startLoop classes items (ps.set name p)

/-- `initialize`, registry.py:47-60.  A value of "parsers" that is no dictionary makes `.items()`
raise. -/
def Registry.start (R : Registry σ D) : Except Err Unit × Registry σ D :=
  match getD R.config "parsers" (.dict []) with
  | .dict items => (.ok (), { R with parsers := startLoop R.classes items R.parsers, init := true })
  | _ => (.error .attribute, R)

/-- The suitable parsers with their priorities, registry.py:91-95. -/
def Registry.suitable (R : Registry σ D) (path : String) : List (Int × ParserObj σ D) :=
  R.parsers.filterMap fun (name, p) =>
    if p.canParse path then some ((R.priorities.get? name).getD 0, p) else none

/-- `get_parser`, registry.py:62-103; sorting with `reverse=True` is stable. -/
def Registry.getParser (R : Registry σ D) (path : String) (name : Option String) :
    Except Err (ParserObj σ D) :=
  if !R.init then .error .parsing else
  if name.getD "" ≠ "" then
    match R.parsers.get? (name.getD "") with
    | some p => .ok p
    | none => .error .parsing
  else
    match (R.suitable path).insertionSort fun a b => b.1 ≤ a.1 with
    | [] => .error .parsing
    | (_, p) :: _ => .ok p

/-- `parse_document`, registry.py:105-119. -/
def Registry.parseDocument (R : Registry σ D) (s : σ) (path : String) (name : Option String) : Res σ D :=
  match R.getParser path name with
  | .error e => (.error e, s)
  | .ok p => p.parse s path

/-- `get_supported_formats`, registry.py:121-130. -/
def Registry.formats (R : Registry σ D) : List String :=
  if !R.init then [] else
  ((R.parsers.vals.flatMap ParserObj.formats).dedup).insertionSort (· ≤ ·)

/-- `add_parser`, registry.py:160-177. -/
def Registry.add (R : Registry σ D) (name : String) (cls : ParserClass σ D) (cfg : Cfg) :
    Except Err Unit × Registry σ D :=
  match cls cfg with
  | .error _ => (.error .parsing, R)
  | .ok p => (.ok (), { R with parsers := R.parsers.set name p, classes := R.classes.set name cls })

/-- `remove_parser`, registry.py:179-192. -/
def Registry.remove (R : Registry σ D) (name : String) : Except Err Unit × Registry σ D :=
  match R.parsers.get? name with
  | none => (.ok (), { R with classes := R.classes.pop name })
  | some p =>
    match p.close with
    | .error e => (.error e, R)
    | .ok () => (.ok (), { R with parsers := R.parsers.pop name, classes := R.classes.pop name })

/-- `close` of a list of objects in order, stopping at an exception. -/
def closeAll : List (Except Err Unit) → Except Err Unit
  | [] => .ok ()
  | .error e :: _ => .error e
  | .ok () :: cs => closeAll cs

/-- `close`, registry.py:194-200. -/
def Registry.close (R : Registry σ D) : Except Err Unit × Registry σ D :=
  match closeAll (R.parsers.vals.map ParserObj.close) with
  | .error e => (.error e, R)
  | .ok () => (.ok (), { R with parsers := [], init := false })

/-- What a caller may do with a registry. -/
inductive RegOp (σ D : Type) where
  | start
  | add (name : String) (cls : ParserClass σ D) (cfg : Cfg)
  | remove (name : String)
  | close

/-- One call. -/
def RegOp.step (R : Registry σ D) : RegOp σ D → Registry σ D
  | .start => R.start.2
  | .add name cls cfg => (R.add name cls cfg).2
  | .remove name => (R.remove name).2
  | .close => R.close.2

/-! ## Pipeline -/

/-- The kinds of processors, pipeline.py:41-55. -/
inductive ProcKind where
  | cleaning | chunking | embedding
deriving DecidableEq, Repr

/-- Its key in the configuration. -/
def ProcKind.key : ProcKind → String
  | cleaning => "cleaning"
  | chunking => "chunking"
  | embedding => "embedding"

/-- A processor object, processors/base.py. -/
structure ProcObj (σ D : Type) where
  kind : ProcKind
  run : σ → D → Res σ D
  close : Except Err Unit

/-- `pipeline_metadata` of a processed document, pipeline.py:88-93. -/
structure PipeMeta where
  path : String
  parserUsed : String
  processorsUsed : List ProcKind
deriving DecidableEq, Repr

/-- What the pipeline is built from: the parser classes, the processor constructors followed by
`initialize` (which may raise), and the assignment of `pipeline_metadata` in a document.  `embedding`
and `meta` read those keys of a document. -/
structure PipeEnv (σ D V M : Type) where
  builtin : Builtin σ D
  mkProc : ProcKind → Cfg → Except Err (ProcObj σ D)
  annotate : D → PipeMeta → D
  embedding : D → Option V
  info : D → Option M

/-- `ProcessingPipeline`, pipeline.py:22-27. -/
structure Pipe (σ D : Type) where
  config : Conf
  registry : Option (Registry σ D)
  procs : List (ProcObj σ D)
  init : Bool

/-- `__init__` -/
def Pipe.new (config : Conf) : Pipe σ D := ⟨config, none, [], false⟩

variable {V M : Type}

/-- The processors are built and appended one after the other, pipeline.py:40-55; those appended
before an exception stay. -/
def startProcs (E : PipeEnv σ D V M) (conf : Conf) :
    List ProcKind → List (ProcObj σ D) → Except Err Unit × List (ProcObj σ D)
  | [], ps => (.ok (), ps)
  | k :: ks, ps =>
    match conf.get? k.key with
    | none => startProcs E conf ks ps
    | some cfg =>
      match E.mkProc k cfg with
      | .error e => (.error e, ps)
      | .ok p => startProcs E conf ks (ps ++ [p])

/-- `initialize`, pipeline.py:29-61.  Simplification: values of "parsers" and "processors" that are no
dictionaries raise. -/
def Pipe.start (E : PipeEnv σ D V M) (P : Pipe σ D) : Except Err Unit × Pipe σ D :=
  match getD P.config "parsers" (.dict []) with
  | .dict pc =>
    match (Registry.new E.builtin pc).start with
    | (.error _, R) => (.error .processing, { P with registry := some R })
    | (.ok (), R) =>
      let P := { P with registry := some R }
      match getD P.config "processors" (.dict []) with
      | .dict conf =>
        match startProcs E conf [.cleaning, .chunking, .embedding] P.procs with
        | (.error _, ps) => (.error .processing, { P with procs := ps })
        | (.ok (), ps) => (.ok (), { P with procs := ps, init := true })
      | _ => (.error .processing, P)
  | _ => (.error .processing, P)

/-- The processors one after the other, pipeline.py:83-85. -/
def runProcs : List (ProcObj σ D) → σ → D → Res σ D
  | [], s, d => (.ok d, s)
  | p :: ps, s, d =>
    match p.run s d with
    | (.error e, s) => (.error e, s)
    | (.ok d, s) => runProcs ps s d

/-- `_get_parser_name`, pipeline.py:205-219. -/
def Pipe.parserName (P : Pipe σ D) (path : String) (name : Option String) : String :=
  if name.getD "" ≠ "" then name.getD "" else
  match P.registry with
  | none => "unknown"
  | some R =>
    match R.getParser path none with
    | .error _ => "unknown"
    | .ok p => p.className

/-- `process_document`, pipeline.py:63-99. -/
def Pipe.processDocument (E : PipeEnv σ D V M) (P : Pipe σ D) (s : σ) (path : String)
    (name : Option String) : Res σ D :=
  if !P.init then (.error .processing, s) else
  match P.registry with
  | none => (.error .processing, s)
  | some R =>
    match R.parseDocument s path name with
    | (.error _, s) => (.error .processing, s)
    | (.ok d, s) =>
      match runProcs P.procs s d with
      | (.error _, s) => (.error .processing, s)
      | (.ok d, s) => (.ok (E.annotate d ⟨path, P.parserName path name, P.procs.map ProcObj.kind⟩), s)

/-- An entry of the answer of `batch_process_documents`. -/
inductive Entry (D : Type) where
  | done (d : D)
  | failed (path : String) (e : Err)
deriving DecidableEq, Repr

/-- The loop of `batch_process_documents`, pipeline.py:157-174. -/
def batchDocs (E : PipeEnv σ D V M) (P : Pipe σ D) : List String → σ → List (Entry D) × σ
  | [], s => ([], s)
  | path :: paths, s =>
    match P.processDocument E s path none with
    | (.ok d, s) =>
      let (es, s) := batchDocs E P paths s
      (.done d :: es, s)
    | (.error e, s) =>
      let (es, s) := batchDocs E P paths s
      (.failed path e :: es, s)

/-- `batch_process_documents`, pipeline.py:142-176. -/
def Pipe.batchProcess (E : PipeEnv σ D V M) (P : Pipe σ D) (s : σ) (paths : List String) :
    Res σ (List (Entry D)) :=
  if !P.init then (.error .processing, s) else
  let (es, s) := batchDocs E P paths s
  (.ok es, s)

/-- `close`, pipeline.py:221-233. -/
def Pipe.close (P : Pipe σ D) : Except Err Unit × Pipe σ D :=
  match closeAll (P.procs.map ProcObj.close) with
  | .error e => (.error e, P)
  | .ok () =>
    match P.registry with
    | none => (.ok (), { P with procs := [], init := false })
    | some R =>
      match R.close with
      | (.error e, R) => (.error e, { P with registry := some R })
      | (.ok (), _) => (.ok (), ⟨P.config, none, [], false⟩)

/-- The configuration of `create_vectors_from_files`, helpers.py:82-92. -/
def filesConf (model : String) : Conf :=
  [("parsers", .dict [("text", .dict [("chunk_size", .int 1000)]),
      ("pdf", .dict [("chunk_size", .int 1000)]), ("office", .dict [("chunk_size", .int 1000)])]),
   ("processors", .dict [("cleaning", .dict [("normalize_whitespace", .bool true)]),
      ("embedding", .dict [("model_name", .str model)])])]

/-- The loop of `create_vectors_from_files`, helpers.py:100-111: a failing document is skipped; a
document without "metadata" fails after its vector has been kept. -/
def filesLoop (E : PipeEnv σ D V M) (P : Pipe σ D) (name : Option String) :
    List String → σ → List V × List M → (List V × List M) × σ
  | [], s, out => (out, s)
  | path :: paths, s, out =>
    match P.processDocument E s path name with
    | (.error _, s) => filesLoop E P name paths s out
    | (.ok d, s) =>
      match E.embedding d with
      | none => filesLoop E P name paths s out
      | some v => filesLoop E P name paths s (out.1 ++ [v], out.2 ++ (E.info d).toList)

/-- `create_vectors_from_files`, helpers.py:62-119.  `np.array([]).reshape(0, -1)` raises `ValueError`.
Simplification: stacking of vectors of different lengths is not modelled. -/
def vectorsFromFiles (E : PipeEnv σ D V M) (s : σ) (paths : List String) (name : Option String)
    (model : String) : Res σ (List V × List M) :=
  match (Pipe.new (filesConf model)).start E with
  | (.error e, _) => (.error e, s)
  | (.ok (), P) =>
    let (out, s) := filesLoop E P name paths s ([], [])
    match P.close with
    | (.error e, _) => (.error e, s)
    | (.ok (), _) =>
      match out.1 with
      | [] => (.error .value, s)
      | _ :: _ => (.ok out, s)

end Valori
