import Verif.Model.Pipeline

/-!
# Descriptions of registry and pipeline, raw text: parsers/registry.py:132-158,
processors/pipeline.py:101-140, 178-203
-/

namespace Valori

variable {σ D V M : Type}

/-- An entry of `get_parser_info`, registry.py:139-153.  Simplification: "stats", which repeats the class
name and the formats, is left out. -/
structure ParserInfo where
  available : Bool
  formats : List String
deriving DecidableEq, Repr

/-- The loop over the classes, registry.py:147-153. -/
def addUnavailable : List String → Dict String ParserInfo → Dict String ParserInfo
  | [], info => info
  | n :: ns, info =>
    match info.get? n with
    | some _ => addUnavailable ns info
    | none => addUnavailable ns (info.set n ⟨false, []⟩)

/-- "parsers" of `get_parser_info`, registry.py:132-153. -/
def Registry.info (R : Registry σ D) : Dict String ParserInfo :=
  if !R.init then [] else
  addUnavailable R.classes.keys (R.parsers.map fun q => (q.1, ⟨true, q.2.formats⟩))

/-- `get_supported_formats`, pipeline.py:178-183. -/
def Pipe.formats (P : Pipe σ D) : List String :=
  if !P.init then [] else
  match P.registry with
  | none => []
  | some R => R.formats

/-- `get_pipeline_info`, pipeline.py:185-203; `none` is `{"initialized": False}`.  Simplification: the
statistics of the processors are left out, their class names are their kinds. -/
structure PipeInfo where
  processors : List ProcKind
  parsers : Dict String ParserInfo
  formats : List String
deriving DecidableEq, Repr

/-- `get_pipeline_info`, pipeline.py:185-203. -/
def Pipe.info (P : Pipe σ D) : Option PipeInfo :=
  if !P.init then none else
  some ⟨P.procs.map ProcObj.kind,
    match P.registry with
    | none => []
    | some R => R.info,
    P.formats⟩

/-- `process_text`, pipeline.py:101-140.  `raw` is the dictionary made of text and metadata, `note` the
assignment of `pipeline_metadata` with the list of processors. -/
def Pipe.processText (P : Pipe σ D) (note : D → List ProcKind → D) (s : σ) (raw : D) : Res σ D :=
  if !P.init then (.error .processing, s) else
  match runProcs P.procs s raw with
  | (.error _, s) => (.error .processing, s)
  | (.ok d, s) => (.ok (note d (P.procs.map ProcObj.kind)), s)

/-- The reply of a call of a registry. -/
def RegOp.reply (R : Registry σ D) : RegOp σ D → Except Err Unit
  | .start => R.start.1
  | .add name cls cfg => (R.add name cls cfg).1
  | .remove name => (R.remove name).1
  | .close => R.close.1

end Valori
