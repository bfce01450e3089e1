import Verif.Model.Py
import Verif.Model.Cleaning

/-!
# Starting parsers and processors

The `initialize` methods that import libraries: parsers/text_parser.py:30-32, parsers/pdf_parser.py:28-36,
parsers/office_parser.py:30-40, parsers/docling_parser.py:32-46, processors/cleaning.py:42-81,
processors/embedding.py:42-107.  What importing or calling a library does is a parameter.
-/

namespace Valori

/-- Using a library: it answers, it is missing (`ImportError`), or it raises something else. -/
inductive Use (α : Type) where
  | ok (a : α)
  | missing
  | fails (e : Err)
deriving DecidableEq

/-! ## The parsers -/

/-- The four parsers with an `initialize` of their own. -/
inductive ParserKind where
  | text | pdf | office | docling
deriving DecidableEq

/-- What each `initialize` uses, in this order; the constructor of docling's converter counts as the last
use.  text_parser.py:30-32, pdf_parser.py:32, office_parser.py:34-36, docling_parser.py:36-41. -/
def ParserKind.needs : ParserKind → List String
  | .text => []
  | .pdf => ["PyPDF2"]
  | .office => ["docx", "openpyxl", "pptx"]
  | .docling => ["docling", "docling.datamodel.base_models", "docling.document_converter",
      "DocumentConverter()"]

/-- Uses one after the other; a missing library becomes `ParsingError`, everything else passes. -/
def useAll (lib : String → Use Unit) : List String → Except Err Unit
  | [] => .ok ()
  | n :: ns =>
    match lib n with
    | .ok _ => useAll lib ns
    | .missing => .error .parsing
    | .fails e => .error e

/-- `initialize`, as cited at `ParserKind.needs`; the state is `_initialized`. -/
def parserInit (k : ParserKind) (lib : String → Use Unit) (inited : Bool) : Res Bool Unit :=
  match useAll lib k.needs with
  | .ok _ => (.ok (), true)
  | .error e => (.error e, inited)

/-! ## The cleaning processor -/

/-- The words used when nltk is missing, cleaning.py:54-79. -/
def fallbackStop : List Text :=
  ["a", "an", "and", "are", "as", "at", "be", "by", "for", "from", "has", "he", "in", "is", "it", "its",
    "of", "on", "that", "the", "to", "was", "will", "with"].map String.toList

/-- The cleaning processor: options, stop words among them, and `_initialized`. -/
structure Cleaner where
  cfg : CleanCfg
  language : String
  inited : Bool

/-- `initialize`, cleaning.py:42-81.  `words` is `stopwords.words` of nltk: `missing` when nltk cannot be
imported, `fails` when the corpus has not been downloaded (`LookupError`) or the language has no file
(`OSError`). -/
def Cleaner.init (words : String → Use (List Text)) (p : Cleaner) : Res Cleaner Unit :=
  let p := { p with cfg := { p.cfg with stopwords := [] } }
  if p.cfg.removeStop then
    match words p.language with
    | .ok ws => (.ok (), { p with cfg := { p.cfg with stopwords := ws }, inited := true })
    | .missing => (.ok (), { p with cfg := { p.cfg with stopwords := fallbackStop }, inited := true })
    | .fails e => (.error e, p)
  else (.ok (), { p with inited := true })

/-! ## The embedding processor -/

/-- The libraries: loading a model or tokenizer, moving a model to a device, `torch.cuda.is_available()`
(with the import of torch), the module `openai`. -/
structure EmbLibs (Mod : Type) where
  st : Use Unit
  stLoad : Use Mod
  torch : Use Bool
  transformers : Use Unit
  tokenizer : Use Mod
  hfLoad : Use Mod
  openai : Use Mod
  move : Mod → String → Use Mod

/-- The parts of the embedding processor that `initialize` touches, embedding.py:22-40. -/
structure EmbProc (Mod : Type) where
  modelType : String
  device : String
  model : Option Mod
  tokenizer : Option Mod
  inited : Bool
deriving DecidableEq

variable {Mod : Type}

/-- "auto" is replaced by the device found and stays replaced, embedding.py:66-69, 99-100. -/
def EmbProc.settle (p : EmbProc Mod) (cuda : Bool) : EmbProc Mod :=
  if p.device = "auto" then { p with device := if cuda then "cuda" else "cpu" } else p

/-- `self._model = self._model.to(self.device)`, embedding.py:71, 102. -/
def EmbProc.move (L : EmbLibs Mod) (m : Mod) (p : EmbProc Mod) : Bool × EmbProc Mod :=
  match L.move m p.device with
  | .ok m' => (true, { p with model := some m' })
  | _ => (false, p)

/-- `_initialize_sentence_transformers`, embedding.py:58-76; the first component says whether it came to
its end.  torch is only imported here for the device "auto". -/
def EmbProc.initSt (L : EmbLibs Mod) (p : EmbProc Mod) : Bool × EmbProc Mod :=
  match L.st with
  | .ok _ =>
    match L.stLoad with
    | .ok m =>
      let p := { p with model := some m }
      if p.device = "auto" then
        match L.torch with
        | .ok cuda => (p.settle cuda).move L m
        | _ => (false, p)
      else p.move L m
    | _ => (false, p)
  | _ => (false, p)

/-- `_initialize_openai`, embedding.py:78-88. -/
def EmbProc.initOpenai (L : EmbLibs Mod) (p : EmbProc Mod) : Bool × EmbProc Mod :=
  match L.openai with
  | .ok m => (true, { p with model := some m })
  | _ => (false, p)

/-- `_initialize_huggingface`, embedding.py:90-107.  Simplified: `torch` stands for the import and the
question for cuda together. -/
def EmbProc.initHf (L : EmbLibs Mod) (p : EmbProc Mod) : Bool × EmbProc Mod :=
  match L.torch with
  | .ok cuda =>
    match L.transformers with
    | .ok _ =>
      match L.tokenizer with
      | .ok t =>
        let p := { p with tokenizer := some t }
        match L.hfLoad with
        | .ok m => (({ p with model := some m } : EmbProc Mod).settle cuda).move L m
        | _ => (false, p)
      | _ => (false, p)
    | _ => (false, p)
  | _ => (false, p)

/-- `initialize`, embedding.py:42-56: whatever is raised becomes `ProcessingError`. -/
def EmbProc.init (L : EmbLibs Mod) (p : EmbProc Mod) : Res (EmbProc Mod) Unit :=
  let r :=
    if p.modelType = "sentence_transformers" then p.initSt L
    else if p.modelType = "openai" then p.initOpenai L
    else if p.modelType = "huggingface" then p.initHf L
    else (false, p)
  if r.1 then (.ok (), { r.2 with inited := true }) else (.error .processing, r.2)

end Valori
