import Verif.Model.Parse
import Verif.Model.Cleaning

/-!
# `parse` of the PDF and docling parsers (`/repo/src/valori/parsers/`)

What PyPDF2 and docling give is a parameter.
-/

namespace Valori

/-! ## PDF -/

/-- `get_supported_formats`, pdf_parser.py:158-160; `can_parse`, 162-165, is membership. -/
def pdfFormats : List String := [".pdf"]

/-- A page: what `extract_text()` gives, and the number of images `get_images()` gives (`none`: the page
has no such method). -/
structure PdfPage where
  extract : Except Err Text
  images : Option (Except Err Nat)

/-- An entry of `page_metadata`. -/
structure PdfPageInfo where
  number : Int
  length : Nat
  hasImages : Bool
deriving DecidableEq

/-- The page loop, pdf_parser.py:65-85: `text_parts` and `page_metadata`.  The text is kept before
`get_images` is called; an exception of either skips the rest of the page. -/
def pdfScan : Nat → List PdfPage → List Text × List PdfPageInfo
  | _, [] => ([], [])
  | i, p :: ps =>
    let r := pdfScan (i + 1) ps
    match p.extract with
    | .error _ => r
    | .ok t =>
      if strip t = [] then r
      else
        match p.images with
        | none => (t :: r.1, ⟨(i : Int) + 1, t.length, false⟩ :: r.2)
        | some (.ok n) => (t :: r.1, ⟨(i : Int) + 1, t.length, decide (0 < n)⟩ :: r.2)
        | some (.error _) => (t :: r.1, r.2)

/-- What `PdfReader` gives: pages, and the document information (empty if there is none). -/
structure PdfReader where
  pages : List PdfPage
  info : Dict String Text

/-- Configuration of `PDFParser`, pdf_parser.py:19-26. -/
structure PdfCfg where
  chunkSize : Int
  overlap : Int
  maxSize : Int

/-- The entries taken from the document information, pdf_parser.py:96-130. -/
def pdfKeys : List (String × String) :=
  [("title", "/Title"), ("author", "/Author"), ("subject", "/Subject"), ("creator", "/Creator"),
   ("producer", "/Producer"), ("creation_date", "/CreationDate"), ("modification_date", "/ModDate")]

/-- What `PDFParser.parse` returns.  `readingTime` is `estimated_reading_time`. -/
structure PdfDoc where
  text : Text
  size : Nat
  numPages : Nat
  pagesWithText : Nat
  pages : List PdfPageInfo
  fields : List (String × Text)
  chunks : List Chunk
  readingTime : Nat

/-- The body of the `try`, pdf_parser.py:58-153.  The chunker gets as many rounds as the text has
characters, which C63 shows to be enough.  The file name, which is copied, is left out. -/
def pdfBody (c : PdfCfg) (reader : Except Err PdfReader) (n : Nat) : Except Err PdfDoc :=
  match reader with
  | .error e => .error e
  | .ok r =>
    let scan := pdfScan 0 r.pages
    let text := nl2.intercalate scan.1
    let fields := pdfKeys.map fun k => (k.1, (r.info.get? k.2).getD [])
    let time := (splitWs [] text).length / 200
    if (text.length : Int) > c.chunkSize then
      match pdfChunks c.chunkSize c.overlap text (scan.2.map fun p => (p.number, p.length)) text.length with
      | none => .error .other
      | some cs => .ok ⟨text, n, r.pages.length, scan.2.length, scan.2, fields, cs, time⟩
    else .ok ⟨text, n, r.pages.length, scan.2.length, scan.2, fields, [], time⟩

/-- `PDFParser.parse`, pdf_parser.py:38-156. -/
def pdfParse (c : PdfCfg) (inited : Bool) (f : FileView) (reader : Except Err PdfReader) : Except Err PdfDoc :=
  parseFrame inited pdfFormats c.maxSize f (pdfBody c reader)

/-! ## Docling -/

/-- `get_supported_formats`, docling_parser.py:210-212; `can_parse`, 214-217, is membership. -/
def doclingFormats : List String := [".pdf", ".docx", ".pptx", ".html", ".xml", ".txt"]

/-- An element of a docling document: its text and label (`none`: no such attribute), and what reading
its table or figure attributes gives. -/
structure DocElem (α β : Type) where
  text : Option Text
  label : Option Text
  table : Except Err α
  figure : Except Err β

/-- Configuration of `DoclingParser`, docling_parser.py:22-30. -/
structure DoclingCfg where
  tables : Bool
  figures : Bool
  chunkSize : Int
  maxSize : Int

/-- What `DoclingParser.parse` returns. -/
structure DoclingDoc (α β : Type) where
  text : Text
  size : Nat
  numTexts : Nat
  tables : List α
  figures : List β
  chunks : List DocChunk
  readingTime : Nat

/-- `hasattr(element, "label") and word in element.label.lower()`, docling_parser.py:81-95. -/
def labelled {α β : Type} (lower : Text → Text) (word : String) (e : DocElem α β) : Bool :=
  match e.label with
  | none => false
  | some l => hasSub word.toList (lower l)

/-- The body of the `try`, docling_parser.py:67-133.  `_extract_table_data` (140-152) and
`_extract_figure_data` (154-163) return a dictionary with entries, or an empty one, which is dropped, when
reading an attribute raised. -/
def doclingBody {α β : Type} (lower : Text → Text) (c : DoclingCfg)
    (elems : Except Err (List (DocElem α β))) (n : Nat) : Except Err (DoclingDoc α β) :=
  match elems with
  | .error e => .error e
  | .ok es =>
    let texts := doclingTexts (es.filterMap DocElem.text)
    let tables := es.filterMap fun e =>
      if c.tables && labelled lower "table" e then e.table.toOption else none
    let figures := es.filterMap fun e =>
      if c.figures && labelled lower "figure" e then e.figure.toOption else none
    let text := ['\n'].intercalate texts
    .ok ⟨text, n, texts.length, tables, figures, doclingChunks c.chunkSize texts,
      (splitWs [] text).length / 200⟩

/-- `DoclingParser.parse`, docling_parser.py:48-138. -/
def doclingParse {α β : Type} (lower : Text → Text) (c : DoclingCfg) (inited : Bool) (f : FileView)
    (elems : Except Err (List (DocElem α β))) : Except Err (DoclingDoc α β) :=
  parseFrame inited doclingFormats c.maxSize f (doclingBody lower c elems)

end Valori
