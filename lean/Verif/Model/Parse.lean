import Verif.Model.Chunking

/-!
# `parse` of the text and office parsers (`/repo/src/valori/parsers/`)

What the file system, `chardet` and the office libraries give is a parameter.  File names and
paragraph styles, which are copied, are left out.
-/

namespace Valori

/-- What a parser finds at a path: does it exist, `file_path.suffix.lower()`, and `stat`. -/
structure FileView where
  present : Bool
  suffix : String
  size : Except Err Nat

/-- The frame of `parse`, text_parser.py:34-51 and 92-93, pdf_parser.py:38-57 and 155-156,
office_parser.py:42-59 and 72-73, docling_parser.py:48-65 and 135-138: three checks, then
everything else inside a `try` that turns every exception into `ParsingError`. -/
def parseFrame {α : Type} (inited : Bool) (formats : List String) (maxSize : Int) (f : FileView)
    (body : Nat → Except Err α) : Except Err α :=
  if !inited then .error .parsing
  else if !f.present then .error .parsing
  else if !formats.contains f.suffix then .error .parsing
  else
    match f.size with
    | .error _ => .error .parsing
    | .ok n =>
      if maxSize < (n : Int) then .error .parsing
      else
        match body n with
        | .error _ => .error .parsing
        | .ok a => .ok a

/-- `p in t` for strings. -/
def hasSub (p : Text) : Text → Bool
  | [] => p.isPrefixOf []
  | c :: t => p.isPrefixOf (c :: t) || hasSub p t

/-! ## Text -/

/-- `get_supported_formats`, text_parser.py:95-97. -/
def textFormats : List String := [".txt", ".md", ".rst", ".log", ".csv"]

/-- Configuration of `TextParser`, text_parser.py:22-28. -/
structure TextParserCfg where
  encoding : String
  maxSize : Int
  chunkSize : Int
  overlap : Int

/-- A text file: what `chardet.detect` reports as `encoding` (`none`: no such entry) and what
reading with an encoding (`none`: the platform's) gives; `errors="replace"` makes decoding total
for known encodings. -/
structure TextFile where
  view : FileView
  detect : Except Err (Option (Option String))
  decode : Option String → Except Err Text

/-- The encoding, text_parser.py:53-61.  The default of `detected.get("encoding", "utf-8")` is
used only if there is no entry. -/
def textEncoding (c : TextParserCfg) (f : TextFile) : Except Err (Option String) :=
  if c.encoding = "auto" then
    match f.detect with
    | .error e => .error e
    | .ok none => .ok (some "utf-8")
    | .ok (some e) => .ok e
  else .ok (some c.encoding)

/-- `english_words`, text_parser.py:108-121. -/
def englishWords : List Text :=
  ["the", "and", "or", "but", "in", "on", "at", "to", "for", "of", "with", "by"].map String.toList

/-- `_detect_language`, text_parser.py:104-127; `lower` is `str.lower`. -/
def detectLanguage (lower : Text → Text) (t : Text) : String :=
  let l := lower t
  if (englishWords.filter fun w => hasSub w l).length > 3 then "en" else "unknown"

/-- What `TextParser.parse` returns. -/
structure TextDoc where
  text : Text
  size : Nat
  encoding : Option String
  language : String
  chunks : List Chunk
  paragraphs : Nat

/-- The body of the `try`, text_parser.py:53-90.  The chunker gets as many rounds as the text has
characters, which C63 shows to be enough. -/
def textBody (lower : Text → Text) (c : TextParserCfg) (f : TextFile) (n : Nat) :
    Except Err TextDoc :=
  match textEncoding c f with
  | .error e => .error e
  | .ok enc =>
    match f.decode enc with
    | .error e => .error e
    | .ok text =>
      let lang := if text.length > 100 then detectLanguage lower (text.take 1000) else "unknown"
      let pars := (splitOnText nl2 text).length
      if (text.length : Int) > c.chunkSize then
        match textChunks c.chunkSize c.overlap text text.length with
        | none => .error .other
        | some cs => .ok ⟨text, n, enc, lang, cs, pars⟩
      else .ok ⟨text, n, enc, lang, [], pars⟩

/-- `TextParser.parse`, text_parser.py:34-93. -/
def textParse (lower : Text → Text) (c : TextParserCfg) (inited : Bool) (f : TextFile) :
    Except Err TextDoc :=
  parseFrame inited textFormats c.maxSize f.view (textBody lower c f)

/-! ## Office -/

/-- `get_supported_formats`, office_parser.py:255-257. -/
def officeFormats : List String := [".docx", ".xlsx", ".xls", ".pptx"]

/-- A Word document: the texts of its paragraphs, and its tables of cell texts. -/
structure Docx where
  paragraphs : List Text
  tables : List (List (List Text))

/-- What `_parse_docx` returns: text, `(paragraph_number, text_length)` of `paragraphs_info`,
`(table_number, rows, columns, data)` of `tables_info`, chunks, `num_tables`. -/
structure DocxOut where
  text : Text
  paragraphs : List (Nat × Nat)
  tables : List (Nat × Nat × Nat × List (List Text))
  chunks : Option (List Chunk)
  numTables : Nat

/-- Paragraphs kept, with their index, office_parser.py:85-95. -/
def docxKept (ps : List Text) : List (Nat × Text) :=
  ps.zipIdx.filterMap fun (p, i) => if strip p = [] then none else some (i + 1, strip p)

/-- One entry of `tables_info`, office_parser.py:102-114. -/
def docxTable (t : List (List Text)) (i : Nat) : Nat × Nat × Nat × List (List Text) :=
  let data := t.map fun row => row.map strip
  (i + 1, data.length, match data with | [] => 0 | r :: _ => r.length, data)

/-- `_parse_docx`, office_parser.py:75-141. -/
def docxParse (chunkSize overlap : Int) (extractTables : Bool) (d : Docx) : DocxOut :=
  let kept := docxKept d.paragraphs
  let text := ['\n'].intercalate (kept.map Prod.snd)
  let tables := if extractTables then d.tables.zipIdx.map (fun (t, i) => docxTable t i) else []
  ⟨text, kept.map (fun p => (p.1, p.2.length)), tables,
    officeChunks chunkSize overlap text text.length, tables.length⟩

/-- A sheet: its name, `str` of its cells row by row (`none` is an empty cell), `max_row` and
`max_column`. -/
structure Sheet where
  name : Text
  rows : List (List (Option Text))
  maxRow : Nat
  maxCol : Nat

/-- `" | "`. -/
def cellSep : Text := [' ', '|', ' ']

/-- The lines of a sheet, office_parser.py:156-164. -/
def sheetLines (s : Sheet) : List Text :=
  s.rows.filterMap fun row =>
    let cells := row.filterMap id
    if cells = [] then none else some (cellSep.intercalate cells)

/-- `f"Sheet: {sheet_name}\n{sheet_content}"`, office_parser.py:166-168. -/
def sheetText (s : Sheet) : Text :=
  ['S', 'h', 'e', 'e', 't', ':', ' '] ++ s.name ++ ['\n'] ++ ['\n'].intercalate (sheetLines s)

/-- What `_parse_excel` returns: text, `(sheet_name, text_length)` of `sheets_info`,
`sheet_names`, chunks, `total_cells`. -/
structure ExcelOut where
  text : Text
  sheets : List (Text × Nat)
  names : List Text
  chunks : Option (List Chunk)
  totalCells : Nat

/-- `_parse_excel`, office_parser.py:143-201. -/
def excelParse (chunkSize overlap : Int) (book : List Sheet) : ExcelOut :=
  let kept := book.filter fun s => decide (sheetLines s ≠ [])
  let text := nl2.intercalate (kept.map sheetText)
  ⟨text, kept.map (fun s => (s.name, (['\n'].intercalate (sheetLines s)).length)),
    book.map Sheet.name, officeChunks chunkSize overlap text text.length,
    (kept.map fun s => s.maxRow * s.maxCol).sum⟩

/-- The texts a slide gives, office_parser.py:215-217: `none` is a shape without a text. -/
def slideTexts (shapes : List (Option Text)) : List Text :=
  shapes.filterMap fun t =>
    match t with
    | none => none
    | some t => if strip t = [] then none else some (strip t)

/-- What `_parse_pptx` returns: text, `(slide_number, text_length, shapes_with_text)` of
`slides_info`, chunks, `num_slides`. -/
structure PptxOut where
  text : Text
  slides : List (Nat × Nat × Nat)
  chunks : Option (List Chunk)
  numSlides : Nat

/-- Slides kept, with their number, office_parser.py:212-219. -/
def pptxKept (slides : List (List (Option Text))) : List (Nat × List Text) :=
  slides.zipIdx.filterMap fun (s, i) => if slideTexts s = [] then none else some (i + 1, slideTexts s)

/-- `f"Slide {slide_num + 1}: {slide_content}"`, office_parser.py:219-221; `num` writes a number. -/
def slideText (num : Nat → Text) (s : Nat × List Text) : Text :=
  ['S', 'l', 'i', 'd', 'e', ' '] ++ num s.1 ++ [':', ' '] ++ ['\n'].intercalate s.2

/-- `_parse_pptx`, office_parser.py:203-253. -/
def pptxParse (num : Nat → Text) (chunkSize overlap : Int) (slides : List (List (Option Text))) :
    PptxOut :=
  let kept := pptxKept slides
  let text := nl2.intercalate (kept.map (slideText num))
  ⟨text, kept.map (fun s => (s.1, (['\n'].intercalate s.2).length, s.2.length)),
    officeChunks chunkSize overlap text text.length, slides.length⟩

/-- A file as the three office libraries load it; each may raise. -/
structure OfficeFile where
  view : FileView
  docx : Except Err Docx
  excel : Except Err (List Sheet)
  pptx : Except Err (List (List (Option Text)))

/-- Configuration of `OfficeParser`, office_parser.py:21-28. -/
structure OfficeCfg where
  extractTables : Bool
  chunkSize : Int
  overlap : Int
  maxSize : Int

/-- What `OfficeParser.parse` returns. -/
inductive OfficeOut where
  | docx (o : DocxOut)
  | excel (o : ExcelOut)
  | pptx (o : PptxOut)

/-- The choice by suffix, office_parser.py:61-70. -/
def officeBody (num : Nat → Text) (c : OfficeCfg) (f : OfficeFile) (_n : Nat) :
    Except Err OfficeOut :=
  if f.view.suffix = ".docx" then
    match f.docx with
    | .error e => .error e
    | .ok d => .ok (.docx (docxParse c.chunkSize c.overlap c.extractTables d))
  else if f.view.suffix = ".xlsx" ∨ f.view.suffix = ".xls" then
    match f.excel with
    | .error e => .error e
    | .ok b => .ok (.excel (excelParse c.chunkSize c.overlap b))
  else if f.view.suffix = ".pptx" then
    match f.pptx with
    | .error e => .error e
    | .ok s => .ok (.pptx (pptxParse num c.chunkSize c.overlap s))
  else .error .parsing

/-- `OfficeParser.parse`, office_parser.py:42-73. -/
def officeParse (num : Nat → Text) (c : OfficeCfg) (inited : Bool) (f : OfficeFile) :
    Except Err OfficeOut :=
  parseFrame inited officeFormats c.maxSize f.view (officeBody num c f)

end Valori
