import Verif.Model.Text

/-!
# Chunking: processors/chunking.py and the `_create_chunks` of the parsers
-/

namespace Valori

/-- One chunk.  Simplification: the `metadata` dictionary and the `length` entry, which repeat what
is here, are left out; `page` is the `page_number` of the PDF parser. -/
structure Chunk where
  id : Nat
  text : Text
  startPos : Int
  endPos : Int
  page : Option Int := none
deriving DecidableEq, Repr

/-! ## The loop shared by four chunkers -/

/-- `while start < len(text): ...; start = max(end - overlap, start + 1)`, as in
processors/chunking.py:94-121, text_parser.py:135-161, pdf_parser.py:175-205 and
office_parser.py:272-294, which differ only in how `end` is found (`cut`) and in the page entry.
`none` means the loop still runs after `fuel` rounds. -/
def spanLoop (text : Text) (cut : Nat → Int) (overlap : Int) (page : Nat → Option Int) :
    Nat → Nat → Nat → Option (List Chunk)
  | fuel, start, id =>
    if text.length ≤ start then some []
    else match fuel with
      | 0 => none
      | fuel + 1 =>
        let e := cut start
        let t := strip (sub text start e)
        let next := (max (e - overlap) ((start : Int) + 1)).toNat
        if t = [] then spanLoop text cut overlap page fuel next id
        else match spanLoop text cut overlap page fuel next (id + 1) with
          | none => none
          | some cs => some (⟨id, t, start, e, page start⟩ :: cs)

/-- `end = min(start + chunk_size, len(text))`. -/
def firstEnd (text : Text) (chunkSize : Int) (start : Nat) : Int :=
  min ((start : Int) + chunkSize) text.length

/-! ## The chunking processor -/

/-- Configuration, chunking.py:22-37.  `strategy` is the string given. -/
structure ChunkCfg where
  strategy : String
  chunkSize : Int
  chunkOverlap : Int
  minChunkSize : Int
  maxChunkSize : Int
  separators : List Text
deriving DecidableEq

/-- `_find_best_break`, chunking.py:214-225. -/
def findBestBreak (text : Text) (minSize : Int) (start : Nat) (e : Int) : List Text → Int
  | [] => e
  | sep :: seps =>
    if rfindInt text sep start e > (start : Int) + minSize then
      rfindInt text sep start e + sep.length
    else findBestBreak text minSize start e seps

/-- The end of a fixed-size chunk, chunking.py:95-101. -/
def fixedCut (c : ChunkCfg) (text : Text) (start : Nat) : Int :=
  let e := firstEnd text c.chunkSize start
  if e < text.length then
    let b := findBestBreak text c.minChunkSize start e c.separators
    if b > (start : Int) + c.minChunkSize then b else e
  else e

/-- `_fixed_size_chunking`, chunking.py:88-123, run for `fuel` rounds. -/
def fixedSize (c : ChunkCfg) (text : Text) (fuel : Nat) : Option (List Chunk) :=
  spanLoop text (fixedCut c text) c.chunkOverlap (fun _ => none) fuel 0 0

/-- State of the semantic loop: finished chunks, `current_chunk`, `current_start`. -/
structure SemSt where
  done : List Chunk
  cur : Text
  start : Int

/-- The chunk built from `current_chunk`, chunking.py:145-156 and 171-182. -/
def semChunk (id : Nat) (cur : Text) (start : Int) : Chunk :=
  ⟨id, strip cur, start, start + cur.length, none⟩

/-- One paragraph, chunking.py:135-168.  `chunk_id` is the number of finished chunks. -/
def semStep (c : ChunkCfg) (st : SemSt) (paragraph : Text) : SemSt :=
  let p := strip paragraph
  if p = [] then st
  else if st.cur ≠ [] ∧ (st.cur.length : Int) + p.length > c.chunkSize then
    let ov := if (st.cur.length : Int) > c.chunkOverlap then sliceFrom st.cur (-c.chunkOverlap)
      else []
    ⟨st.done ++ [semChunk st.done.length st.cur st.start], ov ++ p,
      max 0 (st.start + (ov ++ p).length - c.chunkOverlap)⟩
  else if st.cur ≠ [] then { st with cur := st.cur ++ nl2 ++ p }
  else { st with cur := p }

/-- `_semantic_chunking`, chunking.py:125-184. -/
def semantic (c : ChunkCfg) (text : Text) : List Chunk :=
  let st := (splitOnText nl2 text).foldl (semStep c) ⟨[], [], 0⟩
  if st.cur ≠ [] then st.done ++ [semChunk st.done.length st.cur st.start] else st.done

/-- `range(0, n, step)` for a positive step. -/
def rangeStep (n step : Nat) : List Nat := (List.range ((n + step - 1) / step)).map (· * step)

/-- One window, chunking.py:192-210. -/
def windowStep (c : ChunkCfg) (text : Text) (chunks : List Chunk) (i : Nat) : List Chunk :=
  let e := firstEnd text c.chunkSize i
  let t := strip (sub text i e)
  if c.minChunkSize ≤ (t.length : Int) then chunks ++ [⟨chunks.length, t, i, e, none⟩] else chunks

/-- `_sliding_window_chunking`, chunking.py:186-212.  `range` with a step that is not positive gives
nothing for a negative step and raises `ValueError` for zero; `initialize` refuses both. -/
def slidingWindow (c : ChunkCfg) (text : Text) : Except Err (List Chunk) :=
  let step := c.chunkSize - c.chunkOverlap
  if step = 0 then .error .value
  else if step < 0 then .ok []
  else .ok ((rangeStep text.length step.toNat).foldl (windowStep c text) [])

/-- `_filter_chunks_by_size`, chunking.py:227-237. -/
def filterBySize (c : ChunkCfg) : List Chunk → List Chunk
  | [] => []
  | ch :: cs =>
    if c.minChunkSize ≤ (ch.text.length : Int) ∧ (ch.text.length : Int) ≤ c.maxChunkSize then
      ch :: filterBySize c cs
    else filterBySize c cs

/-- `ChunkingProcessor`: configuration, `_initialized`, `_chunks_created`,
`_total_characters_processed`. -/
structure Chunker where
  cfg : ChunkCfg
  inited : Bool
  created : Nat
  chars : Nat
deriving DecidableEq

/-- The input document: `none` when the `text` entry is missing.  Other entries are copied. -/
abbrev ChunkIn := Option Text

namespace Chunker

/-- `initialize`, chunking.py:39-47. -/
def init (p : Chunker) : Res Chunker Unit :=
  if p.cfg.chunkSize ≤ 0 then (.error .processing, p)
  else if p.cfg.chunkOverlap ≥ p.cfg.chunkSize then (.error .processing, p)
  else (.ok (), { p with inited := true })

/-- The raw chunks by strategy, chunking.py:69-77.  Fixed-size chunking gets as many rounds as the
text has characters, which C57 shows to be enough. -/
def raw (p : Chunker) (text : Text) : Except Err (List Chunk) :=
  if p.cfg.strategy = "fixed_size" then
    match fixedSize p.cfg text text.length with
    | some cs => .ok cs
    | none => .error .other
  else if p.cfg.strategy = "semantic" then .ok (semantic p.cfg text)
  else if p.cfg.strategy = "sliding_window" then slidingWindow p.cfg text
  else .error .processing

/-- `process`, chunking.py:49-86; the reply is the `chunks` entry. -/
def process (p : Chunker) (data : ChunkIn) : Res Chunker (List Chunk) :=
  if p.inited = false then (.error .processing, p)
  else match data with
    | none => (.error .processing, p)
    | some text =>
      let p1 := { p with chars := p.chars + text.length }
      match p1.raw text with
      | .error e => (.error e, p1)
      | .ok cs =>
        let kept := filterBySize p.cfg cs
        (.ok kept, { p1 with created := p1.created + kept.length })

end Chunker

/-! ## The parsers -/

/-- The end of a text-parser chunk, text_parser.py:136-145. -/
def textCut (chunkSize : Int) (text : Text) (start : Nat) : Int :=
  let e := firstEnd text chunkSize start
  if e < text.length then
    let b := max (rfindInt text ['.'] start e) (rfindInt text ['\n'] start e)
    if b > (start : Int) + chunkSize / 2 then b + 1 else e
  else e

/-- `TextParser._create_chunks`, text_parser.py:129-163. -/
def textChunks (chunkSize overlap : Int) (text : Text) (fuel : Nat) : Option (List Chunk) :=
  spanLoop text (textCut chunkSize text) overlap (fun _ => none) fuel 0 0

/-- The end of a PDF chunk, pdf_parser.py:176-182. -/
def pdfCut (chunkSize : Int) (text : Text) (start : Nat) : Int :=
  let e := firstEnd text chunkSize start
  if e < text.length then
    let b := rfindInt text nl2 start e
    if b > (start : Int) + chunkSize / 2 then b + 2 else e
  else e

/-- The loop of `_get_page_for_position`, pdf_parser.py:211-215, over pairs
`(page_number, text_length)`. -/
def pageScan (position : Nat) : Nat → List (Int × Nat) → Option Int
  | _, [] => none
  | cur, (num, len) :: pages => if position < cur + len then some num else pageScan position (cur + len) pages

/-- `_get_page_for_position`, pdf_parser.py:209-216. -/
def pageFor (pages : List (Int × Nat)) (position : Nat) : Int :=
  match pageScan position 0 pages with
  | some n => n
  | none => match pages.getLast? with
    | some p => p.1
    | none => 1

/-- `PDFParser._create_chunks`, pdf_parser.py:167-207. -/
def pdfChunks (chunkSize overlap : Int) (text : Text) (pages : List (Int × Nat)) (fuel : Nat) :
    Option (List Chunk) :=
  spanLoop text (pdfCut chunkSize text) overlap (fun i => some (pageFor pages i)) fuel 0 0

/-- The text and the page table of a PDF, pdf_parser.py:61-85: `extracted` holds the text of every
page, `none` where extraction failed; blank pages are skipped, the rest joined by blank lines.
Simplification: counting images (pdf_parser.py:76-80) does not raise; `pdfScan` covers that case. -/
def pdfPages (extracted : List (Option Text)) : List (Int × Text) :=
  extracted.zipIdx.filterMap fun (t, i) =>
    match t with
    | none => none
    | some t => if strip t = [] then none else some (((i : Int) + 1), t)

/-- `full_text`, pdf_parser.py:87. -/
def pdfText (pages : List (Int × Text)) : Text := nl2.intercalate (pages.map Prod.snd)

/-- `page_metadata` as used by the chunker. -/
def pdfTable (pages : List (Int × Text)) : List (Int × Nat) :=
  pages.map fun p => (p.1, p.2.length)

/-- The end of an office chunk, office_parser.py:273-279. -/
def officeCut (chunkSize : Int) (text : Text) (start : Nat) : Int :=
  let e := firstEnd text chunkSize start
  if e < text.length then
    let b := rfindInt text ['\n'] start e
    if b > (start : Int) + chunkSize / 2 then b + 1 else e
  else e

/-- `OfficeParser._create_chunks`, office_parser.py:264-296. -/
def officeChunks (chunkSize overlap : Int) (text : Text) (fuel : Nat) : Option (List Chunk) :=
  spanLoop text (officeCut chunkSize text) overlap (fun _ => none) fuel 0 0

/-- A docling chunk: `start_element` and `end_element` instead of positions. -/
structure DocChunk where
  id : Nat
  text : Text
  startElement : Int
  endElement : Int
deriving DecidableEq

/-- The loop of `_create_structured_chunks`, docling_parser.py:173-191: element number `i` next,
`cur` the text gathered so far. -/
def doclingGo (chunkSize : Int) : Nat → Nat → Text → List Text → List DocChunk × Nat × Text
  | _, id, cur, [] => ([], id, cur)
  | i, id, cur, e :: es =>
    let cur' := cur ++ (e ++ ['\n'])
    if chunkSize ≤ (cur'.length : Int) then
      let r := doclingGo chunkSize (i + 1) (id + 1) [] es
      (⟨id, strip cur', (id : Int) * chunkSize, i⟩ :: r.1, r.2)
    else doclingGo chunkSize (i + 1) id cur' es

/-- `DoclingParser._create_structured_chunks`, docling_parser.py:165-208. -/
def doclingChunks (chunkSize : Int) (elements : List Text) : List DocChunk :=
  let r := doclingGo chunkSize 0 0 [] elements
  if strip r.2.2 = [] then r.1
  else r.1 ++ [⟨r.2.1, strip r.2.2, (r.2.1 : Int) * chunkSize, (elements.length : Int) - 1⟩]

/-- `text_content`, docling_parser.py:76-78: stripped non-blank texts. -/
def doclingTexts (raw : List Text) : List Text :=
  raw.filterMap fun t => if strip t = [] then none else some (strip t)

end Valori
