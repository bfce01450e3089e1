import Verif.Lemmas.Parse
import Verif.Props.Parse

/-!
# Properties C149 - C150: office documents
-/

namespace Valori.Props
open Valori.Spec (IsTrim Located Cuts)

/-- A file that `OfficeParser.parse` accepts is read by the library its suffix names. -/
theorem C149_office_choice (num : Nat → Text) (c : OfficeCfg) (inited : Bool) (f : OfficeFile)
    (o : OfficeOut) (h : officeParse num c inited f = .ok o) :
    (f.view.suffix = ".docx" ∧ ∃ d, f.docx = .ok d ∧
      o = .docx (docxParse c.chunkSize c.overlap c.extractTables d)) ∨
    (f.view.suffix ∈ [".xlsx", ".xls"] ∧ ∃ b, f.excel = .ok b ∧
      o = .excel (excelParse c.chunkSize c.overlap b)) ∨
    (f.view.suffix = ".pptx" ∧ ∃ s, f.pptx = .ok s ∧
      o = .pptx (pptxParse num c.chunkSize c.overlap s)) := by
  obtain ⟨-, -, -, n, -, -, hb⟩ := ((C148_frame _ _ _ _ _).1 _).1 h
  unfold officeBody at hb
  split at hb
  · rename_i hs
    rcases hd : f.docx with e | d <;> simp only [hd, Except.ok.injEq, reduceCtorEq] at hb
    exact .inl ⟨hs, d, rfl, hb.symm⟩
  · split at hb
    · rename_i hs
      rcases hd : f.excel with e | d <;> simp only [hd, Except.ok.injEq, reduceCtorEq] at hb
      exact .inr (.inl ⟨by simpa using hs, d, rfl, hb.symm⟩)
    · split at hb
      · rename_i hs
        rcases hd : f.pptx with e | d <;> simp only [hd, Except.ok.injEq, reduceCtorEq] at hb
        exact .inr (.inr ⟨hs, d, rfl, hb.symm⟩)
      · simp at hb

/-! ## C149: Word -/

/-- The trimmed paragraphs that are not blank, in order. -/
def nonBlank (l : List Text) : List Text := (l.map strip).filter (fun p => decide (p ≠ []))

theorem docxKept_snd (ps : List Text) : (docxKept ps).map Prod.snd = nonBlank ps := by
  unfold docxKept nonBlank
  rw [List.map_filterMap]
  have : ∀ k, List.filterMap (fun x : Text × Nat => Option.map Prod.snd
      (if strip x.1 = [] then none else some (x.2 + 1, strip x.1))) (ps.zipIdx k) =
      (ps.map strip).filter (fun p => decide (p ≠ [])) := by
    induction ps with
    | nil => simp
    | cons p ps ih =>
      intro k
      simp only [List.zipIdx_cons, List.map_cons]
      by_cases hp : strip p = []
      · simp [hp, ih (k + 1)]
      · simp [hp, ih (k + 1)]
  exact this 0

/-- **C149** The text of a Word document: split into lines it gives back the trimmed paragraphs
that are not blank, in order (for paragraphs without line breaks in them); the entries of
`paragraphs_info` name exactly the positions of these paragraphs, in increasing order, with their
lengths; the chunks cut the text. -/
theorem C149_docx (size overlap : Int) (hs : 0 < size) (ho : 0 ≤ overlap) (ex : Bool) (d : Docx) :
    let o := docxParse size overlap ex d
    ((∀ p ∈ d.paragraphs, '\n' ∉ strip p) → nonBlank d.paragraphs ≠ [] →
      splitOnText ['\n'] o.text = nonBlank d.paragraphs) ∧
    (nonBlank d.paragraphs = [] → o.text = []) ∧
    (∀ k n, (k, n) ∈ o.paragraphs ↔ ∃ i p, k = i + 1 ∧ d.paragraphs[i]? = some p ∧
      strip p ≠ [] ∧ n = (strip p).length) ∧
    (o.paragraphs.map Prod.fst).Pairwise (· < ·) ∧
    ∃ cs, o.chunks = some cs ∧ Cuts isSpace o.text size (cs.map Chunk.piece) := by
  intro o
  have ht : o.text = ['\n'].intercalate (nonBlank d.paragraphs) := by
    simp only [o, docxParse, docxKept_snd]
  refine ⟨fun h hne => ?_, fun h => ?_, fun k n => ?_, ?_, ?_⟩
  · rw [ht]
    refine split_lines _ hne fun x hx => ?_
    obtain ⟨hx, -⟩ := List.mem_filter.1 hx
    obtain ⟨p, hp, rfl⟩ := List.mem_map.1 hx
    exact h p hp
  · rw [ht, h]; rfl
  · simp only [o, docxParse, docxKept, List.mem_map, List.mem_filterMap, Prod.exists,
      List.mem_zipIdx_iff_getElem?, Prod.mk.injEq]
    constructor
    · rintro ⟨a, b, ⟨p, i, hp, hif⟩, rfl, rfl⟩
      split at hif
      · simp at hif
      · simp only [Option.some.injEq, Prod.mk.injEq] at hif
        exact ⟨i, p, hif.1.symm, hp, by assumption, by rw [hif.2]⟩
    · rintro ⟨i, p, rfl, hp, hne, rfl⟩
      exact ⟨i + 1, strip p, ⟨p, i, hp, by rw [if_neg hne]⟩, rfl, rfl⟩
  · simp only [o, docxParse, docxKept, List.map_map]
    have : ∀ (ps : List Text) (k : Nat), (∀ x ∈ (List.filterMap (fun x : Text × Nat =>
        if strip x.1 = [] then none else some (x.2 + 1, strip x.1)) (ps.zipIdx k)), k < x.1) ∧
        ((List.filterMap (fun x : Text × Nat => if strip x.1 = [] then none
          else some (x.2 + 1, strip x.1)) (ps.zipIdx k)).map Prod.fst).Pairwise (· < ·) := by
      intro ps
      induction ps with
      | nil => simp
      | cons p ps ih =>
        intro k
        obtain ⟨i1, i2⟩ := ih (k + 1)
        simp only [List.zipIdx_cons]
        by_cases hp : strip p = []
        · rw [List.filterMap_cons_none (by simp [hp])]
          exact ⟨fun x hx => by have := i1 x hx; omega, i2⟩
        · rw [List.filterMap_cons_some (b := (k + 1, strip p)) (by simp [hp])]
          refine ⟨fun x hx => ?_, ?_⟩
          · rcases List.mem_cons.1 hx with rfl | hx
            · simp
            · have := i1 x hx; omega
          · rw [List.map_cons, List.pairwise_cons]
            refine ⟨fun a ha => ?_, i2⟩
            obtain ⟨x, hx, rfl⟩ := List.mem_map.1 ha
            have := i1 x hx
            simpa using this
    have h2 := (this d.paragraphs 0).2
    simpa [Function.comp_def] using h2
  · obtain ⟨cs, hcs⟩ := (C63_terminates size overlap o.text []).2.2
    exact ⟨cs, hcs _ le_rfl, C63_cuts _ _ hs ho _ [] _ _ (Or.inr (Or.inr (hcs _ le_rfl)))⟩

/-- **C149** (refuted: "tables are part of the text")  Whatever the tables of a Word document hold,
its text and chunks are the same; the tables are reported apart, each with its number, its rows, the
columns of the first row and the cells without outer white space, and not even counted when
`extract_tables` is off. -/
theorem C149_docx_tables_refuted (size overlap : Int) (ex : Bool) (ps : List Text)
    (ts ts' : List (List (List Text))) :
    (docxParse size overlap ex ⟨ps, ts⟩).text = (docxParse size overlap ex ⟨ps, ts'⟩).text ∧
    (docxParse size overlap ex ⟨ps, ts⟩).chunks = (docxParse size overlap ex ⟨ps, ts'⟩).chunks ∧
    (∀ i t, ts[i]? = some t → (docxParse size overlap true ⟨ps, ts⟩).tables[i]? =
      some (i + 1, t.length, (t.headD []).length, t.map fun row => row.map strip)) ∧
    (docxParse size overlap true ⟨ps, ts⟩).tables.length = ts.length ∧
    (docxParse size overlap true ⟨ps, ts⟩).numTables = ts.length ∧
    (docxParse size overlap false ⟨ps, ts⟩).numTables = 0 := by
  refine ⟨rfl, rfl, ?_, by simp [docxParse], by simp [docxParse], rfl⟩
  intro i t h
  simp only [docxParse, if_true, List.getElem?_map, List.getElem?_zipIdx, h, Option.map_some, docxTable]
  cases t <;> simp

def exDocx : Docx :=
  ⟨[" Title ".toList, "  ".toList, "Some text.".toList], [[["a".toList, " b".toList]]]⟩

/-- A document with a blank paragraph and a table. -/
example : (∀ p ∈ exDocx.paragraphs, '\n' ∉ strip p) ∧
    nonBlank exDocx.paragraphs = ["Title".toList, "Some text.".toList] ∧
    (docxParse 100 10 true exDocx).text = "Title\nSome text.".toList ∧
    (docxParse 100 10 true exDocx).paragraphs = [(1, 5), (3, 10)] ∧
    (docxParse 100 10 true exDocx).tables = [(1, 1, 2, [["a".toList, "b".toList]])] := by
  decide +kernel

/-! ## C150: Excel and PowerPoint -/

theorem closed_of_not_mem (x : Text) (h : '\n' ∉ x) : Closed x := by
  refine ⟨(apart_iff x).2 fun hh => h (hh.subset (by simp [nl2])), fun hl => h ?_⟩
  exact List.mem_of_getLast? hl

/-- The values of a row. -/
def rowCells (row : List (Option Text)) : List Text := row.filterMap id

/-- The sheets with at least one value. -/
def valued (book : List Sheet) : List Sheet :=
  book.filter fun s => s.rows.any fun row => row.any Option.isSome

theorem rowCells_eq_nil (row : List (Option Text)) :
    rowCells row = [] ↔ row.any Option.isSome = false := by
  induction row with
  | nil => simp [rowCells]
  | cons a row ih => cases a <;> simp_all [rowCells]

theorem sheetLines_eq (s : Sheet) : sheetLines s =
    ((s.rows.map rowCells).filter (fun r => decide (r ≠ []))).map (cellSep.intercalate ·) := by
  unfold sheetLines
  induction s.rows with
  | nil => rfl
  | cons r rs ih =>
    rw [List.map_cons, List.filterMap_cons, ih]
    by_cases h : rowCells r = []
    · have h' : r.filterMap id = [] := h
      rw [List.filter_cons_of_neg (by simp [h])]
      simp only [h', if_true]
    · have h' : r.filterMap id ≠ [] := h
      rw [List.filter_cons_of_pos (by simpa using h)]
      simp only [if_neg h', List.map_cons]
      rfl

theorem sheetLines_nil (s : Sheet) :
    sheetLines s = [] ↔ (s.rows.any fun row => row.any Option.isSome) = false := by
  rw [sheetLines_eq]
  simp only [List.map_eq_nil_iff, List.filter_eq_nil_iff, decide_eq_true_eq, not_not,
    List.mem_map, forall_exists_index, and_imp, forall_apply_eq_imp_iff₂, List.any_eq_false]
  constructor
  · intro h r hr
    rw [(rowCells_eq_nil r).1 (h r hr)]
    simp
  · intro h r hr
    exact (rowCells_eq_nil r).2 (by simpa using h r hr)

theorem valued_eq (book : List Sheet) :
    book.filter (fun s => decide (sheetLines s ≠ [])) = valued book := by
  unfold valued
  apply List.filter_congr
  intro s _
  have := sheetLines_nil s
  by_cases h : sheetLines s = []
  · rw [this.1 h]; simp [h]
  · rw [decide_eq_true h]
    have h2 : ¬ (s.rows.any fun row => row.any Option.isSome) = false := fun hh => h (this.2 hh)
    exact (Bool.not_eq_false _ ▸ h2 : _ = true).symm

theorem not_mem_intercalate (sep : Text) (ls : List Text) (hs : '\n' ∉ sep)
    (h : ∀ x ∈ ls, '\n' ∉ x) : '\n' ∉ sep.intercalate ls := by
  induction ls with
  | nil => simp [List.intercalate]
  | cons x ls ih =>
    cases ls with
    | nil => simpa [List.intercalate] using h x (by simp)
    | cons y ls =>
      rw [intercalate_cons _ _ _ (by simp)]
      simp only [List.mem_append, not_or]
      exact ⟨⟨h x (by simp), hs⟩, ih fun z hz => h z (by simp [hz])⟩

theorem intercalate_ne_nil (sep : Text) (ls : List Text) (hne : ls ≠ []) (h : ∀ x ∈ ls, x ≠ []) :
    sep.intercalate ls ≠ [] := by
  cases ls with
  | nil => exact absurd rfl hne
  | cons x ls =>
    have hx := h x (by simp)
    cases ls with
    | nil => simpa [List.intercalate] using hx
    | cons y ls => rw [intercalate_cons _ _ _ (by simp)]; simp [hx]

theorem infix_intercalate (sep x : Text) (ls : List Text) (h : x ∈ ls) :
    x <:+: sep.intercalate ls := by
  induction ls with
  | nil => simp at h
  | cons y ls ih =>
    cases ls with
    | nil =>
      have : x = y := by simpa using h
      simp [List.intercalate, this]
    | cons z ls =>
      rw [intercalate_cons _ _ _ (by simp)]
      rcases List.mem_cons.1 h with rfl | h
      · exact ⟨[], sep ++ sep.intercalate (z :: ls), by simp⟩
      · exact (ih h).trans ⟨y ++ sep, [], by simp⟩

theorem sheetText_eq (s : Sheet) (h : sheetLines s ≠ []) :
    sheetText s = ['\n'].intercalate ((['S', 'h', 'e', 'e', 't', ':', ' '] ++ s.name) :: sheetLines s) := by
  rw [intercalate_cons _ _ _ h, sheetText]

/-- **C150** Every value of a workbook stands in its text. -/
theorem C150_excel_values (size overlap : Int) (book : List Sheet) (s : Sheet) (hs : s ∈ book)
    (row : List (Option Text)) (hr : row ∈ s.rows) (v : Text) (hv : some v ∈ row) :
    v <:+: (excelParse size overlap book).text := by
  have hcells : v ∈ rowCells row := by simpa [rowCells] using hv
  have hne : rowCells row ≠ [] := List.ne_nil_of_mem hcells
  have hl : cellSep.intercalate (rowCells row) ∈ sheetLines s := by
    rw [sheetLines_eq]
    exact List.mem_map.2 ⟨_, List.mem_filter.2 ⟨List.mem_map.2 ⟨row, hr, rfl⟩, by simpa using hne⟩, rfl⟩
  have hkept : s ∈ book.filter (fun s => decide (sheetLines s ≠ [])) :=
    List.mem_filter.2 ⟨hs, by simpa using List.ne_nil_of_mem hl⟩
  have h1 : v <:+: sheetText s := by
    refine (infix_intercalate _ _ _ hcells).trans ((infix_intercalate ['\n'] _ _ hl).trans ?_)
    exact ⟨['S', 'h', 'e', 'e', 't', ':', ' '] ++ s.name ++ ['\n'], [], by simp [sheetText]⟩
  exact h1.trans (infix_intercalate _ _ _ (List.mem_map.2 ⟨s, hkept, rfl⟩))

/-- **C150** (partial: which column a value stood in is lost, see `C150_excel_columns_refuted`)
The text of a workbook, for names and non-empty values without newlines, can be taken apart again:
one block per sheet that has values, in order, a heading with the name of the sheet and one line
for each row that has values, in which they are joined by bars.  `sheet_names` lists all sheets,
`sheets_info` those with values and the characters of their lines; `total_cells` adds up rows times
columns of these. -/
theorem C150_excel_partial (size overlap : Int) (book : List Sheet)
    (hn : ∀ s ∈ book, '\n' ∉ s.name)
    (hv : ∀ s ∈ book, ∀ row ∈ s.rows, ∀ v, some v ∈ row → v ≠ [] ∧ '\n' ∉ v) :
    let o := excelParse size overlap book
    (valued book ≠ [] →
      (splitOnText nl2 o.text).map (splitOnText ['\n']) = (valued book).map fun s =>
        (['S', 'h', 'e', 'e', 't', ':', ' '] ++ s.name) ::
          ((s.rows.map rowCells).filter (fun r => decide (r ≠ []))).map ([' ', '|', ' '].intercalate ·)) ∧
    (valued book = [] → o.text = []) ∧
    o.names = book.map Sheet.name ∧ o.sheets.map Prod.fst = (valued book).map Sheet.name ∧
    o.sheets.map Prod.snd = (valued book).map (fun s => (['\n'].intercalate
      (((s.rows.map rowCells).filter (fun r => decide (r ≠ []))).map ([' ', '|', ' '].intercalate ·))).length) ∧
    o.totalCells = ((valued book).map fun s => s.maxRow * s.maxCol).sum := by
  intro o
  have ht : o.text = nl2.intercalate ((valued book).map sheetText) := by
    simp only [o, excelParse, valued_eq]
  have hval : ∀ s ∈ valued book, s ∈ book ∧ sheetLines s ≠ [] := by
    intro s hs
    rw [← valued_eq] at hs
    simpa using List.mem_filter.1 hs
  have hline : ∀ s ∈ book, ∀ x ∈ sheetLines s, '\n' ∉ x ∧ x ≠ [] := by
    intro s hs x hx
    rw [sheetLines_eq] at hx
    obtain ⟨r, hr, rfl⟩ := List.mem_map.1 hx
    obtain ⟨hr, hne⟩ := List.mem_filter.1 hr
    obtain ⟨row, hrow, rfl⟩ := List.mem_map.1 hr
    have hc : ∀ v ∈ rowCells row, v ≠ [] ∧ '\n' ∉ v := fun v hvv =>
      hv s hs row hrow v (by simpa [rowCells] using hvv)
    exact ⟨not_mem_intercalate _ _ (by decide) fun v h => (hc v h).2,
      intercalate_ne_nil _ _ (by simpa using hne) fun v h => (hc v h).1⟩
  have hhead : ∀ s ∈ book, '\n' ∉ ['S', 'h', 'e', 'e', 't', ':', ' '] ++ s.name := by
    intro s hs
    simp only [List.mem_append, not_or]
    exact ⟨by decide, hn s hs⟩
  refine ⟨fun hne => ?_, fun h => by rw [ht, h]; rfl, rfl, ?_, ?_, ?_⟩
  · rw [ht, split_blocks _ (by simpa using hne), List.map_map]
    · apply List.map_congr_left
      intro s hs
      obtain ⟨hb, hl⟩ := hval s hs
      rw [Function.comp_apply, sheetText_eq s hl, split_lines _ (by simp), sheetLines_eq]
      · rfl
      · intro x hx
        rcases List.mem_cons.1 hx with rfl | hx
        · exact hhead s hb
        · exact (hline s hb x hx).1
    · intro x hx
      obtain ⟨s, hs, rfl⟩ := List.mem_map.1 hx
      obtain ⟨hb, hl⟩ := hval s hs
      rw [sheetText_eq s hl]
      refine ((closed_lines [] ⟨by simp [Apart], by simp⟩ _ ?_).2 (by simp)).2
      intro y hy
      have : '\n' ∉ y ∧ y ≠ [] := by
        rcases List.mem_cons.1 hy with rfl | hy
        · exact ⟨hhead s hb, by simp⟩
        · exact hline s hb y hy
      refine ⟨closed_of_not_mem y this.1, this.2, fun hh => this.1 (List.mem_of_mem_head? hh)⟩
  · simp only [o, excelParse, valued_eq, List.map_map]
    rfl
  · simp only [o, excelParse, valued_eq, List.map_map]
    apply List.map_congr_left
    intro s _
    simp only [Function.comp_apply, sheetLines_eq]
    rfl
  · simp only [o, excelParse, valued_eq]

/-- **C150** (refuted: "the place of a value in the sheet can be read off")  Empty cells and empty
rows leave no trace: whatever column and row a value stands in, the result is the same. -/
theorem C150_excel_columns_refuted (size overlap : Int) (name v : Text) (mr mc a b a' b' : Nat) :
    excelParse size overlap
      [⟨name, List.replicate a [] ++ [List.replicate b none ++ [some v]], mr, mc⟩] =
    excelParse size overlap
      [⟨name, List.replicate a' [] ++ [List.replicate b' none ++ [some v]], mr, mc⟩] := by
  have h : ∀ a b, sheetLines
      ⟨name, List.replicate a [] ++ [List.replicate b none ++ [some v]], mr, mc⟩ = [v] := by
    intro a b
    rw [sheetLines_eq]
    simp [rowCells, List.intercalate]
  have h2 : ∀ a b, sheetText
      ⟨name, List.replicate a [] ++ [List.replicate b none ++ [some v]], mr, mc⟩ =
      ['S', 'h', 'e', 'e', 't', ':', ' '] ++ name ++ ['\n'] ++ ['\n'].intercalate [v] := by
    intro a b
    rw [sheetText, h]
  simp [excelParse, h, h2]

def exBook : List Sheet :=
  [⟨"A".toList, [[some "x".toList, none, some "y".toList], [none], [some "7".toList]], 3, 3⟩,
   ⟨"Empty".toList, [[none, none]], 1, 2⟩, ⟨"B".toList, [[some "z".toList]], 1, 1⟩]

example : (∀ s ∈ exBook, '\n' ∉ s.name) ∧ (valued exBook).map Sheet.name = ["A".toList, "B".toList] ∧
    (∀ s ∈ exBook, ∀ row ∈ s.rows, ∀ v ∈ rowCells row, v ≠ [] ∧ '\n' ∉ v) ∧
    (excelParse 100 10 exBook).text = "Sheet: A\nx | y\n7\n\nSheet: B\nz".toList := by
  decide +kernel

/-- **C150** The text of a presentation has one block for each slide with text, in order; a block
begins with the number of the slide, counted with the slides without text, and goes on with the
trimmed texts of its shapes (for texts without blank lines). -/
theorem C150_pptx (num : Nat → Text) (hnum : ∀ k, '\n' ∉ num k) (size overlap : Int)
    (slides : List (List (Option Text)))
    (hv : ∀ s ∈ slides, ∀ t, some t ∈ s → ¬ nl2 <:+: t) :
    let o := pptxParse num size overlap slides
    let blocks := slides.zipIdx.filter (fun x => x.1.any fun t => match t with
      | none => false | some t => decide (strip t ≠ []))
    (blocks ≠ [] → splitOnText nl2 o.text = blocks.map fun x =>
      ['S', 'l', 'i', 'd', 'e', ' '] ++ num (x.2 + 1) ++ [':', ' '] ++
        ['\n'].intercalate (nonBlank (x.1.filterMap id))) ∧
    (blocks = [] → o.text = []) ∧
    o.slides.map Prod.fst = blocks.map (fun x => x.2 + 1) ∧ o.numSlides = slides.length := by
  intro o blocks
  have st : ∀ s : List (Option Text), slideTexts s = nonBlank (s.filterMap id) := by
    intro s
    unfold slideTexts nonBlank
    induction s with
    | nil => rfl
    | cons t s ih =>
      cases t with
      | none => simpa using ih
      | some t =>
        by_cases h : strip t = []
        · simp [h, ih]
        · simp [h, ih]
  have st0 : ∀ s : List (Option Text), decide (slideTexts s ≠ []) = (s.any fun t => match t with
      | none => false | some t => decide (strip t ≠ [])) := by
    intro s
    unfold slideTexts
    induction s with
    | nil => rfl
    | cons t s ih =>
      cases t with
      | none => simpa using ih
      | some t =>
        by_cases h : strip t = []
        · simpa [h] using ih
        · simp [h]
  have hk : pptxKept slides = blocks.map fun x => (x.2 + 1, slideTexts x.1) := by
    unfold pptxKept
    simp only [blocks]
    generalize slides.zipIdx = l
    induction l with
    | nil => rfl
    | cons x l ih =>
      have := st0 x.1
      by_cases h : slideTexts x.1 = []
      · rw [List.filterMap_cons_none (by simp [h]), List.filter_cons_of_neg, ih]
        rw [← this]; simp [h]
      · rw [List.filterMap_cons_some (b := (x.2 + 1, slideTexts x.1)) (by simp [h]),
          List.filter_cons_of_pos, ih]
        · rfl
        · rw [← this]; simp [h]
  have ht : o.text = nl2.intercalate (blocks.map fun x => slideText num (x.2 + 1, slideTexts x.1)) := by
    simp only [o, pptxParse, hk, List.map_map]
    rfl
  refine ⟨fun hne => ?_, fun h => by rw [ht, h]; rfl, ?_, rfl⟩
  · rw [ht, split_blocks _ (by simpa using hne)]
    · apply List.map_congr_left
      intro x _
      simp only [slideText, st]
    · intro y hy
      obtain ⟨x, hx, rfl⟩ := List.mem_map.1 hy
      have hx : x ∈ slides.zipIdx := (List.mem_filter.1 hx).1
      have hs : x.1 ∈ slides := by
        obtain ⟨s, i⟩ := x
        exact List.mem_of_getElem? (List.mem_zipIdx_iff_getElem?.1 hx)
      refine (closed_lines _ (closed_of_not_mem _ ?_) _ ?_).1
      · simp only [List.mem_append, not_or]
        exact ⟨⟨by decide, hnum _⟩, by decide⟩
      · intro z hz
        rw [st, nonBlank] at hz
        obtain ⟨hz, hne⟩ := List.mem_filter.1 hz
        obtain ⟨t, ht, rfl⟩ := List.mem_map.1 hz
        exact closed_strip t (hv _ hs t (by simpa using ht)) (by simpa using hne)
  · simp only [o, pptxParse, hk, List.map_map]
    rfl

/-- A presentation whose second slide has no text. -/
example :
    let slides : List (List (Option Text)) :=
      [[some " a ".toList, none], [some " ".toList], [some "b\nc".toList, some "d".toList]]
    (∀ s ∈ slides, ∀ t ∈ s.filterMap id, hasSub nl2 t = false) ∧
    (pptxParse (fun k => (toString k).toList) 100 10 slides).slides = [(1, 1, 1), (3, 5, 2)] := by
  decide +kernel

end Valori.Props
