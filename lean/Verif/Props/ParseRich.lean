import Verif.Model.ParseRich
import Verif.Props.Parse
import Verif.Lemmas.Cleaning

/-!
# Properties C186, C187: what the PDF and docling parsers return
-/

namespace Valori.Props
open Valori.Spec (Cuts IsWords)

/-- The text of a page that can be read and is not blank. -/
def Readable (p : PdfPage) (t : Text) : Prop := p.extract = .ok t ∧ ∃ x ∈ t, isSpace x = false

theorem strip_ne_nil_iff (t : Text) : strip t ≠ [] ↔ ∃ x ∈ t, isSpace x = false := by
  constructor
  · intro h
    by_contra hall
    push Not at hall
    apply h
    obtain ⟨a, b, hab, -, -, hh, -⟩ := strip_isTrim t
    cases hs : strip t with
    | nil => rfl
    | cons x s =>
      have hx := hall x (by rw [hab, hs]; simp)
      exact absurd (hh x (by rw [hs]; rfl)) hx
  · rintro ⟨x, hx, hs⟩ h
    rw [strip_eq_nil h x hx] at hs
    cases hs

/-- The texts of the readable pages in their order. -/
inductive PageTexts : List PdfPage → List Text → Prop
  | nil : PageTexts [] []
  | keep (p ps t ts) : Readable p t → PageTexts ps ts → PageTexts (p :: ps) (t :: ts)
  | skip (p ps ts) : (∀ t, ¬ Readable p t) → PageTexts ps ts → PageTexts (p :: ps) ts

theorem pdfScan_texts (i : Nat) (ps : List PdfPage) : PageTexts ps (pdfScan i ps).1 := by
  induction ps generalizing i with
  | nil => exact .nil
  | cons p ps ih =>
    rcases he : p.extract with e | t
    · have h0 : (pdfScan i (p :: ps)).1 = (pdfScan (i + 1) ps).1 := by simp [pdfScan, he]
      rw [h0]
      refine .skip _ _ _ ?_ (ih _)
      rintro t ⟨h, -⟩
      rw [he] at h; cases h
    · by_cases hs : strip t = []
      · have h0 : (pdfScan i (p :: ps)).1 = (pdfScan (i + 1) ps).1 := by simp [pdfScan, he, hs]
        rw [h0]
        refine .skip _ _ _ ?_ (ih _)
        rintro t' ⟨h, hx⟩
        rw [he] at h
        obtain rfl := Except.ok.inj h
        exact (strip_ne_nil_iff _).2 hx hs
      · have h0 : (pdfScan i (p :: ps)).1 = t :: (pdfScan (i + 1) ps).1 := by
          simp only [pdfScan, he, hs, if_false]
          rcases p.images with _ | _ | _ <;> rfl
        rw [h0]
        exact .keep _ _ _ _ ⟨he, (strip_ne_nil_iff _).1 hs⟩ (ih _)

/-- The entries: the readable pages whose images could be counted. -/
theorem pdfScan_info (i : Nat) (ps : List PdfPage) (q : PdfPageInfo) :
    q ∈ (pdfScan i ps).2 ↔ ∃ (j : Nat) (p : PdfPage) (t : Text), ps[j]? = some p ∧ Readable p t ∧
      q.number = ((i + j : Nat) : Int) + 1 ∧ q.length = t.length ∧
      ((p.images = none ∧ q.hasImages = false) ∨ ∃ n, p.images = some (.ok n) ∧ q.hasImages = decide (0 < n)) := by
  induction ps generalizing i with
  | nil => simp [pdfScan]
  | cons p ps ih =>
    have hsucc : (∃ (j : Nat) (p' : PdfPage) (t : Text), (p :: ps)[j]? = some p' ∧ Readable p' t ∧
        q.number = ((i + j : Nat) : Int) + 1 ∧ q.length = t.length ∧
        ((p'.images = none ∧ q.hasImages = false) ∨
          ∃ n, p'.images = some (.ok n) ∧ q.hasImages = decide (0 < n))) ↔
        (∃ t, Readable p t ∧ q.number = (i : Int) + 1 ∧ q.length = t.length ∧
          ((p.images = none ∧ q.hasImages = false) ∨
            ∃ n, p.images = some (.ok n) ∧ q.hasImages = decide (0 < n))) ∨
        q ∈ (pdfScan (i + 1) ps).2 := by
      rw [ih]
      constructor
      · rintro ⟨j, p', t, h1, h2, h3, h4⟩
        cases j with
        | zero =>
          simp only [List.getElem?_cons_zero, Option.some.injEq] at h1
          subst h1
          exact .inl ⟨t, h2, by simpa using h3, h4⟩
        | succ j =>
          refine .inr ⟨j, p', t, by simpa using h1, h2, ?_, h4⟩
          rw [h3]; push_cast; omega
      · rintro (⟨t, h2, h3, h4⟩ | ⟨j, p', t, h1, h2, h3, h4⟩)
        · exact ⟨0, p, t, rfl, h2, by simpa using h3, h4⟩
        · refine ⟨j + 1, p', t, by simpa using h1, h2, ?_, h4⟩
          rw [h3]; push_cast; omega
    rw [hsucc]
    rcases he : p.extract with e | t
    · simp [pdfScan, he, Readable]
    · by_cases hs : strip t = []
      · have hno : ¬ ∃ x ∈ t, isSpace x = false := fun h => (strip_ne_nil_iff _).2 h hs
        have : ∀ t', ¬ Readable p t' := by
          rintro t' ⟨h, hx⟩
          rw [he] at h
          obtain rfl := Except.ok.inj h
          exact hno hx
        simp [pdfScan, he, hs, this]
      · have hr : ∀ t', Readable p t' ↔ t' = t := by
          intro t'
          constructor
          · rintro ⟨h, -⟩
            rw [he] at h
            exact (Except.ok.inj h).symm
          · rintro rfl
            exact ⟨he, (strip_ne_nil_iff _).1 hs⟩
        have hex : (∃ t', Readable p t' ∧ q.number = (i : Int) + 1 ∧ q.length = t'.length ∧
            ((p.images = none ∧ q.hasImages = false) ∨
              ∃ n, p.images = some (.ok n) ∧ q.hasImages = decide (0 < n))) ↔
            q.number = (i : Int) + 1 ∧ q.length = t.length ∧
            ((p.images = none ∧ q.hasImages = false) ∨
              ∃ n, p.images = some (.ok n) ∧ q.hasImages = decide (0 < n)) := by
          simp [hr]
        rw [hex]
        rcases q with ⟨a, b, c⟩
        rcases hi : p.images with _ | _ | n <;> simp [pdfScan, he, hs, hi]

theorem pdfScan_sorted (i : Nat) (ps : List PdfPage) :
    ((pdfScan i ps).2.map PdfPageInfo.number).Pairwise (· < ·) ∧
      ∀ q ∈ (pdfScan i ps).2, (i : Int) < q.number := by
  have hlow : ∀ i ps, ∀ q ∈ (pdfScan i ps).2, (i : Int) < q.number := by
    intro i ps q hq
    obtain ⟨j, -, -, -, -, h, -⟩ := (pdfScan_info i ps q).1 hq
    rw [h]; push_cast; omega
  refine ⟨?_, hlow i ps⟩
  induction ps generalizing i with
  | nil => simp [pdfScan]
  | cons p ps ih =>
    have h0 : (pdfScan i (p :: ps)).2 = (pdfScan (i + 1) ps).2 ∨
        ∃ q, q.number = (i : Int) + 1 ∧ (pdfScan i (p :: ps)).2 = q :: (pdfScan (i + 1) ps).2 := by
      simp only [pdfScan]
      rcases p.extract with e | t
      · exact .inl rfl
      · simp only
        split
        · exact .inl rfl
        · rcases p.images with _ | _ | n
          · exact .inr ⟨_, rfl, rfl⟩
          · exact .inl rfl
          · exact .inr ⟨_, rfl, rfl⟩
    rcases h0 with h0 | ⟨q, hq, h0⟩
    · rw [h0]; exact ih _
    · rw [h0, List.map_cons, List.pairwise_cons]
      refine ⟨?_, ih _⟩
      intro n hn
      obtain ⟨r, hr, rfl⟩ := List.mem_map.1 hn
      have := hlow (i + 1) ps r hr
      rw [hq]; push_cast at this; exact this

theorem pdfParse_ok {c : PdfCfg} {inited : Bool} {f : FileView} {reader : Except Err PdfReader} {d : PdfDoc}
    (h : pdfParse c inited f reader = .ok d) :
    ∃ r, reader = .ok r ∧ f.size = .ok d.size ∧ d.text = nl2.intercalate (pdfScan 0 r.pages).1 ∧
      d.numPages = r.pages.length ∧ d.pages = (pdfScan 0 r.pages).2 ∧ d.pagesWithText = d.pages.length ∧
      d.fields = pdfKeys.map (fun k => (k.1, (r.info.get? k.2).getD [])) ∧
      d.readingTime = (splitWs [] d.text).length / 200 ∧
      ((d.text.length : Int) ≤ c.chunkSize ∧ d.chunks = [] ∨
        c.chunkSize < (d.text.length : Int) ∧ pdfChunks c.chunkSize c.overlap d.text
          (d.pages.map fun p => (p.number, p.length)) d.text.length = some d.chunks) := by
  obtain ⟨-, -, -, n, hn, -, hb⟩ := ((C148_frame _ _ _ _ _).1 _).1 h
  unfold pdfBody at hb
  rcases reader with e | r
  · simp at hb
  refine ⟨r, rfl, ?_⟩
  simp only at hb
  split at hb
  · next hl =>
    split at hb
    · cases hb
    · next cs hc =>
      simp only [Except.ok.injEq] at hb
      subst hb
      exact ⟨hn, rfl, rfl, rfl, rfl, rfl, rfl, .inr ⟨hl, hc⟩⟩
  · next hl =>
    simp only [Except.ok.injEq] at hb
    subst hb
    exact ⟨hn, rfl, rfl, rfl, rfl, rfl, rfl, .inl ⟨not_lt.1 hl, rfl⟩⟩

/-- **C186.** The text of a parsed PDF is the texts of its readable pages that are not blank, in the order
of the pages and unchanged, with blank lines between them; a page that cannot be read takes nothing else
with it.  A text of at most `chunk_size` characters is not cut, a longer one is cut into pieces. -/
theorem C186_text (c : PdfCfg) (inited : Bool) (f : FileView) (r : PdfReader) (d : PdfDoc)
    (h : pdfParse c inited f (.ok r) = .ok d) :
    (∃ ts, PageTexts r.pages ts ∧ d.text = ['\n', '\n'].intercalate ts) ∧
    d.numPages = r.pages.length ∧ f.size = .ok d.size ∧
    ((d.text.length : Int) ≤ c.chunkSize → d.chunks = []) ∧
    (0 < c.chunkSize → 0 ≤ c.overlap → c.chunkSize < (d.text.length : Int) →
      Cuts isSpace d.text c.chunkSize (d.chunks.map Chunk.piece)) := by
  obtain ⟨r', hr, h1, h2, h3, -, -, -, -, h4⟩ := pdfParse_ok h
  obtain rfl := Except.ok.inj hr
  refine ⟨⟨_, pdfScan_texts 0 r.pages, h2⟩, h3, h1, ?_, ?_⟩
  · intro hl
    rcases h4 with ⟨-, h⟩ | ⟨hl', -⟩
    · exact h
    · exact absurd hl' (not_lt.2 hl)
  · intro h1 h2 hl
    rcases h4 with ⟨hl', -⟩ | ⟨-, hc⟩
    · exact absurd hl (not_lt.2 hl')
    · exact C63_cuts _ _ h1 h2 _ _ _ _ (.inr (.inl hc))

/-- **C186.** Every entry of `page_metadata` is true: it gives the number of a page, the length of that
page's text and whether the page has images; entries are in the order of the pages and none is given
twice.  The page of a chunk is one of them.  The other entries of the metadata are those of the document
information, empty if missing, and the reading time is the number of words divided by 200. -/
theorem C186_metadata (c : PdfCfg) (inited : Bool) (f : FileView) (r : PdfReader) (d : PdfDoc)
    (h : pdfParse c inited f (.ok r) = .ok d) :
    (∀ q ∈ d.pages, ∃ (j : Nat) (p : PdfPage) (t : Text), r.pages[j]? = some p ∧ Readable p t ∧
      q.number = (j : Int) + 1 ∧ q.length = t.length ∧
      (q.hasImages = true ↔ ∃ n, 0 < n ∧ p.images = some (.ok n))) ∧
    (d.pages.map PdfPageInfo.number).Pairwise (· < ·) ∧
    d.pagesWithText = d.pages.length ∧
    (d.pages ≠ [] → ∀ ch ∈ d.chunks, ∃ q ∈ d.pages, ch.page = some q.number) ∧
    (∀ k v, (k, v) ∈ d.fields → ∃ key, (k, key) ∈ pdfKeys ∧ v = (r.info.get? key).getD []) ∧
    (∀ ws, IsWords isSpace d.text ws → d.readingTime = ws.length / 200) := by
  obtain ⟨r', hr, -, -, -, h3, h4, h5, h6, h7⟩ := pdfParse_ok h
  obtain rfl := Except.ok.inj hr
  refine ⟨?_, ?_, h4, ?_, ?_, ?_⟩
  · intro q hq
    rw [h3] at hq
    obtain ⟨j, p, t, g1, g2, g3, g4, g5⟩ := (pdfScan_info 0 r.pages q).1 hq
    refine ⟨j, p, t, g1, g2, by simpa using g3, g4, ?_⟩
    rcases g5 with ⟨g5, g6⟩ | ⟨n, g5, g6⟩
    · simp [g5, g6]
    · rw [g6]
      simp only [decide_eq_true_eq, g5, Option.some.injEq, Except.ok.injEq]
      exact ⟨fun h => ⟨n, h, rfl⟩, by rintro ⟨m, hm, rfl⟩; exact hm⟩
  · rw [h3]; exact (pdfScan_sorted 0 r.pages).1
  · intro hne ch hch
    rcases h7 with ⟨-, hc⟩ | ⟨-, hc⟩
    · rw [hc] at hch; simp at hch
    · obtain ⟨-, g⟩ := spanLoop_page _ _ _ _ _ _ _ _ hc
      have hm := pageFor_mem (d.pages.map fun p => (p.number, p.length)) (by simpa using hne)
        ch.startPos.toNat
      rw [List.map_map, List.mem_map] at hm
      obtain ⟨q, hq, he⟩ := hm
      exact ⟨q, hq, by rw [(g ch hch).2]; exact congrArg some he.symm⟩
  · intro k v hkv
    rw [h5, List.mem_map] at hkv
    obtain ⟨x, hx, he⟩ := hkv
    simp only [Prod.mk.injEq] at he
    exact ⟨x.2, by rw [← he.1]; exact hx, he.2.symm⟩
  · intro ws hws
    rw [h6, isWords_splitWs hws]

/-- **C186.** Every page with text has an entry, and the entries are as many as the texts, if counting the
images raises nowhere.  Missing: a page where it does. -/
theorem C186_pages_partial (c : PdfCfg) (inited : Bool) (f : FileView) (r : PdfReader) (d : PdfDoc)
    (h : pdfParse c inited f (.ok r) = .ok d) (hi : ∀ p ∈ r.pages, ∀ e, p.images ≠ some (.error e)) :
    (∀ (j : Nat) (p : PdfPage) (t : Text), r.pages[j]? = some p → Readable p t →
      ∃ q ∈ d.pages, q.number = (j : Int) + 1 ∧ q.length = t.length) ∧
    ∃ ts, PageTexts r.pages ts ∧ d.pagesWithText = ts.length := by
  obtain ⟨r', hr, -, -, -, h3, h4, -, -, -⟩ := pdfParse_ok h
  obtain rfl := Except.ok.inj hr
  refine ⟨?_, _, pdfScan_texts 0 r.pages, ?_⟩
  · intro j p t hj hp
    rcases him : p.images with _ | e | n
    · refine ⟨⟨(j : Int) + 1, t.length, false⟩, ?_, rfl, rfl⟩
      rw [h3, pdfScan_info]
      exact ⟨j, p, t, hj, hp, by simp, rfl, .inl ⟨him, rfl⟩⟩
    · exact absurd him (hi p (List.mem_of_getElem? hj) e)
    · refine ⟨⟨(j : Int) + 1, t.length, decide (0 < n)⟩, ?_, rfl, rfl⟩
      rw [h3, pdfScan_info]
      exact ⟨j, p, t, hj, hp, by simp, rfl, .inr ⟨n, him, rfl⟩⟩
  · rw [h4, h3]
    generalize 0 = i
    revert hi
    generalize r.pages = ps
    intro hi
    induction ps generalizing i with
    | nil => rfl
    | cons p ps ih =>
      have ih := ih (i + 1) fun p hp => hi p (by simp [hp])
      have hp := hi p (by simp)
      simp only [pdfScan]
      rcases p.extract with e | t
      · exact ih
      · simp only
        split
        · exact ih
        · rcases him : p.images with _ | e | n
          · simp [ih]
          · exact absurd him (hp e)
          · simp [ih]

/-- **C186** (`num_pages_with_text` is the number of pages whose text is in the document): false.  A page
whose images cannot be counted gives its text but has no entry, whatever the page. -/
theorem C186_pages_refuted (c : PdfCfg) (inited : Bool) (f : FileView) (r : PdfReader) (d : PdfDoc)
    (h : pdfParse c inited f (.ok r) = .ok d) (j : Nat) (p : PdfPage) (t : Text) (e : Err)
    (hj : r.pages[j]? = some p) (hp : Readable p t) (hi : p.images = some (.error e)) :
    (∃ ts, PageTexts r.pages ts ∧ t ∈ ts ∧ d.pagesWithText < ts.length) ∧
    ∀ q ∈ d.pages, q.number ≠ (j : Int) + 1 := by
  obtain ⟨r', hr, -, -, -, h3, h4, -, -, -⟩ := pdfParse_ok h
  obtain rfl := Except.ok.inj hr
  have hle : ∀ i ps, (pdfScan i ps).2.length ≤ (pdfScan i ps).1.length := by
    intro i ps
    induction ps generalizing i with
    | nil => simp [pdfScan]
    | cons p ps ih =>
      simp only [pdfScan]
      rcases p.extract with e | t
      · exact ih _
      · simp only
        split
        · exact ih _
        · have := ih (i + 1)
          rcases p.images with _ | e | n <;> simp <;> omega
  refine ⟨⟨_, pdfScan_texts 0 r.pages, ?_⟩, ?_⟩
  · rw [h4, h3]
    have key : ∀ (i : Nat) (ps : List PdfPage) (j : Nat), ps[j]? = some p → t ∈ (pdfScan i ps).1 ∧
        (pdfScan i ps).2.length < (pdfScan i ps).1.length := by
      intro i ps
      induction ps generalizing i with
      | nil => simp
      | cons p' ps ih =>
        intro j hj
        cases j with
        | zero =>
          simp only [List.getElem?_cons_zero, Option.some.injEq] at hj
          subst hj
          have := hle (i + 1) ps
          simp only [pdfScan, hp.1, (strip_ne_nil_iff t).2 hp.2, if_false, hi, List.mem_cons, true_or,
            true_and, List.length_cons]
          omega
        | succ j =>
          obtain ⟨g1, g2⟩ := ih (i + 1) j (by simpa using hj)
          simp only [pdfScan]
          rcases p'.extract with e | t'
          · exact ⟨g1, g2⟩
          · simp only
            split
            · exact ⟨g1, g2⟩
            · rcases p'.images with _ | e | n <;> simp [g1] <;> omega
    exact key 0 r.pages j hj
  · intro q hq hn
    rw [h3] at hq
    obtain ⟨j', p', t', g1, g2, g3, g4, g5⟩ := (pdfScan_info 0 r.pages q).1 hq
    have : j' = j := by rw [hn] at g3; push_cast at g3; omega
    subst this
    rw [hj] at g1
    obtain rfl := Option.some.inj g1
    rcases g5 with ⟨g5, -⟩ | ⟨n, g5, -⟩ <;> rw [hi] at g5 <;> simp at g5

/-- **C186.** A PDF that can be opened is parsed, whatever its pages do; anything else raises
`ParsingError`. -/
theorem C186_total (c : PdfCfg) (inited : Bool) (f : FileView) (reader : Except Err PdfReader) :
    ((∃ d, pdfParse c inited f reader = .ok d) ↔ inited = true ∧ f.present = true ∧ f.suffix = ".pdf" ∧
      (∃ n, f.size = .ok n ∧ (n : Int) ≤ c.maxSize) ∧ ∃ r, reader = .ok r) ∧
    ∀ e, pdfParse c inited f reader = .error e → e = .parsing := by
  have hbody : ∀ n, (∃ d, pdfBody c reader n = .ok d) ↔ ∃ r, reader = .ok r := by
    intro n
    rcases reader with e | r
    · simp [pdfBody]
    · simp only [Except.ok.injEq, exists_eq', iff_true, pdfBody]
      split
      · obtain ⟨cs, hcs⟩ := (C63_terminates c.chunkSize c.overlap (nl2.intercalate (pdfScan 0 r.pages).1)
          ((pdfScan 0 r.pages).2.map fun p => (p.number, p.length))).2.1
        rw [hcs _ le_rfl]
        exact ⟨_, rfl⟩
      · exact ⟨_, rfl⟩
  refine ⟨?_, (C148_frame _ _ _ _ _).2⟩
  constructor
  · rintro ⟨d, h⟩
    obtain ⟨h1, h2, h3, n, h4, h5, h6⟩ := ((C148_frame _ _ _ _ _).1 _).1 h
    exact ⟨h1, h2, by simpa [pdfFormats] using h3, ⟨n, h4, h5⟩, (hbody n).1 ⟨d, h6⟩⟩
  · rintro ⟨h1, h2, h3, ⟨n, h4, h5⟩, h6⟩
    obtain ⟨d, hd⟩ := (hbody n).2 h6
    exact ⟨d, ((C148_frame _ _ _ _ _).1 _).2 ⟨h1, h2, by simp [pdfFormats, h3], n, h4, h5, hd⟩⟩

/-- Five pages: text, unreadable, blank, text whose images cannot be counted, text with an image. -/
def exPdf : PdfReader :=
  ⟨[⟨.ok "one".toList, none⟩, ⟨.error .other, none⟩, ⟨.ok " ".toList, none⟩,
    ⟨.ok "four".toList, some (.error .other)⟩, ⟨.ok "five".toList, some (.ok 1)⟩],
   [("/Title", "T".toList)]⟩

def exPdfDoc : Option PdfDoc := (pdfParse ⟨6, 0, 100⟩ true ⟨true, ".pdf", .ok 9⟩ (.ok exPdf)).toOption

example : exPdfDoc.map (fun d => (String.ofList d.text, d.numPages, d.pages)) =
    some ("one\n\nfour\n\nfive", 5, [⟨1, 3, false⟩, ⟨5, 4, true⟩]) := by decide +kernel

example : exPdfDoc.map (fun d => d.chunks.map fun c => (String.ofList c.text, c.page)) =
    some [("one\n\nf", some 1), ("our\n\nf", some 5), ("ive", some 5)] := by decide +kernel

/-! ## C187 -/

/-- **C187.** What `DoclingParser.parse` returns: the text is the texts of the elements that are not blank,
without the space around them, one per line; joining the chunks by line breaks gives the text back, for any
chunk size; the tables are those of the elements with "table" in their label, in their order, and none if
tables are not wanted; the same for figures. -/
theorem C187_docling {α β : Type} (lower : Text → Text) (c : DoclingCfg) (inited : Bool) (f : FileView)
    (es : List (DocElem α β)) (d : DoclingDoc α β)
    (h : doclingParse lower c inited f (.ok es) = .ok d) :
    f.size = .ok d.size ∧
    d.text = ['\n'].intercalate (doclingTexts (es.filterMap DocElem.text)) ∧
    ['\n'].intercalate (d.chunks.map fun ch => ch.text) = d.text ∧
    d.numTexts = (es.filterMap DocElem.text).countP (fun t => t.any fun x => !isSpace x) ∧
    (∀ a, a ∈ d.tables ↔ c.tables = true ∧ ∃ e ∈ es, e.table = .ok a ∧
      ∃ l, e.label = some l ∧ "table".toList <:+: lower l) ∧
    (∀ b, b ∈ d.figures ↔ c.figures = true ∧ ∃ e ∈ es, e.figure = .ok b ∧
      ∃ l, e.label = some l ∧ "figure".toList <:+: lower l) ∧
    (∀ ws, IsWords isSpace d.text ws → d.readingTime = ws.length / 200) := by
  obtain ⟨-, -, -, n, hn, -, hb⟩ := ((C148_frame _ _ _ _ _).1 _).1 h
  simp only [doclingBody, Except.ok.injEq] at hb
  subst hb
  have hlab : ∀ (w : String) (e : DocElem α β), labelled lower w e = true ↔
      ∃ l, e.label = some l ∧ w.toList <:+: lower l := by
    intro w e
    unfold labelled
    rcases e.label with _ | l
    · simp
    · simp [hasSub_iff]
  refine ⟨hn, rfl, C64_join _ _, ?_, ?_, ?_, ?_⟩
  · simp only [doclingTexts]
    generalize es.filterMap DocElem.text = ts
    induction ts with
    | nil => rfl
    | cons t ts ih =>
      rw [List.countP_cons, ← ih, List.filterMap_cons]
      by_cases hs : strip t = []
      · have hno : ¬ ∃ x ∈ t, isSpace x = false := fun h => (strip_ne_nil_iff _).2 h hs
        have : (t.any fun x => !isSpace x) = false := by
          rw [Bool.eq_false_iff]
          intro h
          obtain ⟨x, hx, hx'⟩ := List.any_eq_true.1 h
          exact hno ⟨x, hx, by simpa using hx'⟩
        simp [hs, this]
      · obtain ⟨x, hx, hx'⟩ := (strip_ne_nil_iff _).1 hs
        have : (t.any fun x => !isSpace x) = true := List.any_eq_true.2 ⟨x, hx, by simp [hx']⟩
        simp [hs, this]
  · intro a
    simp only [List.mem_filterMap]
    constructor
    · rintro ⟨e, he, ha⟩
      split at ha
      · next hc =>
        simp only [Bool.and_eq_true] at hc
        refine ⟨hc.1, e, he, ?_, (hlab _ _).1 hc.2⟩
        cases ht : e.table <;> rw [ht] at ha <;> simp [Except.toOption] at ha
        rw [ha]
      · cases ha
    · rintro ⟨h1, e, he, ha, hl⟩
      exact ⟨e, he, by rw [if_pos (by simp [h1, (hlab _ _).2 hl]), ha]; rfl⟩
  · intro b
    simp only [List.mem_filterMap]
    constructor
    · rintro ⟨e, he, ha⟩
      split at ha
      · next hc =>
        simp only [Bool.and_eq_true] at hc
        refine ⟨hc.1, e, he, ?_, (hlab _ _).1 hc.2⟩
        cases ht : e.figure <;> rw [ht] at ha <;> simp [Except.toOption] at ha
        rw [ha]
      · cases ha
    · rintro ⟨h1, e, he, ha, hl⟩
      exact ⟨e, he, by rw [if_pos (by simp [h1, (hlab _ _).2 hl]), ha]; rfl⟩
  · intro ws hws
    exact congrArg (fun l => l.length / 200) (isWords_splitWs hws)

/-- **C187** (the tables of a document are in its chunks): false.  The tables given to the chunker are not
used: two documents with the same texts have the same chunks, whatever their tables. -/
theorem C187_tables_refuted {α β : Type} (lower : Text → Text) (c : DoclingCfg) (inited : Bool) (f : FileView)
    (es es' : List (DocElem α β)) (d d' : DoclingDoc α β)
    (ht : es.filterMap DocElem.text = es'.filterMap DocElem.text)
    (h : doclingParse lower c inited f (.ok es) = .ok d)
    (h' : doclingParse lower c inited f (.ok es') = .ok d') :
    d.chunks = d'.chunks ∧ d.text = d'.text := by
  obtain ⟨-, -, -, n, -, -, hb⟩ := ((C148_frame _ _ _ _ _).1 _).1 h
  obtain ⟨-, -, -, n', -, -, hb'⟩ := ((C148_frame _ _ _ _ _).1 _).1 h'
  simp only [doclingBody, Except.ok.injEq] at hb hb'
  subst hb hb'
  exact ⟨by rw [ht], by rw [ht]⟩

/-- **C187.** Anything that goes wrong is a `ParsingError`, and a document docling can convert is parsed. -/
theorem C187_total {α β : Type} (lower : Text → Text) (c : DoclingCfg) (inited : Bool) (f : FileView)
    (elems : Except Err (List (DocElem α β))) :
    ((∃ d, doclingParse lower c inited f elems = .ok d) ↔ inited = true ∧ f.present = true ∧
      f.suffix ∈ [".pdf", ".docx", ".pptx", ".html", ".xml", ".txt"] ∧
      (∃ n, f.size = .ok n ∧ (n : Int) ≤ c.maxSize) ∧ ∃ es, elems = .ok es) ∧
    ∀ e, doclingParse lower c inited f elems = .error e → e = .parsing := by
  refine ⟨?_, (C148_frame _ _ _ _ _).2⟩
  constructor
  · rintro ⟨d, h⟩
    obtain ⟨h1, h2, h3, n, h4, h5, h6⟩ := ((C148_frame _ _ _ _ _).1 _).1 h
    refine ⟨h1, h2, h3, ⟨n, h4, h5⟩, ?_⟩
    rcases elems with e | es
    · simp [doclingBody] at h6
    · exact ⟨es, rfl⟩
  · rintro ⟨h1, h2, h3, ⟨n, h4, h5⟩, es, rfl⟩
    exact ⟨_, ((C148_frame _ _ _ _ _).1 _).2 ⟨h1, h2, h3, n, h4, h5, rfl⟩⟩

def exDocling : List (DocElem Nat Nat) :=
  [⟨some " Title ".toList, some "section_header".toList, .ok 0, .ok 0⟩, ⟨none, some "table".toList, .ok 7, .ok 0⟩,
   ⟨some " ".toList, none, .ok 0, .ok 0⟩, ⟨some "text".toList, some "table_figure".toList, .ok 8, .error .other⟩]

example : (doclingParse id ⟨true, true, 100, 100⟩ true ⟨true, ".html", .ok 9⟩ (.ok exDocling)).toOption.map
    (fun d => (String.ofList d.text, d.numTexts, d.tables, d.figures, d.chunks.map fun c => String.ofList c.text)) =
    some ("Title\ntext", 2, [7, 8], [], ["Title\ntext"]) := by decide +kernel

end Valori.Props
