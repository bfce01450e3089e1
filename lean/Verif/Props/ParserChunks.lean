import Verif.Lemmas.ChunkTail
import Verif.Lemmas.Semantic

/-!
# The chunkers of the parsers: C63 - C65, C93, C94
-/

namespace Valori.Props
open Valori.Spec (IsTrim Located Cuts)

/-! ## C63 -/

/-- The three chunkers stop for every integer size and overlap. -/
theorem C63_terminates (size overlap : Int) (text : Text) (pages : List (Int × Nat)) :
    (∃ cs, ∀ fuel, text.length ≤ fuel → textChunks size overlap text fuel = some cs) ∧
    (∃ cs, ∀ fuel, text.length ≤ fuel → pdfChunks size overlap text pages fuel = some cs) ∧
    (∃ cs, ∀ fuel, text.length ≤ fuel → officeChunks size overlap text fuel = some cs) := by
  have key : ∀ cut page, ∃ cs, ∀ fuel, text.length ≤ fuel →
      spanLoop text cut overlap page fuel 0 0 = some cs := by
    intro cut page
    obtain ⟨cs, hcs⟩ := Option.isSome_iff_exists.1
      (spanLoop_terminates text cut overlap page text.length 0 0 (by omega))
    exact ⟨cs, fun fuel hf => spanLoop_fuel _ _ _ _ _ _ _ _ hcs fuel hf⟩
  exact ⟨key _ _, key _ _, key _ _⟩

/-- For a positive size and an overlap that is not negative the chunks cut the text correctly. -/
theorem C63_cuts (size overlap : Int) (hs : 0 < size) (ho : 0 ≤ overlap) (text : Text)
    (pages : List (Int × Nat)) (fuel : Nat) (cs : List Chunk)
    (h : textChunks size overlap text fuel = some cs ∨
      pdfChunks size overlap text pages fuel = some cs ∨
      officeChunks size overlap text fuel = some cs) :
    Cuts isSpace text size (cs.map Chunk.piece) := by
  rcases h with h | h | h
  · exact spanLoop_cuts text size _ (textCut_good size text hs) _ ho _ fuel cs h
  · exact spanLoop_cuts text size _ (pdfCut_good size text hs) _ ho _ fuel cs h
  · exact spanLoop_cuts text size _ (officeCut_good size text hs) _ ho _ fuel cs h

def exPcText : Text := "Hello. Good day.\nBye".toList

example : (textChunks 9 2 exPcText 20).map (·.map fun c => (c.startPos, c.endPos)) =
    some [(0, 6), (4, 13), (11, 20), (18, 20), (19, 20)] := by decide +kernel
example : (officeChunks 9 2 exPcText 20).map (·.map fun c => (c.startPos, c.endPos)) =
    some [(0, 9), (7, 16), (14, 20), (18, 20), (19, 20)] := by decide +kernel
example : (pdfChunks 3 0 "a\n\nb\n\nc".toList [(1, 1), (2, 1), (3, 1)] 7).map
    (·.map fun c => (c.startPos, c.endPos)) = some [(0, 3), (3, 6), (6, 7)] := by decide +kernel

/-! ## C64 -/

/-- Whatever the elements: the chunks are the stripped lines of consecutive groups of elements which
together give all elements back; only a blank last group has no chunk. -/
theorem C64_groups (chunkSize : Int) (elements : List Text) :
    ∃ (gs : List (List Text)) (rest : List Text), gs.flatten ++ rest = elements ∧
      (∀ g ∈ gs, g ≠ []) ∧
      ((∀ e ∈ rest, ∀ x ∈ e, isSpace x = true) ∧
        List.Forall₂ (fun g (c : DocChunk) => IsTrim isSpace (g.map (· ++ ['\n'])).flatten c.text) gs
          (doclingChunks chunkSize elements) ∨
       List.Forall₂ (fun g (c : DocChunk) => IsTrim isSpace (g.map (· ++ ['\n'])).flatten c.text)
          (gs ++ [rest]) (doclingChunks chunkSize elements)) ∧
      (doclingChunks chunkSize elements).map (fun c => c.id) =
        List.range (doclingChunks chunkSize elements).length := by
  obtain ⟨gs, rest, h1, h2, h3, h4, h5⟩ := doclingChunks_groups chunkSize elements
  have key : ∀ l : List (List Text), (doclingChunks chunkSize elements).map (fun c => c.text) =
      l.map (fun g => strip (gather g)) →
      List.Forall₂ (fun g (c : DocChunk) => IsTrim isSpace (g.map (· ++ ['\n'])).flatten c.text) l
        (doclingChunks chunkSize elements) := by
    intro l h
    generalize doclingChunks chunkSize elements = cs at h
    induction l generalizing cs with
    | nil => rw [List.map_nil, List.map_eq_nil_iff] at h; rw [h]; exact .nil
    | cons g l ih =>
      cases cs with
      | nil => simp at h
      | cons c cs =>
        simp only [List.map_cons, List.cons.injEq] at h
        refine .cons ?_ (ih cs h.2)
        rw [h.1]
        exact strip_isTrim _
  refine ⟨gs, rest, h1, h2, ?_, h5⟩
  by_cases hr : strip (gather rest) = []
  · refine Or.inl ⟨fun e he x hx => ?_, key gs (h3 hr)⟩
    refine strip_eq_nil hr x ?_
    exact List.mem_flatten.2 ⟨e ++ ['\n'], List.mem_map_of_mem he, by simp [hx]⟩
  · exact Or.inr (key _ (h4 hr))

/-- For the elements the parser passes (stripped, not blank) joining the chunks by line breaks gives
back the joined elements exactly: the `text` of the document. -/
theorem C64_join (chunkSize : Int) (raw : List Text) :
    ['\n'].intercalate ((doclingChunks chunkSize (doclingTexts raw)).map fun c => c.text) =
      ['\n'].intercalate (doclingTexts raw) := by
  have htight : ∀ e ∈ doclingTexts raw, Tight e ∧ e ≠ [] := by
    intro e he
    unfold doclingTexts at he
    obtain ⟨t, -, ht⟩ := List.mem_filterMap.1 he
    split_ifs at ht with hb
    obtain rfl := Option.some.inj ht
    exact ⟨strip_tight t, hb⟩
  obtain ⟨gs, rest, h1, h2, h3, h4, -⟩ := doclingChunks_groups chunkSize (doclingTexts raw)
  have key : ∀ l : List (List Text), (∀ g ∈ l, g ≠ []) → (∀ g ∈ l, ∀ e ∈ g, e ∈ doclingTexts raw) →
      (l.map fun g => strip (gather g)) = l.map fun g => ['\n'].intercalate g := by
    intro l hl hm
    refine List.map_congr_left fun g hg => ?_
    exact strip_gather g (hl g hg) fun e he => htight e (hm g hg e he)
  have hin : ∀ g ∈ gs, ∀ e ∈ g, e ∈ doclingTexts raw := by
    intro g hg e he
    rw [← h1]
    exact List.mem_append_left _ (List.mem_flatten.2 ⟨g, hg, he⟩)
  by_cases hr : rest = []
  · subst hr
    rw [h3 rfl, key gs h2 hin, intercalate_groups _ _ h2]
    rw [List.append_nil] at h1
    rw [h1]
  · have hin2 : ∀ e ∈ rest, e ∈ doclingTexts raw := by
      intro e he; rw [← h1]; exact List.mem_append_right _ he
    have hne : strip (gather rest) ≠ [] := by
      rw [strip_gather rest hr fun e he => htight e (hin2 e he)]
      exact (intercalate_tight ['\n'] rest hr fun e he => htight e (hin2 e he)).2
    have h2' : ∀ g ∈ gs ++ [rest], g ≠ [] := by
      intro g hg
      rcases List.mem_append.1 hg with hg | hg
      · exact h2 g hg
      · obtain rfl := List.mem_singleton.1 hg; exact hr
    rw [h4 hne, key _ h2' (by
      intro g hg
      rcases List.mem_append.1 hg with hg | hg
      · exact hin g hg
      · obtain rfl := List.mem_singleton.1 hg; exact hin2), intercalate_groups _ _ h2']
    simp only [List.flatten_append, List.flatten_cons, List.flatten_nil, List.append_nil, h1]

def exPcElems : List Text := ["  Title ".toList, "first line".toList, " ".toList, "second".toList, "end".toList]

example : (doclingChunks 12 (doclingTexts exPcElems)).map (fun c => String.ofList c.text) =
    ["Title\nfirst line", "second\nend"] := by decide +kernel

/-! ## C65 -/

/-- The page of every chunk is the number of a page that has text, and pages never go back. -/
theorem C65_pages (size overlap : Int) (extracted : List (Option Text)) (fuel : Nat)
    (cs : List Chunk)
    (h : pdfChunks size overlap (pdfText (pdfPages extracted)) (pdfTable (pdfPages extracted)) fuel =
      some cs) :
    (∀ c ∈ cs, ∃ (i : Nat) (t : Text), c.page = some ((i : Int) + 1) ∧
      extracted[i]? = some (some t) ∧ ∃ x ∈ t, isSpace x = false) ∧
    cs.Pairwise fun c d => ∃ p q : Int, c.page = some p ∧ d.page = some q ∧ p ≤ q := by
  obtain ⟨h1, h2⟩ := spanLoop_page _ _ _ _ _ _ _ _ h
  constructor
  · intro c hc
    have hne : pdfPages extracted ≠ [] := by
      intro h0
      rw [h0] at h
      have : pdfChunks size overlap (pdfText []) (pdfTable []) fuel = some [] := by
        unfold pdfChunks spanLoop
        rw [if_pos (by simp [pdfText, List.intercalate])]
      rw [this] at h
      obtain rfl := Option.some.inj h
      simp at hc
    have hm := pageFor_mem (pdfTable (pdfPages extracted)) (by simpa [pdfTable] using hne)
      c.startPos.toNat
    unfold pdfTable at hm
    rw [List.map_map, List.mem_map] at hm
    obtain ⟨⟨n, t⟩, hp, he⟩ := hm
    obtain ⟨i, g1, g2, rfl⟩ := (pdfPages_mem extracted n t).1 hp
    refine ⟨i, t, ?_, g1, ?_⟩
    · rw [(h2 c hc).2]
      exact congrArg some he.symm
    · by_contra hall
      push Not at hall
      apply g2
      obtain ⟨a, b, hab, -, -, hh, -⟩ := strip_isTrim t
      cases hs : strip t with
      | nil => rfl
      | cons x s =>
        have hx := hall x (by rw [hab, hs]; simp)
        exact absurd (hh x (by rw [hs]; rfl)) hx
  · refine List.Pairwise.imp_of_mem ?_ h1
    intro c d hc hd hlt
    exact ⟨_, _, (h2 c hc).2, (h2 d hd).2, pageFor_mono _ (pdfPages_sorted extracted) _ _ (by omega)⟩

def exPcPages : List (Option Text) := [some "a".toList, none, some " ".toList, some "b".toList, some "c".toList]

example : (pdfChunks 3 0 (pdfText (pdfPages exPcPages)) (pdfTable (pdfPages exPcPages)) 7).map
    (·.map fun c => (String.ofList c.text, c.page)) =
    some [("a", some 1), ("b", some 5), ("c", some 5)] := by decide +kernel

/-! ## C93 -/

/-- Where a page stands in the joined text. -/
theorem C93_offset (pre : List (Int × Text)) (num : Int) (t : Text) (post : List (Int × Text)) :
    ((pdfText (pre ++ (num, t) :: post)).drop ((pre.map fun p => p.2.length + 2).sum)).take t.length =
      t := pdfText_at pre num t post

/-- The page reported for a position inside page `num` is never an earlier page, and on the first
page it is right. -/
theorem C93_page_partial (extracted : List (Option Text)) (pre : List (Int × Text)) (num : Int)
    (t : Text) (post : List (Int × Text)) (hp : pdfPages extracted = pre ++ (num, t) :: post)
    (pos : Nat) (h1 : (pre.map fun p => p.2.length + 2).sum ≤ pos)
    (h2 : pos < (pre.map fun p => p.2.length + 2).sum + t.length) :
    num ≤ pageFor (pdfTable (pdfPages extracted)) pos ∧
    (pre = [] → pageFor (pdfTable (pdfPages extracted)) pos = num) := by
  have hs := pdfPages_sorted extracted
  rw [hp] at hs ⊢
  refine ⟨pageFor_ge pre num t post hs pos h1, ?_⟩
  rintro rfl
  simp only [List.map_nil, List.sum_nil, Nat.zero_add] at h2
  simp [pageFor, pdfTable, pageScan, h2]

/-- The separators are not counted, so the end of every page but the first and the last is
attributed to a later page. -/
theorem C93_page_refuted (extracted : List (Option Text)) (pre : List (Int × Text)) (num : Int)
    (t : Text) (post : List (Int × Text)) (hp : pdfPages extracted = pre ++ (num, t) :: post)
    (hpre : pre ≠ []) (hpost : post ≠ []) (pos : Nat)
    (h : (pre.map fun p => p.2.length + 2).sum + t.length = pos + 1) :
    num < pageFor (pdfTable (pdfPages extracted)) pos := by
  have hs := pdfPages_sorted extracted
  rw [hp] at hs ⊢
  refine pageFor_gt pre num t post hpost hs pos ?_
  have e : ((pdfTable (pre ++ [(num, t)])).map Prod.snd).sum =
      (pre.map fun p => p.2.length).sum + t.length := by
    simp [pdfTable, Function.comp_def]
  have e2 : (pre.map fun p => p.2.length + 2).sum = (pre.map fun p => p.2.length).sum + 2 * pre.length := by
    clear hs hp h hpre e
    induction pre with
    | nil => rfl
    | cons p pre ih => simp only [List.map_cons, List.sum_cons, List.length_cons, ih]; omega
  have := List.length_pos_iff.2 hpre
  omega

example : pdfPages exPcPages = [(1, "a".toList)] ++ (4, "b".toList) :: [(5, "c".toList)] := by
  decide +kernel

/-! ## C94 -/

/-- The chunk's last element is named correctly: the ends are the running totals of the groups' sizes,
less one. -/
theorem C94_elements_partial (chunkSize : Int) (elements : List Text) :
    ∃ (gs : List (List Text)) (rest : List Text), gs.flatten ++ rest = elements ∧
      (∀ g ∈ gs, g ≠ []) ∧
      ∀ (k : Nat) (c : DocChunk), (doclingChunks chunkSize elements)[k]? = some c →
        ∃ g, (gs ++ [rest])[k]? = some g ∧ IsTrim isSpace (g.map (· ++ ['\n'])).flatten c.text ∧
          c.endElement + 1 = (((gs ++ [rest]).take (k + 1)).flatten.length : Nat) := by
  obtain ⟨gs, rest, h1, h2, h3, h4⟩ := doclingChunks_ends chunkSize elements
  have key : ∀ (l : List (List Text)) (cs : List DocChunk) (base : Nat),
      cs.map (fun c => (c.text, c.endElement)) =
        (l.map fun g => strip (gather g)).zip (groupEnds base l) →
      ∀ (k : Nat) (c : DocChunk), cs[k]? = some c →
        ∃ g, l[k]? = some g ∧ IsTrim isSpace (g.map (· ++ ['\n'])).flatten c.text ∧
          c.endElement + 1 = ((base + (l.take (k + 1)).flatten.length : Nat) : Int) := by
    intro l
    induction l with
    | nil =>
      intro cs base h k c hk
      simp at h
      subst h
      simp at hk
    | cons g l ih =>
      intro cs base h k c hk
      cases cs with
      | nil => simp at hk
      | cons c0 cs =>
        simp only [List.map_cons, groupEnds, List.zip_cons_cons, List.cons.injEq, Prod.mk.injEq] at h
        obtain ⟨⟨e1, e2⟩, e3⟩ := h
        cases k with
        | zero =>
          obtain rfl := Option.some.inj hk
          refine ⟨g, rfl, by rw [e1]; exact strip_isTrim _, ?_⟩
          rw [e2]
          simp
        | succ k =>
          obtain ⟨g', a1, a2, a3⟩ := ih cs (base + g.length) e3 k c hk
          refine ⟨g', a1, a2, ?_⟩
          rw [a3]
          simp only [List.take_succ_cons, List.flatten_cons, List.length_append]
          push_cast
          omega
  refine ⟨gs, rest, h1, h2, ?_⟩
  intro k c hk
  by_cases hr : strip (gather rest) = []
  · obtain ⟨g, a1, a2, a3⟩ := key gs _ 0 (h3 hr) k c hk
    have hkl : k < gs.length := (List.getElem?_eq_some_iff.1 a1).1
    refine ⟨g, by rw [List.getElem?_append_left hkl]; exact a1, a2, ?_⟩
    rw [a3, List.take_append_of_le_length (by omega)]
    simp
  · obtain ⟨g, a1, a2, a3⟩ := key (gs ++ [rest]) _ 0 (h4 hr) k c hk
    exact ⟨g, a1, a2, by rw [a3]; simp⟩

/-- `start_element` is the chunk number times the chunk size, which is no element number: here the
second chunk consists of elements 2 and 3 of 4, and names element 12 as its first. -/
theorem C94_elements_refuted :
    (doclingTexts exPcElems).length = 4 ∧
    (doclingChunks 12 (doclingTexts exPcElems)).map
      (fun c => (String.ofList c.text, c.startElement, c.endElement)) =
      [("Title\nfirst line", 0, 1), ("second\nend", 12, 3)] := by decide +kernel

end Valori.Props
