import Verif.Props.ParserChunks
import Verif.Props.Chunking

/-!
# Property C151: where chunks end
-/

namespace Valori.Props

/-- `sep` stands in the text at `b`, inside the window from `lo` to `hi`. -/
def Occurs (text sep : Text) (lo hi b : Nat) : Prop :=
  lo ≤ b ∧ b + sep.length ≤ hi ∧ sep <+: text.drop b

/-- `stop` is right after the last separator in the window if this begins after `least`; else it
is the end of the window. -/
def EndsAt (text : Text) (seps : List Text) (lo hi : Nat) (least stop : Int) : Prop :=
  (∃ sep ∈ seps, ∃ b, Occurs text sep lo hi b ∧ least < (b : Int) ∧ stop = b + sep.length ∧
    ∀ sep' ∈ seps, ∀ b', Occurs text sep' lo hi b' → b' ≤ b) ∨
  (stop = hi ∧ ∀ sep ∈ seps, ∀ b, Occurs text sep lo hi b → (b : Int) ≤ least)

/-- `stop` is right after the last occurrence of the first separator of the list that occurs in the
window after `least`; if there is none it is the end of the window. -/
def EndsAtFirst (text : Text) (seps : List Text) (lo hi : Nat) (least stop : Int) : Prop :=
  (∃ pre sep post, seps = pre ++ sep :: post ∧
    (∀ s ∈ pre, ∀ b, Occurs text s lo hi b → (b : Int) ≤ least) ∧
    ∃ b, Occurs text sep lo hi b ∧ least < (b : Int) ∧ stop = b + sep.length ∧
      ∀ b', Occurs text sep lo hi b' → b' ≤ b) ∨
  (stop = hi ∧ ∀ sep ∈ seps, ∀ b, Occurs text sep lo hi b → (b : Int) ≤ least)

theorem rfindFrom_last (t p : Text) (lo : Nat) (hi : Nat) :
    (∀ i, rfindFrom t p lo hi = some i → ∀ j, i < j → j ≤ hi → matchAt t p j = false) ∧
    (rfindFrom t p lo hi = none → ∀ j, lo ≤ j → j ≤ hi → matchAt t p j = false) := by
  induction hi with
  | zero =>
    refine ⟨fun i _ j h1 h2 => by omega, fun h j h1 h2 => ?_⟩
    obtain rfl : j = 0 := by omega
    unfold rfindFrom at h
    split_ifs at h with hc
    simpa [h1] using hc
  | succ n ih =>
    refine ⟨fun i h j h1 h2 => ?_, fun h j h1 h2 => ?_⟩
    · unfold rfindFrom at h
      split_ifs at h with g1 g2
      · obtain rfl := Option.some.inj h
        omega
      · by_cases hj : j = n + 1
        · subst hj; simpa using g2
        · exact ih.1 i h j h1 (by omega)
    · unfold rfindFrom at h
      split_ifs at h with g1 g2
      · omega
      · by_cases hj : j = n + 1
        · subst hj; simpa using g2
        · exact ih.2 h j h1 (by omega)

theorem matchAt_iff (t p : Text) (i : Nat) : matchAt t p i = true ↔ p <+: t.drop i := by
  simp [matchAt, List.isPrefixOf_iff_prefix]

/-- `rfind` gives the last occurrence, or `-1` if there is none. -/
theorem rfindInt_spec (t p : Text) (lo hi : Nat) (hh : hi ≤ t.length) :
    (∃ b : Nat, rfindInt t p lo hi = (b : Int) ∧ Occurs t p lo hi b ∧
      ∀ b', Occurs t p lo hi b' → b' ≤ b) ∨
    (rfindInt t p lo hi = -1 ∧ ∀ b, ¬ Occurs t p lo hi b) := by
  unfold rfindInt rfind
  rw [clip_nat, min_eq_left hh]
  simp only
  split_ifs with h
  · exact .inr ⟨rfl, fun b hb => by have := hb.1; have := hb.2.1; omega⟩
  · obtain ⟨h1, h2⟩ := rfindFrom_last t p lo (hi - p.length)
    cases hr : rfindFrom t p lo (hi - p.length) with
    | none =>
      refine .inr ⟨rfl, fun b hb => ?_⟩
      have := h2 hr b hb.1 (by have := hb.2.1; omega)
      rw [(matchAt_iff t p b).2 hb.2.2] at this
      simp at this
    | some i =>
      obtain ⟨s1, s2, s3⟩ := rfindFrom_spec t p lo _ i hr
      refine .inl ⟨i, rfl, ⟨s1, by omega, (matchAt_iff t p i).1 s3⟩, fun b hb => ?_⟩
      by_contra hlt
      have := h1 i hr b (by omega) (by have := hb.2.1; omega)
      rw [(matchAt_iff t p b).2 hb.2.2] at this
      simp at this

/-- The window of a chunk that starts at `s`: its end, and that it ends inside the text. -/
theorem firstEnd_eq (text : Text) (size : Int) (hs : 0 < size) (s : Nat) (_ : s < text.length) :
    ∃ e : Nat, firstEnd text size s = e ∧ (e : Int) = min ((s : Int) + size) text.length ∧
      e ≤ text.length := by
  refine ⟨(firstEnd text size s).toNat, ?_, ?_, ?_⟩ <;> unfold firstEnd <;> omega

/-- How one separator is used. -/
theorem endsAt_single (text sep : Text) (s e : Nat) (he : e ≤ text.length) (least stop : Int)
    (hl : (s : Int) ≤ least)
    (h : stop = if rfindInt text sep s e > least then rfindInt text sep s e + sep.length else e) :
    EndsAt text [sep] s e least stop := by
  rcases rfindInt_spec text sep s e he with ⟨b, hb, ho, hmax⟩ | ⟨hb, hno⟩
  · rw [hb] at h
    by_cases hc : (b : Int) > least
    · rw [if_pos hc] at h
      exact .inl ⟨sep, by simp, b, ho, hc, h, by simpa using hmax⟩
    · rw [if_neg hc] at h
      refine .inr ⟨h, ?_⟩
      simp only [List.mem_singleton, forall_eq]
      intro b' hb'
      have := hmax b' hb'
      omega
  · rw [hb, if_neg (by omega)] at h
    refine .inr ⟨h, ?_⟩
    simp only [List.mem_singleton, forall_eq]
    exact fun b hb' => absurd hb' (hno b)

/-- **C151** A chunk of the text parser that does not reach the end of the text ends right after
the last full stop or newline in its window of `chunk_size` characters, if that stands in the second
half; else it ends with the window. -/
theorem C151_text (size overlap : Int) (hs : 0 < size) (ho : 0 ≤ overlap) (text : Text)
    (fuel : Nat) (cs : List Chunk) (h : textChunks size overlap text fuel = some cs) :
    ∀ c ∈ cs, ∃ s e : Nat, c.startPos = s ∧ (e : Int) = min ((s : Int) + size) text.length ∧
      (e = text.length → c.endPos = e) ∧
      (e < text.length → EndsAt text [['.'], ['\n']] s e (s + size / 2) c.endPos) := by
  intro c hc
  obtain ⟨-, -, h3, -⟩ := spanLoop_spec text size _ (textCut_good size text hs) _ ho _ fuel 0 0 cs h
  obtain ⟨-, ⟨s, e', hst, -, hlt, hle, -⟩, -, hcut, -⟩ := h3 c hc
  have hst : c.startPos = s := hst
  have hslen : s < text.length := by omega
  obtain ⟨e, he, hmin, hle'⟩ := firstEnd_eq text size hs s hslen
  rw [hst, Int.toNat_natCast] at hcut
  refine ⟨s, e, hst, hmin, fun hen => ?_, fun hlt' => ?_⟩
  · rw [hcut, textCut, he]
    simp only
    rw [if_neg (by omega)]
  · rw [textCut, he] at hcut
    simp only at hcut
    rw [if_pos (by omega)] at hcut
    have hl : (s : Int) ≤ s + size / 2 := by omega
    rcases rfindInt_spec text ['.'] s e hle' with ⟨b1, hb1, ho1, hm1⟩ | ⟨hb1, hn1⟩ <;>
    rcases rfindInt_spec text ['\n'] s e hle' with ⟨b2, hb2, ho2, hm2⟩ | ⟨hb2, hn2⟩ <;>
    rw [hb1, hb2] at hcut
    · by_cases hgt : max (b1 : Int) b2 > s + size / 2
      · rw [if_pos hgt] at hcut
        rcases le_total b1 b2 with hle | hle
        · refine .inl ⟨['\n'], by simp, b2, ho2, by omega, ?_, ?_⟩
          · simp only [List.length_singleton]; omega
          · intro sep' hsep b' hb'
            rcases List.mem_cons.1 hsep with rfl | hsep
            · have := hm1 b' hb'; omega
            · obtain rfl : sep' = ['\n'] := by simpa using hsep
              exact hm2 b' hb'
        · refine .inl ⟨['.'], by simp, b1, ho1, by omega, ?_, ?_⟩
          · simp only [List.length_singleton]; omega
          · intro sep' hsep b' hb'
            rcases List.mem_cons.1 hsep with rfl | hsep
            · exact hm1 b' hb'
            · obtain rfl : sep' = ['\n'] := by simpa using hsep
              have := hm2 b' hb'; omega
      · rw [if_neg hgt] at hcut
        refine .inr ⟨hcut, fun sep hsep b hb => ?_⟩
        rcases List.mem_cons.1 hsep with rfl | hsep
        · have := hm1 b hb; omega
        · obtain rfl : sep = ['\n'] := by simpa using hsep
          have := hm2 b hb; omega
    · have hcut' : c.endPos = if (b1 : Int) > s + size / 2 then (b1 : Int) + 1 else e := by
        rw [hcut]; congr 1 <;> simp <;> omega
      by_cases hgt : (b1 : Int) > s + size / 2
      · rw [if_pos hgt] at hcut'
        refine .inl ⟨['.'], by simp, b1, ho1, by omega, by simpa using hcut', ?_⟩
        intro sep' hsep b' hb'
        rcases List.mem_cons.1 hsep with rfl | hsep
        · exact hm1 b' hb'
        · obtain rfl : sep' = ['\n'] := by simpa using hsep
          exact absurd hb' (hn2 b')
      · rw [if_neg hgt] at hcut'
        refine .inr ⟨hcut', fun sep hsep b hb => ?_⟩
        rcases List.mem_cons.1 hsep with rfl | hsep
        · have := hm1 b hb; omega
        · obtain rfl : sep = ['\n'] := by simpa using hsep
          exact absurd hb (hn2 b)
    · have hcut' : c.endPos = if (b2 : Int) > s + size / 2 then (b2 : Int) + 1 else e := by
        rw [hcut]; congr 1 <;> simp <;> omega
      by_cases hgt : (b2 : Int) > s + size / 2
      · rw [if_pos hgt] at hcut'
        refine .inl ⟨['\n'], by simp, b2, ho2, by omega, by simpa using hcut', ?_⟩
        intro sep' hsep b' hb'
        rcases List.mem_cons.1 hsep with rfl | hsep
        · exact absurd hb' (hn1 b')
        · obtain rfl : sep' = ['\n'] := by simpa using hsep
          exact hm2 b' hb'
      · rw [if_neg hgt] at hcut'
        refine .inr ⟨hcut', fun sep hsep b hb => ?_⟩
        rcases List.mem_cons.1 hsep with rfl | hsep
        · exact absurd hb (hn1 b)
        · obtain rfl : sep = ['\n'] := by simpa using hsep
          have := hm2 b hb; omega
    · rw [if_neg (by simp; omega)] at hcut
      refine .inr ⟨hcut, fun sep hsep b hb => ?_⟩
      rcases List.mem_cons.1 hsep with rfl | hsep
      · exact absurd hb (hn1 b)
      · obtain rfl : sep = ['\n'] := by simpa using hsep
        exact absurd hb (hn2 b)

/-- **C151** PDF chunks end at a blank line in the second half of the window, office chunks at a
newline. -/
theorem C151_pdf_office (size overlap : Int) (hs : 0 < size) (ho : 0 ≤ overlap) (text : Text)
    (pages : List (Int × Nat)) (fuel : Nat) (cs : List Chunk) (sep : Text)
    (h : sep = ['\n', '\n'] ∧ pdfChunks size overlap text pages fuel = some cs ∨
      sep = ['\n'] ∧ officeChunks size overlap text fuel = some cs) :
    ∀ c ∈ cs, ∃ s e : Nat, c.startPos = s ∧ (e : Int) = min ((s : Int) + size) text.length ∧
      (e = text.length → c.endPos = e) ∧
      (e < text.length → EndsAt text [sep] s e (s + size / 2) c.endPos) := by
  intro c hc
  have key : ∃ s : Nat, c.startPos = s ∧ s < text.length ∧ ∀ e : Nat, firstEnd text size s = e →
      c.endPos = if (e : Int) < text.length then
        (if rfindInt text sep s e > s + size / 2 then rfindInt text sep s e + sep.length else e)
        else e := by
    rcases h with ⟨rfl, h⟩ | ⟨rfl, h⟩
    · obtain ⟨-, -, h3, -⟩ := spanLoop_spec text size _ (pdfCut_good size text hs) _ ho _ fuel 0 0 cs h
      obtain ⟨-, ⟨s, e', hst, -, hlt, hle, -⟩, -, hcut, -⟩ := h3 c hc
      have hst : c.startPos = s := hst
      rw [hst, Int.toNat_natCast] at hcut
      refine ⟨s, hst, by omega, fun e he => ?_⟩
      rw [hcut, pdfCut, he]
      rfl
    · obtain ⟨-, -, h3, -⟩ :=
        spanLoop_spec text size _ (officeCut_good size text hs) _ ho _ fuel 0 0 cs h
      obtain ⟨-, ⟨s, e', hst, -, hlt, hle, -⟩, -, hcut, -⟩ := h3 c hc
      have hst : c.startPos = s := hst
      rw [hst, Int.toNat_natCast] at hcut
      refine ⟨s, hst, by omega, fun e he => ?_⟩
      rw [hcut, officeCut, he]
      rfl
  obtain ⟨s, hst, hslen, hcut⟩ := key
  obtain ⟨e, he, hmin, hle'⟩ := firstEnd_eq text size hs s hslen
  have hcut := hcut e he
  refine ⟨s, e, hst, hmin, fun hen => ?_, fun hlt => ?_⟩
  · rwa [if_neg (by omega)] at hcut
  · rw [if_pos (by omega)] at hcut
    exact endsAt_single text sep s e hle' _ _ (by omega) hcut

theorem findBestBreak_spec (text : Text) (minSize : Int) (hm : 0 ≤ minSize) (s e : Nat)
    (he : e ≤ text.length) (seps : List Text) :
    EndsAtFirst text seps s e (s + minSize) (findBestBreak text minSize s e seps) := by
  induction seps with
  | nil => exact .inr ⟨rfl, by simp⟩
  | cons sep seps ih =>
    unfold findBestBreak
    rcases rfindInt_spec text sep s e he with ⟨b, hb, ho, hmax⟩ | ⟨hb, hno⟩
    · rw [hb]
      by_cases hgt : (b : Int) > s + minSize
      · rw [if_pos hgt]
        exact .inl ⟨[], sep, seps, rfl, by simp, b, ho, hgt, rfl, hmax⟩
      · rw [if_neg hgt]
        have hs : ∀ b', Occurs text sep s e b' → (b' : Int) ≤ s + minSize := fun b' hb' => by
          have := hmax b' hb'; omega
        rcases ih with ⟨pre, sep', post, rfl, h1, h2⟩ | ⟨h1, h2⟩
        · refine .inl ⟨sep :: pre, sep', post, rfl, ?_, h2⟩
          intro x hx
          rcases List.mem_cons.1 hx with rfl | hx
          · exact hs
          · exact h1 x hx
        · refine .inr ⟨h1, ?_⟩
          intro x hx
          rcases List.mem_cons.1 hx with rfl | hx
          · exact hs
          · exact h2 x hx
    · rw [hb, if_neg (by omega)]
      have hs : ∀ b', Occurs text sep s e b' → (b' : Int) ≤ s + minSize := fun b' hb' =>
        absurd hb' (hno b')
      rcases ih with ⟨pre, sep', post, rfl, h1, h2⟩ | ⟨h1, h2⟩
      · refine .inl ⟨sep :: pre, sep', post, rfl, ?_, h2⟩
        intro x hx
        rcases List.mem_cons.1 hx with rfl | hx
        · exact hs
        · exact h1 x hx
      · refine .inr ⟨h1, ?_⟩
        intro x hx
        rcases List.mem_cons.1 hx with rfl | hx
        · exact hs
        · exact h2 x hx

/-- **C151** A fixed-size chunk that does not reach the end of the text ends right after the last
occurrence, more than `min_chunk_size` characters into its window, of the first separator of the
list that occurs there; without any it ends with the window. -/
theorem C151_fixed (c : ChunkCfg) (text : Text) (hc : 0 < c.chunkSize) (ho : 0 ≤ c.chunkOverlap)
    (hm : 0 ≤ c.minChunkSize) (fuel : Nat) (cs : List Chunk) (h : fixedSize c text fuel = some cs) :
    ∀ ch ∈ cs, ∃ s e : Nat, ch.startPos = s ∧
      (e : Int) = min ((s : Int) + c.chunkSize) text.length ∧
      (e = text.length → ch.endPos = e) ∧
      (e < text.length → EndsAtFirst text c.separators s e (s + c.minChunkSize) ch.endPos) := by
  intro ch hch
  obtain ⟨-, -, h3, -⟩ :=
    spanLoop_spec text c.chunkSize _ (fixedCut_good c text hc hm) _ ho _ fuel 0 0 cs h
  obtain ⟨-, ⟨s, e', hst, -, hlt, hle, -⟩, -, hcut, -⟩ := h3 ch hch
  have hst : ch.startPos = s := hst
  rw [hst, Int.toNat_natCast] at hcut
  obtain ⟨e, he, hmin, hle'⟩ := firstEnd_eq text c.chunkSize hc s (by omega)
  refine ⟨s, e, hst, hmin, fun hen => ?_, fun hlt => ?_⟩
  · rw [hcut, fixedCut, he]
    simp only
    rw [if_neg (by omega)]
  · have hb := findBestBreak_spec text c.minChunkSize hm s e hle' c.separators
    rw [fixedCut, he] at hcut
    simp only at hcut
    rw [if_pos (by omega)] at hcut
    by_cases hgt : findBestBreak text c.minChunkSize s e c.separators > s + c.minChunkSize
    · rw [if_pos hgt] at hcut
      rwa [hcut]
    · rw [if_neg hgt] at hcut
      rcases hb with ⟨pre, sep, post, h1, h2, b, hb, hlt2, hst, -⟩ | ⟨h1, h2⟩
      · omega
      · exact .inr ⟨hcut, h2⟩

/-- A window with a full stop in its second half, and one with a full stop in its first half. -/
example : (textChunks 10 0 "abcdefg. ijklmnopqr.tuv".toList 30).map
      (fun cs => cs.map fun c => (c.startPos, c.endPos)) = some [(0, 8), (8, 18), (18, 23)] ∧
    (fixedSize ⟨"fixed_size", 10, 0, 2, 100, [['\n'], [' ']]⟩ "ab\ncdef ghi jklm".toList 30).map
      (fun cs => cs.map fun c => (c.startPos, c.endPos)) = some [(0, 8), (8, 16)] := by
  decide +kernel

end Valori.Props
