import Verif.Model.Chunking
import Verif.Spec.Chunking

/-!
# Lemmas about text and chunking
-/

namespace Valori
open Spec

/-! ## strip -/

theorem dropWhile_split {α : Type} (p : α → Bool) (l : List α) :
    ∃ a, l = a ++ l.dropWhile p ∧ (∀ c ∈ a, p c = true) ∧
      ∀ c, (l.dropWhile p).head? = some c → p c = false := by
  refine ⟨l.takeWhile p, (List.takeWhile_append_dropWhile).symm, ?_, ?_⟩
  · intro c hc
    induction l with
    | nil => simp at hc
    | cons x l ih =>
      by_cases h : p x = true
      · rw [List.takeWhile_cons_of_pos h] at hc
        rcases List.mem_cons.1 hc with rfl | hc
        · exact h
        · exact ih hc
      · rw [List.takeWhile_cons_of_neg h] at hc
        simp at hc
  · intro c hc
    induction l with
    | nil => simp at hc
    | cons x l ih =>
      by_cases h : p x = true
      · rw [List.dropWhile_cons_of_pos h] at hc; exact ih hc
      · rw [List.dropWhile_cons_of_neg h] at hc
        simp only [List.head?_cons, Option.some.injEq] at hc
        subst hc; simpa using h

theorem strip_isTrim (t : Text) : IsTrim isSpace t (strip t) := by
  obtain ⟨a, h1, h2, h3⟩ := dropWhile_split isSpace t
  obtain ⟨b, g1, g2, g3⟩ := dropWhile_split isSpace (t.dropWhile isSpace).reverse
  have e : t.dropWhile isSpace = strip t ++ b.reverse := by
    have := congrArg List.reverse g1
    rw [List.reverse_reverse, List.reverse_append] at this
    exact this
  refine ⟨a, b.reverse, ?_, h2, ?_, ?_, ?_⟩
  · rw [List.append_assoc, ← e]; exact h1
  · intro c hc; exact g2 c (List.mem_reverse.1 hc)
  · intro c hc
    apply h3
    rw [e]
    cases hs : strip t with
    | nil => rw [hs] at hc; simp at hc
    | cons x l => rw [hs] at hc; simpa using hc
  · intro c hc
    apply g3
    unfold strip at hc
    rw [List.getLast?_reverse] at hc
    exact hc

/-- Trimmed text is unique, apart from blank text. -/
theorem isTrim_nil {ws : Char → Bool} {t : Text} : IsTrim ws t [] → ∀ c ∈ t, ws c = true := by
  rintro ⟨a, b, rfl, h1, h2, -⟩ c hc
  simp only [List.append_nil, List.mem_append] at hc
  rcases hc with h | h
  · exact h1 c h
  · exact h2 c h

theorem strip_eq_nil {t : Text} (h : strip t = []) : ∀ c ∈ t, isSpace c = true :=
  isTrim_nil (h ▸ strip_isTrim t)

/-! ## Slices and searches -/

theorem clip_nat (n e : Nat) : clip n (e : Int) = min e n := by
  unfold clip; rw [if_neg (by omega)]; simp

theorem sub_nat (t : Text) (s e : Nat) (he : e ≤ t.length) :
    sub t s (e : Int) = (t.drop s).take (e - s) := by
  unfold sub
  rw [clip_nat, min_eq_left he, List.drop_take]

theorem rfindFrom_spec (t p : Text) (lo : Nat) (hi i : Nat) (h : rfindFrom t p lo hi = some i) :
    lo ≤ i ∧ i ≤ hi ∧ matchAt t p i = true := by
  induction hi with
  | zero =>
    unfold rfindFrom at h
    split_ifs at h with h1
    obtain rfl := Option.some.inj h
    simp only [Bool.and_eq_true, decide_eq_true_eq] at h1
    exact ⟨h1.1, le_rfl, h1.2⟩
  | succ n ih =>
    unfold rfindFrom at h
    split_ifs at h with h1 h2
    · obtain rfl := Option.some.inj h
      exact ⟨by omega, le_rfl, h2⟩
    · obtain ⟨a, b, c⟩ := ih h
      exact ⟨a, by omega, c⟩

theorem rfindInt_le (t p : Text) (s e : Nat) (he : e ≤ t.length) :
    rfindInt t p s (e : Int) + p.length ≤ e ∨ rfindInt t p s (e : Int) = -1 := by
  unfold rfindInt rfind
  rw [clip_nat, min_eq_left he]
  simp only
  split_ifs with h
  · exact Or.inr rfl
  · cases hr : rfindFrom t p s (e - p.length) with
    | none => exact Or.inr rfl
    | some i =>
      left
      obtain ⟨h1, h2, -⟩ := rfindFrom_spec t p s _ i hr
      simp only
      omega

/-! ## The loop -/

theorem spanLoop_terminates (text : Text) (cut : Nat → Int) (overlap : Int)
    (page : Nat → Option Int) (fuel start id : Nat) (h : text.length - start ≤ fuel) :
    (spanLoop text cut overlap page fuel start id).isSome := by
  induction fuel generalizing start id with
  | zero =>
    unfold spanLoop
    rw [if_pos (by omega)]; rfl
  | succ n ih =>
    unfold spanLoop
    by_cases hs : text.length ≤ start
    · rw [if_pos hs]; rfl
    rw [if_neg hs]
    simp only
    have hnext : start + 1 ≤ (max (cut start - overlap) ((start : Int) + 1)).toNat := by omega
    split_ifs with ht
    · exact ih _ _ (by omega)
    · have := ih (max (cut start - overlap) ((start : Int) + 1)).toNat (id + 1) (by omega)
      obtain ⟨cs, hcs⟩ := Option.isSome_iff_exists.1 this
      rw [hcs]; rfl

theorem spanLoop_fuel (text : Text) (cut : Nat → Int) (overlap : Int)
    (page : Nat → Option Int) (fuel start id : Nat) (cs : List Chunk)
    (h : spanLoop text cut overlap page fuel start id = some cs) (more : Nat) (hm : fuel ≤ more) :
    spanLoop text cut overlap page more start id = some cs := by
  induction fuel generalizing start id cs more with
  | zero =>
    unfold spanLoop at h ⊢
    split_ifs at h with hs
    · rw [if_pos hs]; exact h
  | succ n ih =>
    obtain ⟨m, rfl⟩ : ∃ m, more = m + 1 := ⟨more - 1, by omega⟩
    unfold spanLoop at h ⊢
    by_cases hs : text.length ≤ start
    · rw [if_pos hs] at h ⊢; exact h
    rw [if_neg hs] at h ⊢
    simp only at h ⊢
    split_ifs at h ⊢ with ht
    · exact ih _ _ _ h _ (by omega)
    · split at h
      · simp at h
      · rename_i cs' hcs
        rw [ih _ _ _ hcs m (by omega)]
        exact h

/-- The chunk as a user sees it. -/
def Chunk.piece (c : Chunk) : Piece := ⟨c.id, c.startPos, c.endPos, c.text⟩

/-- What the loop needs of `cut`. -/
def GoodCut (n : Nat) (size : Int) (cut : Nat → Int) : Prop :=
  ∀ s, s < n → (s : Int) < cut s ∧ cut s ≤ n ∧ cut s ≤ s + size

theorem spanLoop_spec (text : Text) (size : Int) (cut : Nat → Int)
    (hcut : GoodCut text.length size cut) (overlap : Int) (ho : 0 ≤ overlap)
    (page : Nat → Option Int) (fuel start id : Nat) (cs : List Chunk)
    (h : spanLoop text cut overlap page fuel start id = some cs) :
    cs.map (fun c => c.id) = (List.range cs.length).map (id + ·) ∧
    cs.Pairwise (fun p q => p.startPos < q.startPos) ∧
    (∀ c ∈ cs, (start : Int) ≤ c.startPos ∧ Located isSpace text c.piece ∧
      c.endPos - c.startPos ≤ size ∧ c.endPos = cut c.startPos.toNat ∧
      c.page = page c.startPos.toNat) ∧
    (∀ (i : Nat) ch, start ≤ i → text[i]? = some ch → isSpace ch = false →
      ∃ c ∈ cs, c.startPos ≤ i ∧ (i : Int) < c.endPos) := by
  induction fuel generalizing start id cs with
  | zero =>
    unfold spanLoop at h
    split_ifs at h with hs
    · obtain rfl := Option.some.inj h
      refine ⟨rfl, List.Pairwise.nil, by simp, ?_⟩
      intro i ch h1 h2
      have := (List.getElem?_eq_some_iff.1 h2).1
      omega
  | succ n ih =>
    unfold spanLoop at h
    by_cases hs : text.length ≤ start
    · rw [if_pos hs] at h
      obtain rfl := Option.some.inj h
      refine ⟨rfl, List.Pairwise.nil, by simp, ?_⟩
      intro i ch h1 h2
      have := (List.getElem?_eq_some_iff.1 h2).1
      omega
    rw [if_neg hs] at h
    simp only at h
    obtain ⟨c1, c2, c3⟩ := hcut start (by omega)
    obtain ⟨e, he⟩ : ∃ e : Nat, cut start = e := ⟨(cut start).toNat, by omega⟩
    set next := (max (cut start - overlap) ((start : Int) + 1)).toNat with hnext
    have hn1 : start < next := by omega
    have hn2 : next ≤ e := by omega
    have hsub : sub text start (cut start) = (text.drop start).take (e - start) := by
      rw [he]; exact sub_nat _ _ _ (by omega)
    split_ifs at h with ht
    · obtain ⟨g1, g2, g3, g4⟩ := ih next id cs h
      refine ⟨g1, g2, fun c hc => ⟨le_trans (by omega) (g3 c hc).1, (g3 c hc).2⟩, ?_⟩
      intro i ch h1 h2 h3
      by_cases hi : i < next
      · exfalso
        have hall := strip_eq_nil ht
        rw [hsub] at hall
        have hmem : ch ∈ (text.drop start).take (e - start) := by
          rw [List.mem_iff_getElem?]
          refine ⟨i - start, ?_⟩
          rw [List.getElem?_take_of_lt (by omega), List.getElem?_drop,
            show start + (i - start) = i by omega, h2]
        rw [hall ch hmem] at h3
        simp at h3
      · exact g4 i ch (by omega) h2 h3
    · split at h
      · simp at h
      rename_i cs' hcs
      obtain rfl := Option.some.inj h
      obtain ⟨g1, g2, g3, g4⟩ := ih next (id + 1) cs' hcs
      refine ⟨?_, ?_, ?_, ?_⟩
      · simp only [List.map_cons, List.length_cons, List.range_succ_eq_map, List.map_map, g1]
        simp only [Nat.add_zero, List.cons.injEq, true_and]
        apply List.map_congr_left
        intro a _
        simp only [Function.comp]
        omega
      · refine List.Pairwise.cons ?_ g2
        intro c hc
        have := (g3 c hc).1
        simp only
        omega
      · intro c hc
        rcases List.mem_cons.1 hc with rfl | hc
        · refine ⟨le_rfl, ⟨start, e, rfl, he, by omega, by omega, ?_, ht⟩, ?_, by simp, by simp⟩
          · rw [← hsub]; exact strip_isTrim _
          · simp only; omega
        · exact ⟨le_trans (by omega) (g3 c hc).1, (g3 c hc).2⟩
      · intro i ch h1 h2 h3
        by_cases hi : i < next
        · exact ⟨_, List.mem_cons_self, by simp only; omega, by simp only; omega⟩
        · obtain ⟨c, hc, h4⟩ := g4 i ch (by omega) h2 h3
          exact ⟨c, List.mem_cons_of_mem _ hc, h4⟩

theorem spanLoop_cuts (text : Text) (size : Int) (cut : Nat → Int)
    (hcut : GoodCut text.length size cut) (overlap : Int) (ho : 0 ≤ overlap)
    (page : Nat → Option Int) (fuel : Nat) (cs : List Chunk)
    (h : spanLoop text cut overlap page fuel 0 0 = some cs) :
    Cuts isSpace text size (cs.map Chunk.piece) := by
  obtain ⟨h1, h2, h3, h4⟩ := spanLoop_spec text size cut hcut overlap ho page fuel 0 0 cs h
  refine ⟨?_, ?_, ?_, ?_, ?_⟩
  · rw [List.map_map, List.length_map]
    simpa [Function.comp_def, Chunk.piece] using h1
  · rw [List.pairwise_map]; exact h2
  · intro p hp
    obtain ⟨c, hc, rfl⟩ := List.mem_map.1 hp
    exact (h3 c hc).2.1
  · intro p hp
    obtain ⟨c, hc, rfl⟩ := List.mem_map.1 hp
    exact (h3 c hc).2.2.1
  · intro i ch hi hw
    obtain ⟨c, hc, h5⟩ := h4 i ch (by omega) hi hw
    exact ⟨_, List.mem_map_of_mem hc, h5⟩

/-! ## The cuts -/

theorem firstEnd_good (text : Text) (size : Int) (hs : 0 < size) :
    GoodCut text.length size (firstEnd text size) := by
  intro s h
  unfold firstEnd
  omega

theorem findBestBreak_le (text : Text) (minSize : Int) (hm : 0 ≤ minSize) (start e : Nat)
    (he : e ≤ text.length) (seps : List Text) :
    findBestBreak text minSize start (e : Int) seps ≤ e := by
  induction seps with
  | nil => exact le_rfl
  | cons sep seps ih =>
    unfold findBestBreak
    split_ifs with h
    · rcases rfindInt_le text sep start e he with h1 | h1 <;> omega
    · exact ih

theorem fixedCut_good (c : ChunkCfg) (text : Text) (hc : 0 < c.chunkSize) (hm : 0 ≤ c.minChunkSize) :
    GoodCut text.length c.chunkSize (fixedCut c text) := by
  intro s h
  obtain ⟨h1, h2, h3⟩ := firstEnd_good text c.chunkSize hc s h
  obtain ⟨e, he⟩ : ∃ e : Nat, firstEnd text c.chunkSize s = e := ⟨_, (Int.toNat_of_nonneg (by omega)).symm⟩
  unfold fixedCut
  simp only [he] at h1 h2 h3 ⊢
  split_ifs with g1 g2
  · have := findBestBreak_le text c.minChunkSize hm s e (by omega) c.separators
    omega
  · omega
  · omega

theorem textCut_good (size : Int) (text : Text) (hc : 0 < size) :
    GoodCut text.length size (textCut size text) := by
  intro s h
  obtain ⟨h1, h2, h3⟩ := firstEnd_good text size hc s h
  obtain ⟨e, he⟩ : ∃ e : Nat, firstEnd text size s = e := ⟨_, (Int.toNat_of_nonneg (by omega)).symm⟩
  unfold textCut
  simp only [he] at h1 h2 h3 ⊢
  split_ifs with g1 g2
  · have a := rfindInt_le text ['.'] s e (by omega)
    have b := rfindInt_le text ['\n'] s e (by omega)
    simp only [List.length_cons, List.length_nil] at a b
    omega
  · omega
  · omega

theorem pdfCut_good (size : Int) (text : Text) (hc : 0 < size) :
    GoodCut text.length size (pdfCut size text) := by
  intro s h
  obtain ⟨h1, h2, h3⟩ := firstEnd_good text size hc s h
  obtain ⟨e, he⟩ : ∃ e : Nat, firstEnd text size s = e := ⟨_, (Int.toNat_of_nonneg (by omega)).symm⟩
  unfold pdfCut
  simp only [he] at h1 h2 h3 ⊢
  split_ifs with g1 g2
  · have a := rfindInt_le text nl2 s e (by omega)
    simp only [nl2, List.length_cons, List.length_nil] at a g2 ⊢
    omega
  · omega
  · omega

theorem officeCut_good (size : Int) (text : Text) (hc : 0 < size) :
    GoodCut text.length size (officeCut size text) := by
  intro s h
  obtain ⟨h1, h2, h3⟩ := firstEnd_good text size hc s h
  obtain ⟨e, he⟩ : ∃ e : Nat, firstEnd text size s = e := ⟨_, (Int.toNat_of_nonneg (by omega)).symm⟩
  unfold officeCut
  simp only [he] at h1 h2 h3 ⊢
  split_ifs with g1 g2
  · have a := rfindInt_le text ['\n'] s e (by omega)
    simp only [List.length_cons, List.length_nil] at a
    omega
  · omega
  · omega

end Valori
