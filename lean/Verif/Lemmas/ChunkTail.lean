import Verif.Lemmas.Chunking

/-!
# What the loop does after the end of the text is reached
-/

namespace Valori
open Spec

/-- After a chunk the loop goes on from its `next`. -/
theorem spanLoop_suffix (text : Text) (cut : Nat → Int) (overlap : Int) (page : Nat → Option Int)
    (fuel start id : Nat) (cs pre post : List Chunk) (c : Chunk)
    (h : spanLoop text cut overlap page fuel start id = some cs) (hc : cs = pre ++ c :: post) :
    ∃ f i, spanLoop text cut overlap page f
      (max (c.endPos - overlap) (c.startPos + 1)).toNat i = some post ∧ 0 ≤ c.startPos := by
  induction fuel generalizing start id cs pre with
  | zero =>
    unfold spanLoop at h
    split_ifs at h with hs
    obtain rfl := Option.some.inj h
    simp at hc
  | succ n ih =>
    unfold spanLoop at h
    by_cases hs : text.length ≤ start
    · rw [if_pos hs] at h
      obtain rfl := Option.some.inj h
      simp at hc
    rw [if_neg hs] at h
    simp only at h
    split_ifs at h with ht
    · exact ih _ _ cs pre h hc
    · split at h
      · simp at h
      rename_i cs' hcs
      obtain rfl := Option.some.inj h
      cases pre with
      | nil =>
        simp only [List.nil_append, List.cons.injEq] at hc
        obtain ⟨rfl, rfl⟩ := hc
        exact ⟨n, id + 1, hcs, by simp⟩
      | cons p pre =>
        simp only [List.cons_append, List.cons.injEq] at hc
        exact ih _ _ cs' pre hcs hc.2

theorem spanLoop_length (text : Text) (cut : Nat → Int) (overlap : Int) (page : Nat → Option Int)
    (fuel start id : Nat) (cs : List Chunk)
    (h : spanLoop text cut overlap page fuel start id = some cs) :
    cs.length ≤ text.length - start := by
  induction fuel generalizing start id cs with
  | zero =>
    unfold spanLoop at h
    split_ifs at h with hs
    obtain rfl := Option.some.inj h
    simp
  | succ n ih =>
    unfold spanLoop at h
    by_cases hs : text.length ≤ start
    · rw [if_pos hs] at h
      obtain rfl := Option.some.inj h
      simp
    rw [if_neg hs] at h
    simp only at h
    split_ifs at h with ht
    · have := ih _ _ _ h; omega
    · split at h
      · simp at h
      rename_i cs' hcs
      obtain rfl := Option.some.inj h
      have := ih _ _ _ hcs
      simp only [List.length_cons]
      omega

/-- Chunks after one that reached the end: at most `overlap`. -/
theorem spanLoop_tail (text : Text) (cut : Nat → Int) (overlap : Int) (page : Nat → Option Int)
    (fuel : Nat) (cs pre post : List Chunk) (c : Chunk)
    (h : spanLoop text cut overlap page fuel 0 0 = some cs) (hc : cs = pre ++ c :: post)
    (he : c.endPos = text.length) (ho : 0 ≤ overlap) : (post.length : Int) ≤ overlap := by
  obtain ⟨f, i, h1, h2⟩ := spanLoop_suffix text cut overlap page fuel 0 0 cs pre post c h hc
  have := spanLoop_length _ _ _ _ _ _ _ _ h1
  omega

theorem sub_getLast (text : Text) (ch : Char) (hl : text.getLast? = some ch)
    (hw : isSpace ch = false) (s : Nat) (hs : s < text.length) :
    strip (sub text s (text.length : Int)) ≠ [] := by
  intro h
  have hall := strip_eq_nil h
  rw [sub_nat _ _ _ le_rfl] at hall
  have hmem : ch ∈ (text.drop s).take (text.length - s) := by
    rw [List.take_of_length_le (by simp)]
    rw [List.mem_iff_getElem?]
    refine ⟨text.length - 1 - s, ?_⟩
    rw [List.getElem?_drop, show s + (text.length - 1 - s) = text.length - 1 by omega,
      ← List.getLast?_eq_getElem?]
    exact hl
  rw [hall ch hmem] at hw
  simp at hw

/-- The last character is always cut off on its own. -/
theorem spanLoop_last (text : Text) (size : Int) (cut : Nat → Int)
    (hcut : GoodCut text.length size cut) (overlap : Int) (ho : 1 ≤ overlap)
    (page : Nat → Option Int) (ch : Char) (hl : text.getLast? = some ch)
    (hw : isSpace ch = false) (fuel start id : Nat) (hst : start < text.length) (cs : List Chunk)
    (h : spanLoop text cut overlap page fuel start id = some cs) :
    ∃ d ∈ cs, d.startPos = (text.length : Int) - 1 ∧ d.endPos = text.length := by
  induction fuel generalizing start id cs with
  | zero =>
    unfold spanLoop at h
    rw [if_neg (by omega)] at h
    simp at h
  | succ n ih =>
    unfold spanLoop at h
    rw [if_neg (by omega)] at h
    simp only at h
    obtain ⟨c1, c2, c3⟩ := hcut start hst
    by_cases hlast : start = text.length - 1
    · have he : cut start = text.length := by omega
      rw [he] at h
      rw [if_neg (sub_getLast text ch hl hw start hst)] at h
      split at h
      · simp at h
      rename_i cs' hcs
      obtain rfl := Option.some.inj h
      exact ⟨_, List.mem_cons_self, by simp only; omega, rfl⟩
    · split_ifs at h with ht
      · exact ih _ _ (by omega) cs h
      · split at h
        · simp at h
        rename_i cs' hcs
        obtain rfl := Option.some.inj h
        obtain ⟨d, hd, h2⟩ := ih _ _ (by omega) cs' hcs
        exact ⟨d, List.mem_cons_of_mem _ hd, h2⟩

/-- Before that, another chunk reached the end. -/
theorem spanLoop_twice (text : Text) (size : Int) (cut : Nat → Int)
    (hcut : GoodCut text.length size cut)
    (hfull : ∀ s : Nat, (text.length : Int) ≤ s + size → cut s = text.length) (hsize : 2 ≤ size)
    (overlap : Int) (ho : 1 ≤ overlap)
    (page : Nat → Option Int) (ch : Char) (hl : text.getLast? = some ch)
    (hw : isSpace ch = false) (fuel start id : Nat) (hst : start + 1 < text.length)
    (cs : List Chunk) (h : spanLoop text cut overlap page fuel start id = some cs) :
    ∃ (pre : List Chunk) (c : Chunk) (post : List Chunk), cs = pre ++ c :: post ∧ c.endPos = text.length ∧ post ≠ [] := by
  induction fuel generalizing start id cs with
  | zero =>
    unfold spanLoop at h
    rw [if_neg (by omega)] at h
    simp at h
  | succ n ih =>
    unfold spanLoop at h
    rw [if_neg (by omega)] at h
    simp only at h
    obtain ⟨c1, c2, c3⟩ := hcut start (by omega)
    set next := (max (cut start - overlap) ((start : Int) + 1)).toNat with hnext
    by_cases hlast : next + 1 < text.length
    · split_ifs at h with ht
      · exact ih _ _ hlast cs h
      · split at h
        · simp at h
        rename_i cs' hcs
        obtain rfl := Option.some.inj h
        obtain ⟨pre, c, post, h1, h2⟩ := ih _ _ hlast cs' hcs
        exact ⟨_ :: pre, c, post, by rw [h1]; rfl, h2⟩
    · have he : cut start = text.length := by
        by_cases hs2 : start + 2 = text.length
        · exact hfull _ (by omega)
        · omega
      rw [he] at h
      rw [if_neg (sub_getLast text ch hl hw start (by omega))] at h
      split at h
      · simp at h
      rename_i cs' hcs
      obtain rfl := Option.some.inj h
      refine ⟨[], _, cs', rfl, rfl, ?_⟩
      obtain ⟨d, hd, -⟩ := spanLoop_last text size cut hcut overlap ho page ch hl hw n next (id + 1)
        (by omega) cs' hcs
      exact List.ne_nil_of_mem hd

end Valori
