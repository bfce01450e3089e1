import Verif.Model.Parse
import Verif.Lemmas.Semantic
import Mathlib.Data.List.Chain

/-!
# Splitting what was joined
-/

namespace Valori

/-- No two newlines in a row. -/
def Apart (x : Text) : Prop := x.IsChain fun a b => ¬(a = '\n' ∧ b = '\n')

theorem apart_iff (x : Text) : Apart x ↔ ¬ nl2 <:+: x := by
  induction x with
  | nil => simp [Apart, nl2]
  | cons a x ih =>
    cases x with
    | nil =>
      simp only [Apart, List.isChain_singleton, true_iff]
      intro h
      have := h.length_le
      simp [nl2] at this
    | cons b x =>
      rw [List.infix_cons_iff, not_or, ← ih]
      simp only [Apart, List.isChain_cons_cons, nl2, List.cons_prefix_cons, List.nil_prefix,
        and_true]
      constructor
      · rintro ⟨h1, h2⟩
        exact ⟨fun h => h1 ⟨h.1.symm, h.2.symm⟩, h2⟩
      · rintro ⟨h1, h2⟩
        exact ⟨fun h => h1 ⟨h.1.symm, h.2.symm⟩, h2⟩

/-- The last character is no newline, and there are no two in a row. -/
def Closed (x : Text) : Prop := Apart x ∧ x.getLast? ≠ some '\n'

theorem splitGo_char (acc x rest : Text) (hx : '\n' ∉ x) :
    splitGo ['\n'] 0 acc (x ++ '\n' :: rest) =
      (acc.reverse ++ x) :: splitGo ['\n'] 0 [] rest := by
  induction x generalizing acc with
  | nil => simp [splitGo]
  | cons c x ih =>
    have hc : c ≠ '\n' := fun h => hx (by simp [h])
    have : (['\n'] : Text).isPrefixOf (c :: (x ++ '\n' :: rest)) = false := by
      simp [List.isPrefixOf, Ne.symm hc]
    simp only [List.cons_append, splitGo, this, Bool.false_eq_true, if_false]
    rw [ih _ (fun h => hx (List.mem_cons_of_mem _ h))]
    simp

theorem splitGo_char_end (acc x : Text) (hx : '\n' ∉ x) :
    splitGo ['\n'] 0 acc x = [acc.reverse ++ x] := by
  induction x generalizing acc with
  | nil => simp [splitGo]
  | cons c x ih =>
    have hc : c ≠ '\n' := fun h => hx (by simp [h])
    have : (['\n'] : Text).isPrefixOf (c :: x) = false := by
      simp [List.isPrefixOf, Ne.symm hc]
    simp only [splitGo, this, Bool.false_eq_true, if_false]
    rw [ih _ (fun h => hx (List.mem_cons_of_mem _ h))]
    simp

/-- `"\n".join(ls).split("\n") == ls`. -/
theorem split_lines (ls : List Text) (hne : ls ≠ []) (h : ∀ x ∈ ls, '\n' ∉ x) :
    splitOnText ['\n'] (['\n'].intercalate ls) = ls := by
  unfold splitOnText
  induction ls with
  | nil => exact absurd rfl hne
  | cons x ls ih =>
    cases ls with
    | nil => simpa [List.intercalate] using splitGo_char_end [] x (h x (by simp))
    | cons y ls =>
      rw [intercalate_cons _ _ _ (by simp), List.append_assoc, List.singleton_append,
        splitGo_char _ _ _ (h x (by simp)), ih (by simp) (fun z hz => h z (by simp [hz]))]
      rfl

theorem splitGo_nl2_go (acc x rest : Text) (hx : Closed x) :
    splitGo nl2 0 acc (x ++ '\n' :: '\n' :: rest) =
      (acc.reverse ++ x) :: splitGo nl2 0 [] rest := by
  induction x generalizing acc with
  | nil => simp [splitGo, nl2, List.isPrefixOf]
  | cons c x ih =>
    have hp : nl2.isPrefixOf (c :: (x ++ '\n' :: '\n' :: rest)) = false := by
      by_contra h
      have h : nl2.isPrefixOf (c :: (x ++ '\n' :: '\n' :: rest)) = true := by simpa using h
      cases x with
      | nil =>
        simp [nl2, List.isPrefixOf] at h
        exact hx.2 (by simp [← h])
      | cons d x =>
        simp [nl2, List.isPrefixOf] at h
        have := hx.1
        simp only [Apart, List.isChain_cons_cons] at this
        exact this.1 ⟨h.1.symm, h.2.symm⟩
    have hx' : Closed x := by
      refine ⟨?_, ?_⟩
      · have := hx.1
        cases x with
        | nil => simp [Apart]
        | cons d x =>
          simp only [Apart, List.isChain_cons_cons] at this
          exact this.2
      · have := hx.2
        cases x with
        | nil => simp
        | cons d x => simpa [List.getLast?_cons_cons] using this
    simp only [List.cons_append, splitGo, hp, Bool.false_eq_true, if_false]
    rw [ih _ hx']
    simp

theorem splitGo_nl2_end (acc x : Text) (hx : Apart x) :
    splitGo nl2 0 acc x = [acc.reverse ++ x] := by
  induction x generalizing acc with
  | nil => simp [splitGo]
  | cons c x ih =>
    have hp : nl2.isPrefixOf (c :: x) = false := by
      by_contra h
      have h : nl2.isPrefixOf (c :: x) = true := by simpa using h
      cases x with
      | nil => simp [nl2, List.isPrefixOf] at h
      | cons d x =>
        simp [nl2, List.isPrefixOf] at h
        simp only [Apart, List.isChain_cons_cons] at hx
        exact hx.1 ⟨h.1.symm, h.2.symm⟩
    have hx' : Apart x := by
      cases x with
      | nil => simp [Apart]
      | cons d x =>
        simp only [Apart, List.isChain_cons_cons] at hx
        exact hx.2
    simp only [splitGo, hp, Bool.false_eq_true, if_false]
    rw [ih _ hx']
    simp

/-- `"\n\n".join(ls).split("\n\n") == ls`. -/
theorem split_blocks (ls : List Text) (hne : ls ≠ []) (h : ∀ x ∈ ls, Closed x) :
    splitOnText nl2 (nl2.intercalate ls) = ls := by
  unfold splitOnText
  induction ls with
  | nil => exact absurd rfl hne
  | cons x ls ih =>
    cases ls with
    | nil => simpa [List.intercalate] using splitGo_nl2_end [] x (h x (by simp)).1
    | cons y ls =>
      have e : x ++ nl2 ++ nl2.intercalate (y :: ls) =
          x ++ '\n' :: '\n' :: nl2.intercalate (y :: ls) := by simp [nl2]
      rw [intercalate_cons _ _ _ (by simp), e, splitGo_nl2_go _ _ _ (h x (by simp)),
        ih (by simp) (fun z hz => h z (by simp [hz]))]
      rfl

/-- Lines that are not empty, do not begin or end with a newline and have no two in a row make a
text of this kind. -/
theorem closed_lines (pre : Text) (hpre : Closed pre) (ls : List Text)
    (h : ∀ x ∈ ls, Closed x ∧ x ≠ [] ∧ x.head? ≠ some '\n') :
    Closed (pre ++ ['\n'].intercalate ls) ∧
      (ls ≠ [] → (['\n'].intercalate ls).head? ≠ some '\n' ∧ Closed (['\n'].intercalate ls)) := by
  have key : ls ≠ [] → (['\n'].intercalate ls).head? ≠ some '\n' ∧
      Closed (['\n'].intercalate ls) ∧ ['\n'].intercalate ls ≠ [] := by
    induction ls with
    | nil => exact fun h => absurd rfl h
    | cons x ls ih =>
      intro _
      obtain ⟨hx1, hx2, hx3⟩ := h x (by simp)
      cases ls with
      | nil => simpa [List.intercalate] using ⟨hx3, hx1, hx2⟩
      | cons y ls =>
        obtain ⟨i1, i2, i3⟩ := ih (fun z hz => h z (by simp [hz])) (by simp)
        rw [intercalate_cons _ _ _ (by simp)]
        obtain ⟨a, x', rfl⟩ := List.exists_cons_of_ne_nil hx2
        obtain ⟨b, r, hr⟩ := List.exists_cons_of_ne_nil i3
        rw [hr] at i1 i2 i3 ⊢
        refine ⟨by simpa using hx3, ⟨?_, ?_⟩, by simp⟩
        · unfold Apart
          rw [List.append_assoc, List.isChain_append]
          refine ⟨hx1.1, ?_, ?_⟩
          · rw [List.singleton_append, List.isChain_cons_cons]
            exact ⟨fun hh => i1 (by simp [hh.2]), i2.1⟩
          · intro p hp q _ hpq
            exact hx1.2 (by rw [← hpq.1]; exact hp)
        · rw [List.getLast?_append_of_ne_nil _ (by simp)]
          exact i2.2
  refine ⟨?_, fun hne => ⟨(key hne).1, (key hne).2.1⟩⟩
  by_cases hne : ls = []
  · subst hne
    simpa [List.intercalate] using hpre
  · obtain ⟨k1, k2, k3⟩ := key hne
    refine ⟨?_, ?_⟩
    · unfold Apart
      rw [List.isChain_append]
      refine ⟨hpre.1, k2.1, ?_⟩
      intro p hp q hq hpq
      rw [hpq.2] at hq
      exact k1 hq
    · rw [List.getLast?_append_of_ne_nil _ k3]
      exact k2.2

theorem closed_strip (t : Text) (h : ¬ nl2 <:+: t) (hne : strip t ≠ []) :
    Closed (strip t) ∧ strip t ≠ [] ∧ (strip t).head? ≠ some '\n' := by
  have ht := strip_tight t
  refine ⟨⟨(apart_iff _).2 fun hh => h (hh.trans (strip_infix t)), ?_⟩, hne, ?_⟩
  · intro hl
    exact absurd (ht.2 _ hl) (by decide)
  · intro hl
    exact absurd (ht.1 _ hl) (by decide)

end Valori
