import Mathlib.Data.Prod.Lex
import Mathlib.Data.Nat.Find
import Mathlib.Data.List.Basic
import Mathlib.Data.List.Infix
import Verif.Spec.Fair

/-!
# Lemmas on executions without end
-/

namespace Valori
open Valori.Spec

theorem firstOf_succ (f : Nat → Nat) (n : Nat) : firstOf f (n + 1) = firstOf f n ++ [f n] := by
  simp [firstOf, List.range_succ]

theorem firstOf_add (f : Nat → Nat) (n m : Nat) : firstOf f (n + m) = firstOf f n ++ firstOf (fun i => f (n + i)) m := by
  simp [firstOf, List.range_add]

theorem Spec.Turns.shift {f : Nat → Nat} {t : Nat} (h : Turns f t) (n : Nat) : Turns (fun i => f (n + i)) t := by
  intro k
  obtain ⟨m, h1, h2⟩ := h (n + k)
  exact ⟨m - n, by omega, by show f (n + (m - n)) = t; rw [← h2]; congr 1; omega⟩

/-- The first turn of `t`. -/
theorem Spec.Turns.next {f : Nat → Nat} {t : Nat} (h : Turns f t) : ∃ m, f m = t ∧ ∀ i, i < m → f i ≠ t := by
  classical
  have h' : ∃ m, f m = t := by obtain ⟨m, -, hm⟩ := h 0; exact ⟨m, hm⟩
  exact ⟨Nat.find h', Nat.find_spec h', fun i hi => Nat.find_min h' hi⟩

/-- A place that every turn of `t` brings nearer to its end and others leave where it is comes to its end, when `t` gets
its turn again and again. -/
theorem fair_ends {σ P α : Type} [Preorder α] [WellFoundedLT α] (step : σ → Nat → σ) (t : Nat) (place : σ → P)
    (rank : P → α) (F E : P → Prop)
    (hown : ∀ s, F (place s) → ¬ E (place s) →
      E (place (step s t)) ∨ F (place (step s t)) ∧ rank (place (step s t)) < rank (place s))
    (hother : ∀ s u, u ≠ t → place (step s u) = place s) (s : σ) (hF : F (place s)) (f : Nat → Nat) (hf : Turns f t) :
    ∃ n, E (place ((firstOf f n).foldl step s)) := by
  obtain ⟨p, hp⟩ : ∃ p, place s = p := ⟨_, rfl⟩
  obtain ⟨a, ha⟩ : ∃ a, rank p = a := ⟨_, rfl⟩
  induction a using WellFoundedLT.induction generalizing s f p with
  | ind a ih =>
  by_cases hE : E (place s)
  · exact ⟨0, hE⟩
  obtain ⟨m, h1, h2⟩ := hf.next
  have hm : ∀ i, i ≤ m → place ((firstOf f i).foldl step s) = place s := by
    intro i hi
    induction i with
    | zero => rfl
    | succ i ihi =>
      rw [firstOf_succ, List.foldl_append, List.foldl_cons, List.foldl_nil, hother _ _ (h2 i hi), ihi (by omega)]
  have hm' := hm m le_rfl
  have hs : (firstOf f (m + 1)).foldl step s = step ((firstOf f m).foldl step s) t := by
    rw [firstOf_succ, List.foldl_append, List.foldl_cons, List.foldl_nil, h1]
  rcases hown _ (by rw [hm']; exact hF) (by rw [hm']; exact hE) with h | ⟨h3, h4⟩
  · exact ⟨m + 1, by rw [hs]; exact h⟩
  · rw [← hs] at h3 h4
    rw [hm', hp, ha] at h4
    obtain ⟨n, hn⟩ := ih _ h4 _ h3 _ (hf.shift (m + 1)) _ rfl rfl
    exact ⟨m + 1 + n, by rw [firstOf_add, List.foldl_append]; exact hn⟩

/-- In an execution in which `t` gets its turn again and again it has made `n` statements at some time. -/
theorem Spec.Turns.count {f : Nat → Nat} {t : Nat} (hf : Turns f t) (n : Nat) : ∃ m, n ≤ (firstOf f m).count t := by
  induction n with
  | zero => exact ⟨0, Nat.zero_le _⟩
  | succ n ih =>
    obtain ⟨m, hm⟩ := ih
    obtain ⟨m', h1, h2⟩ := hf m
    refine ⟨m' + 1, ?_⟩
    obtain ⟨k, rfl⟩ := Nat.exists_eq_add_of_le h1
    rw [firstOf_succ, firstOf_add, List.count_append, List.count_append, h2, List.count_singleton_self]
    omega

/-- Schedules each of which goes on in the next one make an execution without end. -/
theorem endless {P : Nat → List Nat → Prop} {t : Nat} (h0 : ∃ l, P 0 l)
    (h1 : ∀ n l, P n l → ∃ e, t ∈ e ∧ P (n + 1) (l ++ e)) :
    ∃ f, Turns f t ∧ ∀ n, ∃ m, n ≤ m ∧ P n (firstOf f m) := by
  classical
  let c : (n : Nat) → {l // P n l} := fun n => Nat.rec ⟨h0.choose, h0.choose_spec⟩
    (fun n l => ⟨l.1 ++ (h1 n l.1 l.2).choose, (h1 n l.1 l.2).choose_spec.2⟩) n
  have hc : ∀ n, ∃ e, t ∈ e ∧ (c (n + 1)).1 = (c n).1 ++ e := fun n =>
    ⟨(h1 n (c n).1 (c n).2).choose, (h1 n (c n).1 (c n).2).choose_spec.1, rfl⟩
  have hpre : ∀ n k, (c n).1 <+: (c (n + k)).1 := by
    intro n k
    induction k with
    | zero => exact List.prefix_rfl
    | succ k ih =>
      obtain ⟨e, -, he⟩ := hc (n + k)
      exact ih.trans (by rw [← Nat.add_assoc, he]; exact List.prefix_append ..)
  have hpre' : ∀ n m, n ≤ m → (c n).1 <+: (c m).1 := fun n m h => by
    obtain ⟨k, rfl⟩ := Nat.exists_eq_add_of_le h; exact hpre n k
  have hlen : ∀ n, n ≤ (c n).1.length := by
    intro n
    induction n with
    | zero => exact Nat.zero_le _
    | succ n ih =>
      obtain ⟨e, h2, he⟩ := hc n
      rw [he, List.length_append]
      have := List.length_pos_of_mem h2
      omega
  let f : Nat → Nat := fun i => ((c (i + 1)).1[i]?).getD t
  have hf : ∀ n i, i < (c n).1.length → (c n).1[i]? = some (f i) := by
    intro n i hi
    have h3 : i < (c (i + 1)).1.length := hlen (i + 1)
    have key : (c n).1[i]? = (c (i + 1)).1[i]? := by
      rcases le_total n (i + 1) with h | h
      · obtain ⟨e, he⟩ := hpre' _ _ h
        rw [← he, List.getElem?_append_left hi]
      · obtain ⟨e, he⟩ := hpre' _ _ h
        rw [← he, List.getElem?_append_left h3]
    show _ = some (((c (i + 1)).1[i]?).getD t)
    rw [key, List.getElem?_eq_getElem h3]; rfl
  have hall : ∀ n, firstOf f (c n).1.length = (c n).1 := by
    intro n
    refine List.ext_getElem? fun i => ?_
    simp only [firstOf, List.getElem?_map]
    by_cases hi : i < (c n).1.length
    · rw [hf n i hi, List.getElem?_range hi]; rfl
    · rw [List.getElem?_eq_none (by simpa using hi), List.getElem?_eq_none (by simpa using hi)]; rfl
  refine ⟨f, fun n => ?_, fun n => ⟨(c n).1.length, hlen n, by rw [hall]; exact (c n).2⟩⟩
  obtain ⟨e, h2, he⟩ := hc n
  obtain ⟨i, hi⟩ := List.mem_iff_getElem?.1 h2
  have hi' : i < e.length := (List.getElem?_eq_some_iff.1 hi).1
  refine ⟨(c n).1.length + i, by have := hlen n; omega, ?_⟩
  have := hf (n + 1) ((c n).1.length + i) (by rw [he, List.length_append]; omega)
  rw [he, List.getElem?_append_right (by omega)] at this
  simp only [Nat.add_sub_cancel_left, hi, Option.some.injEq] at this
  exact this.symm

end Valori
