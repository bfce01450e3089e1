import Verif.Spec.Debugging
import Verif.Lemmas.Dict
import Mathlib.Tactic.Ring
import Mathlib.Tactic.Linarith
import Mathlib.Tactic.FieldSimp
import Mathlib.Algebra.Order.BigOperators.Group.List

/-!
# Lemmas on the debugging tools
-/

namespace Valori
open Spec

variable {F σ : Type}

theorem Prof.get?_record (p : Prof F) (op x : String) (m : Meas F) :
    (p.record op m).get? x = if x = op then some ((p.get? op).getD [] ++ [m]) else p.get? x := by
  unfold Prof.record
  by_cases h : x = op
  · subst h; simp [Dict.get?_set_self]
  · rw [if_neg h, Dict.get?_set, if_neg]; exact h

theorem Body.run_plain [Sub F] (env : ProfEnv F) (b : Body σ) (s : PState F σ) :
    (b.run env s).1 = (plain b s.prog).1 ∧ (b.run env s).2.prog = (plain b s.prog).2 := by
  induction b generalizing s with
  | act f => simp [Body.run, plain]
  | seq a b iha ihb =>
    obtain ⟨h1, h2⟩ := iha s
    simp only [Body.run, plain]
    rcases ha : a.run env s with ⟨r, s'⟩
    rcases hp : plain a s.prog with ⟨r', q'⟩
    rw [ha, hp] at h1 h2
    simp only at h1 h2
    subst h1
    cases r with
    | error e => exact ⟨rfl, h2⟩
    | ok u =>
      simp only
      rw [← h2]; exact ihb s'
  | measure op b ih =>
    obtain ⟨h1, h2⟩ := ih { s with tick := s.tick + 1 }
    simp only [Body.run, plain]
    exact ⟨h1, h2⟩

theorem Body.tick_le [Sub F] (env : ProfEnv F) (b : Body σ) (s : PState F σ) :
    s.tick ≤ (b.run env s).2.tick := by
  induction b generalizing s with
  | act f => simp [Body.run]
  | seq a b iha ihb =>
    have h1 := iha s
    simp only [Body.run]
    rcases ha : a.run env s with ⟨r, s'⟩
    rw [ha] at h1
    cases r with
    | error e => exact h1
    | ok u => exact le_trans h1 (ihb s')
  | measure op b ih =>
    have h1 := ih { s with tick := s.tick + 1 }
    simp only [Body.run]
    simp only at h1
    omega

/-- The records of `op` grow by exactly one for every block of that name left. -/
theorem Body.run_records [Sub F] (env : ProfEnv F) (b : Body σ) (s : PState F σ) (op : String) :
    ∃ new, ((b.run env s).2.prof.get? op).getD [] = (s.prof.get? op).getD [] ++ new ∧
      new.length = (finished b s.prog).count op ∧
      (∀ m ∈ new, ∃ i j, s.tick ≤ i ∧ i < j ∧ j < (b.run env s).2.tick ∧
        m = ⟨env.clock j - env.clock i, env.memory j - env.memory i, env.clock j⟩) := by
  induction b generalizing s with
  | act f => exact ⟨[], by simp [Body.run], by simp [finished], by simp⟩
  | seq a b iha ihb =>
    obtain ⟨n1, h1, h2, h3⟩ := iha s
    obtain ⟨p1, p2⟩ := Body.run_plain env a s
    have ht := Body.tick_le env a s
    simp only [Body.run, finished]
    rcases ha : a.run env s with ⟨r, s'⟩
    rcases hp : plain a s.prog with ⟨r', q'⟩
    rw [ha] at h1 h3 p1 p2 ht
    rw [hp] at p1 p2
    simp only at h1 h3 p1 p2 ht
    subst p1
    cases r with
    | error e => exact ⟨n1, h1, h2, h3⟩
    | ok u =>
      obtain ⟨n2, k1, k2, k3⟩ := ihb s'
      have ht2 := Body.tick_le env b s'
      refine ⟨n1 ++ n2, ?_, ?_, ?_⟩
      · simp only; rw [k1, h1, List.append_assoc]
      · rw [List.length_append, List.count_append, h2, k2, p2]
      · intro m hm
        rcases List.mem_append.1 hm with hm | hm
        · obtain ⟨i, j, a1, a2, a3, a4⟩ := h3 m hm
          exact ⟨i, j, a1, a2, by simp only; omega, a4⟩
        · obtain ⟨i, j, a1, a2, a3, a4⟩ := k3 m hm
          exact ⟨i, j, by omega, a2, a3, a4⟩
  | measure o b ih =>
    obtain ⟨n1, h1, h2, h3⟩ := ih { s with tick := s.tick + 1 }
    have ht := Body.tick_le env b { s with tick := s.tick + 1 }
    simp only [Body.run, finished]
    rcases hb : b.run env { s with tick := s.tick + 1 } with ⟨r, s'⟩
    rw [hb] at h1 h3 ht
    simp only at h1 h3 ht ⊢
    rw [Prof.get?_record]
    by_cases ho : op = o
    · subst ho
      refine ⟨n1 ++ [⟨env.clock s'.tick - env.clock s.tick,
        env.memory s'.tick - env.memory s.tick, env.clock s'.tick⟩], ?_, ?_, ?_⟩
      · simp [h1]
      · simp [h2]
      · intro m hm
        rcases List.mem_append.1 hm with hm | hm
        · obtain ⟨i, j, a1, a2, a3, a4⟩ := h3 m hm
          exact ⟨i, j, by omega, a2, by omega, a4⟩
        · rw [List.mem_singleton] at hm
          exact ⟨s.tick, s'.tick, le_refl _, by omega, by omega, hm⟩
    · refine ⟨n1, ?_, ?_, ?_⟩
      · rw [if_neg ho]; exact h1
      · rw [List.count_append, h2]
        simp [Ne.symm ho]
      · intro m hm
        obtain ⟨i, j, a1, a2, a3, a4⟩ := h3 m hm
        exact ⟨i, j, by omega, a2, by omega, a4⟩

/-- No recorded name has an empty list of records. -/
def Prof.Nonempty (p : Prof F) : Prop := ∀ e ∈ p, e.2 ≠ []

theorem Dict.mem_set_cases {κ α : Type _} [DecidableEq κ] (d : Dict κ α) (k : κ) (a : α) {e : κ × α}
    (h : e ∈ d.set k a) : e ∈ d ∨ e = (k, a) := by
  induction d with
  | nil => simp [Dict.set] at h; exact Or.inr h
  | cons x d ih =>
    obtain ⟨k', b⟩ := x
    simp only [Dict.set] at h
    split_ifs at h with hk
    · subst hk
      rcases List.mem_cons.1 h with h | h
      · exact Or.inr h
      · exact Or.inl (List.mem_cons_of_mem _ h)
    · rcases List.mem_cons.1 h with h | h
      · exact Or.inl (h ▸ List.mem_cons_self ..)
      · rcases ih h with h | h
        · exact Or.inl (List.mem_cons_of_mem _ h)
        · exact Or.inr h

theorem Body.run_nonempty [Sub F] (env : ProfEnv F) (b : Body σ) (s : PState F σ)
    (h : s.prof.Nonempty) : (b.run env s).2.prof.Nonempty := by
  induction b generalizing s with
  | act f => exact h
  | seq a b iha ihb =>
    have h1 := iha s h
    simp only [Body.run]
    rcases ha : a.run env s with ⟨r, s'⟩
    rw [ha] at h1
    cases r with
    | error e => exact h1
    | ok u => exact ihb s' h1
  | measure o b ih =>
    have h1 := ih { s with tick := s.tick + 1 } h
    simp only [Body.run]
    intro e he
    rcases Dict.mem_set_cases _ _ _ he with he | he
    · exact h1 e he
    · subst he; simp

theorem Body.run_nodup [Sub F] (env : ProfEnv F) (b : Body σ) (s : PState F σ)
    (h : s.prof.keys.Nodup) : (b.run env s).2.prof.keys.Nodup := by
  induction b generalizing s with
  | act f => exact h
  | seq a b iha ihb =>
    have h1 := iha s h
    simp only [Body.run]
    rcases ha : a.run env s with ⟨r, s'⟩
    rw [ha] at h1
    cases r with
    | error e => exact h1
    | ok u => exact ihb s' h1
  | measure o b ih =>
    have h1 := ih { s with tick := s.tick + 1 } h
    simp only [Body.run]
    exact Dict.nodup_set h1 _ _

/-! ### Summaries -/

theorem foldl_min_spec {F : Type} [LinearOrder F] (l : List F) (x : F) :
    l.foldl min x ∈ x :: l ∧ ∀ y ∈ x :: l, l.foldl min x ≤ y := by
  induction l generalizing x with
  | nil => simp
  | cons z l ih =>
    obtain ⟨h1, h2⟩ := ih (min x z)
    rw [List.foldl_cons]
    have hm : List.foldl min (min x z) l ≤ min x z := h2 _ (List.mem_cons_self ..)
    refine ⟨?_, ?_⟩
    · rcases List.mem_cons.1 h1 with h | h
      · rw [h]
        rcases min_choice x z with h | h <;> rw [h] <;> simp
      · simp [h]
    · intro y hy
      rcases List.mem_cons.1 hy with rfl | hy
      · exact le_trans hm (min_le_left _ _)
      · rcases List.mem_cons.1 hy with rfl | hy
        · exact le_trans hm (min_le_right _ _)
        · exact h2 y (List.mem_cons_of_mem _ hy)

theorem foldl_max_spec {F : Type} [LinearOrder F] (l : List F) (x : F) :
    l.foldl max x ∈ x :: l ∧ ∀ y ∈ x :: l, y ≤ l.foldl max x := by
  induction l generalizing x with
  | nil => simp
  | cons z l ih =>
    obtain ⟨h1, h2⟩ := ih (max x z)
    rw [List.foldl_cons]
    have hm : max x z ≤ List.foldl max (max x z) l := h2 _ (List.mem_cons_self ..)
    refine ⟨?_, ?_⟩
    · rcases List.mem_cons.1 h1 with h | h
      · rw [h]
        rcases max_choice x z with h | h <;> rw [h] <;> simp
      · simp [h]
    · intro y hy
      rcases List.mem_cons.1 hy with rfl | hy
      · exact le_trans (le_max_left _ _) hm
      · rcases List.mem_cons.1 hy with rfl | hy
        · exact le_trans (le_max_right _ _) hm
        · exact h2 y (List.mem_cons_of_mem _ hy)

variable [Field F] [LinearOrder F] [IsStrictOrderedRing F]

theorem summarise_spec (l : List F) (h : l ≠ []) : ∃ s, summarise l = .ok s ∧ IsSummary l s := by
  cases l with
  | nil => exact absurd rfl h
  | cons x l =>
    refine ⟨_, rfl, ?_⟩
    have h1 := foldl_min_spec l x
    have h2 := foldl_max_spec l x
    refine ⟨h1.1, h1.2, h2.1, h2.2, rfl, ?_⟩
    have : ((x :: l).length : F) ≠ 0 := by
      rw [List.length_cons]; exact Nat.cast_ne_zero.2 (Nat.succ_ne_zero l.length)
    exact div_mul_cancel₀ _ this

/-- The mean lies between the least and the greatest value. -/
theorem Spec.IsSummary.avg_between {l : List F} {s : Summary F} (h : IsSummary l s) :
    s.least ≤ s.avg ∧ s.avg ≤ s.greatest := by
  have hpos : (0 : F) < (l.length : F) := by
    have : 0 < l.length := List.length_pos_of_mem h.least_mem
    exact_mod_cast this
  have h1 : l.length • s.least ≤ l.sum := List.card_nsmul_le_sum l s.least h.least_le
  have h2 : l.sum ≤ l.length • s.greatest := List.sum_le_card_nsmul l s.greatest h.le_greatest
  rw [nsmul_eq_mul] at h1 h2
  rw [← h.avg_eq] at h1 h2
  constructor
  · rw [mul_comm] at h1; exact le_of_mul_le_mul_right h1 hpos
  · rw [mul_comm (l.length : F)] at h2; exact le_of_mul_le_mul_right h2 hpos

/-! ### Analyser -/

theorem eqv_bad {c : Cell F} (h : c.eqv (.fin 0) = true) : c.isNan = false ∧ c.isInf = false := by
  cases c <;> simp_all [Cell.eqv, Cell.isNan, Cell.isInf]

/-- NaN and infinite cells of some rows. -/
def badCells (rows : List (List (Cell F))) : Nat :=
  (rows.flatten.filter Cell.isNan).length + (rows.flatten.filter Cell.isInf).length

theorem bad_row (r : List (Cell F)) :
    (r.filter Cell.isNan).length + (r.filter Cell.isInf).length ≤ r.length := by
  induction r with
  | nil => simp
  | cons c r ih =>
    rw [List.filter_cons, List.filter_cons, List.length_cons]
    cases c <;> simp only [Cell.isNan, Cell.isInf] <;> simp <;> omega

theorem bad_zero (r : List (Cell F)) (h : zeroRow r = true) :
    (r.filter Cell.isNan).length + (r.filter Cell.isInf).length = 0 := by
  unfold zeroRow at h
  rw [List.all_eq_true] at h
  have h1 : r.filter Cell.isNan = [] := by
    rw [List.filter_eq_nil_iff]; intro c hc; simp [(eqv_bad (h c hc)).1]
  have h2 : r.filter Cell.isInf = [] := by
    rw [List.filter_eq_nil_iff]; intro c hc; simp [(eqv_bad (h c hc)).2]
  simp [h1, h2]

theorem bad_bound (cols : Nat) (rows : List (List (Cell F))) (h : ∀ r ∈ rows, r.length = cols) :
    badCells rows + (rows.filter zeroRow).length * cols ≤ rows.length * cols := by
  induction rows with
  | nil => simp [badCells]
  | cons r rows ih =>
    have ih := ih fun x hx => h x (List.mem_cons_of_mem _ hx)
    have hr := h r (List.mem_cons_self ..)
    have e1 : badCells (r :: rows) =
        ((r.filter Cell.isNan).length + (r.filter Cell.isInf).length) + badCells rows := by
      simp [badCells]; omega
    rw [e1, List.length_cons, Nat.succ_mul]
    by_cases hz : zeroRow r = true
    · rw [List.filter_cons_of_pos hz, List.length_cons, Nat.succ_mul, bad_zero r hz]; omega
    · rw [List.filter_cons_of_neg hz]
      have := bad_row r
      omega

theorem zero_constant {r : List (Cell F)} (h : zeroRow r = true) : constantRow r = true := by
  cases r with
  | nil => rfl
  | cons c r =>
    unfold zeroRow at h
    unfold constantRow
    rw [List.all_eq_true] at h ⊢
    intro y hy
    have h1 := h y hy
    have h2 := h c (List.mem_cons_self ..)
    cases y <;> cases c <;> simp_all [Cell.eqv]

theorem filter_length_sum {α β : Type} (f : β → Bool) (ls : List (List β)) :
    (ls.flatten.filter f).length = (ls.map fun l => (l.filter f).length).sum := by
  induction ls with
  | nil => rfl
  | cons l ls ih => rw [List.flatten_cons, List.filter_append, List.length_append, ih]; rfl

/-- Entries off the diagonal satisfying `f`, for rows carrying distinct positions. -/
def offCount {R C : Type} (sim : R → R → C) (f : C → Bool) (L : List (R × Nat)) : Nat :=
  (L.map fun p => ((L.filter fun q => q.2 != p.2).filter fun q => f (sim p.1 q.1)).length).sum

omit [Field F] [LinearOrder F] [IsStrictOrderedRing F] in
theorem offDiagonal_count {R C : Type} (sim : R → R → C) (f : C → Bool) (rows : List R) :
    ((offDiagonal sim rows).filter f).length = offCount sim f rows.zipIdx := by
  unfold offDiagonal offCount
  rw [filter_length_sum (α := R), List.map_map]
  congr 1
  apply List.map_congr_left
  intro p _
  simp only [Function.comp, List.filter_map, List.length_map]
  rfl

theorem hits_sum {R C : Type} (sim : R → R → C) (hs : ∀ a b, sim a b = sim b a)
    (f : C → Bool) (x : R) (L : List (R × Nat)) :
    (L.map fun p => (if f (sim p.1 x) then 1 else 0)).sum
      = ((L.map Prod.fst).filter fun y => f (sim x y)).length := by
  induction L with
  | nil => rfl
  | cons p L ih =>
    rw [List.map_cons, List.sum_cons, ih, List.map_cons]
    by_cases hf : f (sim p.1 x) = true
    · rw [if_pos hf, List.filter_cons_of_pos (by rw [hs]; exact hf), List.length_cons]; omega
    · rw [if_neg hf, List.filter_cons_of_neg (by rw [hs]; exact hf)]; omega

theorem offCount_pairs {R C : Type} (sim : R → R → C) (hs : ∀ a b, sim a b = sim b a)
    (f : C → Bool) (L : List (R × Nat)) (hn : (L.map Prod.snd).Nodup) :
    offCount sim f L = 2 * Spec.pairsWith (fun a b => f (sim a b)) (L.map Prod.fst) := by
  induction L with
  | nil => rfl
  | cons x L ih =>
    rw [List.map_cons, List.nodup_cons] at hn
    have ih := ih hn.2
    have hx : ∀ q ∈ L, (q.2 != x.2) = true := by
      intro q hq
      rw [bne_iff_ne]
      intro h
      exact hn.1 (h ▸ List.mem_map_of_mem hq)
    have e1 : (x :: L).filter (fun q => q.2 != x.2) = L := by
      rw [List.filter_cons_of_neg (by simp)]
      exact List.filter_eq_self.2 hx
    have e2 : (L.map fun p => (((x :: L).filter fun q => q.2 != p.2).filter
          fun q => f (sim p.1 q.1)).length).sum
        = (L.map fun p => (if f (sim p.1 x.1) then 1 else 0)
            + ((L.filter fun q => q.2 != p.2).filter fun q => f (sim p.1 q.1)).length).sum := by
      congr 1
      apply List.map_congr_left
      intro p hp
      have hne : (x.2 != p.2) = true := by
        have := hx p hp
        rw [bne_iff_ne] at this ⊢
        exact fun h => this h.symm
      rw [List.filter_cons_of_pos (by exact hne)]
      by_cases hf : f (sim p.1 x.1) = true
      · rw [List.filter_cons_of_pos (by exact hf), if_pos hf, List.length_cons]; omega
      · rw [List.filter_cons_of_neg (by exact hf), if_neg hf]; omega
    have e3 : (L.map fun p => (if f (sim p.1 x.1) then 1 else 0)).sum
        = ((L.map Prod.fst).filter fun y => f (sim x.1 y)).length := hits_sum sim hs f x.1 L
    have e4 : (L.filter fun q => f (sim x.1 q.1)).length
        = ((L.map Prod.fst).filter fun y => f (sim x.1 y)).length := by
      rw [List.filter_map, List.length_map]; rfl
    have e5 : offCount sim f (x :: L)
        = (L.filter fun q => f (sim x.1 q.1)).length
          + (L.map fun p => (((x :: L).filter fun q => q.2 != p.2).filter
              fun q => f (sim p.1 q.1)).length).sum := by
      unfold offCount
      rw [List.map_cons, List.sum_cons, e1]
    rw [e5, e2, List.sum_map_add, e3, e4]
    have : (L.map fun p => ((L.filter fun q => q.2 != p.2).filter
        fun q => f (sim p.1 q.1)).length).sum = offCount sim f L := rfl
    rw [this, ih, List.map_cons]
    simp only [Spec.pairsWith]
    omega

theorem zipIdx_fst {R : Type} (rows : List R) : rows.zipIdx.map Prod.fst = rows := by
  simp

theorem zipIdx_snd_nodup {R : Type} (rows : List R) : (rows.zipIdx.map Prod.snd).Nodup := by
  rw [List.zipIdx_map_snd]
  exact List.nodup_range'

end Valori
