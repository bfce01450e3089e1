import Verif.Props.HnswPar
import Verif.Props.LoneIvfSearch

/-!
# C206: searches do not disturb insertions into an HNSW index
-/

namespace Valori.Props

open Valori Spec

variable {V M D : Type} [LinearOrder D]

/-- Equal for all who insert. -/
structure SameForHnsw (ops : Nat → HOp V M) (s s' : HPar V M D) : Prop where
  store : s.store = s'.store
  vectors : s.vectors = s'.vectors
  count : s.count = s'.count
  levels : s.levels = s'.levels
  maxLevel : s.maxLevel = s'.maxLevel
  thr : ∀ t, insertsI ops t = true → s.thr t = s'.thr t

theorem same_hnsw_search {env : HParEnv V D} {ops : Nat → HOp V M} {s s' : HPar V M D}
    (h : SameForHnsw ops s s') {t : Nat} (ht : insertsI ops t = false) :
    SameForHnsw ops (s.step env ops t) s' := by
  have upd : ∀ a, SameForHnsw ops { s with thr := Function.update s.thr t a } s' := by
    intro a
    refine ⟨h.store, h.vectors, h.count, h.levels, h.maxLevel, fun t' h' => ?_⟩
    have : t' ≠ t := by rintro rfl; rw [ht] at h'; cases h'
    simp only [Function.update_of_ne this]
    exact h.thr t' h'
  cases ho : ops t with
  | insert rows => simp [insertsI, ho] at ht
  | search q k =>
    unfold HPar.step
    rw [ho]
    cases s.thr t with
    | start => exact upd _
    | srch p => exact upd _
    | ins i p => exact h
    | done r => exact h

theorem same_hnsw_insert {env : HParEnv V D} {ops : Nat → HOp V M} {s s' : HPar V M D}
    (h : SameForHnsw ops s s') {t : Nat} (ht : insertsI ops t = true) :
    SameForHnsw ops (s.step env ops t) (s'.step env ops t) := by
  have hth := h.thr t ht
  have hthr := h.thr
  obtain ⟨st, ve, co, le, mx, th⟩ := s
  obtain ⟨st', ve', co', le', mx', th'⟩ := s'
  obtain ⟨h1, h2, h3, h4, h5, -⟩ := h
  simp only at h1 h2 h3 h4 h5 hth hthr
  subst h1 h2 h3 h4 h5
  have upd : ∀ (st : Dict Id (V × Option M)) (ve : Dict Id V) (co : Nat) (le : List Level) (mx : Nat)
      (a : HAt M D), SameForHnsw ops (⟨st, ve, co, le, mx, Function.update th t a⟩ : HPar V M D)
        ⟨st, ve, co, le, mx, Function.update th' t a⟩ := by
    intro st ve co le mx a
    refine ⟨rfl, rfl, rfl, rfl, rfl, fun t' h' => ?_⟩
    by_cases e : t' = t
    · subst e; simp only [Function.update_self]
    · simp only [Function.update_of_ne e]; exact hthr t' h'
  have keep : SameForHnsw ops (⟨st, ve, co, le, mx, th⟩ : HPar V M D) ⟨st, ve, co, le, mx, th'⟩ :=
    ⟨rfl, rfl, rfl, rfl, rfl, hthr⟩
  cases ho : ops t with
  | search q k => simp [insertsI, ho] at ht
  | insert rows =>
    unfold HPar.step
    simp only [ho, ← hth]
    cases th t with
    | start => exact upd ..
    | srch p => exact keep
    | done r => exact keep
    | ins i p =>
      unfold HPar.stepIns HPar.nodeOf
      simp only
      repeat' split
      all_goals first
        | exact upd ..
        | exact keep

/-- **C206**, HNSW index.  Searches do not disturb insertions: whatever the start state and the schedule,
storage, vectors, count, levels, links and the progress and replies of all insertions are those of the same
schedule without the searches. -/
theorem C206_hnsw_searches_harmless (env : HParEnv V D) (ops : Nat → HOp V M) (s0 : HPar V M D)
    (sched : List Nat) :
    let s := s0.run env ops sched
    let s' := s0.run env ops (sched.filter (insertsI ops))
    s.store = s'.store ∧ s.vectors = s'.vectors ∧ s.count = s'.count ∧ s.levels = s'.levels ∧
    s.maxLevel = s'.maxLevel ∧ ∀ t, insertsI ops t = true → s.thr t = s'.thr t := by
  have : SameForHnsw ops (s0.run env ops sched) (s0.run env ops (sched.filter (insertsI ops))) := by
    induction sched using List.reverseRecOn with
    | nil => exact ⟨rfl, rfl, rfl, rfl, rfl, fun _ _ => rfl⟩
    | append_singleton sched t ih =>
      have e : ∀ l : List Nat, s0.run env ops (l ++ [t]) = (s0.run env ops l).step env ops t := by
        intro l; simp [HPar.run, List.foldl_append]
      rw [List.filter_append, e]
      cases ht : insertsI ops t with
      | false =>
        simp only [List.filter_cons, ht, Bool.false_eq_true, if_false, List.filter_nil, List.append_nil]
        exact same_hnsw_search ih ht
      | true =>
        simp only [List.filter_cons, ht, if_true, List.filter_nil]
        rw [e]
        exact same_hnsw_insert ih ht
  exact ⟨this.store, this.vectors, this.count, this.levels, this.maxLevel, this.thr⟩

/-- A search is in the middle of an insertion, and raises; the insertion is as without it. -/
example :
    let sched := List.replicate 40 0 ++ List.replicate 6 2 ++ List.replicate 8 1 ++ [2] ++ List.replicate 20 1
    let s := HPar.run (exHPar [] 2) twoAndSearch emptyHnsw sched
    (sched.filter (insertsI twoAndSearch)).length = sched.length - 7 ∧ s.thr 2 = .done .raised ∧
    s.thr 1 = .done (.ids ["b"]) ∧ s.levels = [[("a", ["b"]), ("b", ["a"])]] := by
  decide +kernel

end Valori.Props
