import Mathlib.Algebra.BigOperators.Group.List.Basic
import Mathlib.Algebra.Order.Field.Rat
import Mathlib.Tactic.SplitIfs
import Verif.Model.IndexPerf

/-!
# C191: measuring an index
-/

namespace Valori.Props

open Valori

variable {σ V Q R : Type}

/-- The state in which each search of the measurement is made, and the last one: each search in the state
the one before left, all of them successful. -/
inductive Searched (ix : PerfIndex σ V Q R) (k : Int) : List Q → σ → σ → Prop
  | nil (s : σ) : Searched ix k [] s s
  | cons {q qs s s' s'' r} (h : ix.search q k s = (.ok r, s')) (t : Searched ix k qs s' s'') :
      Searched ix k (q :: qs) s s''

theorem perfSearches_ok (ix : PerfIndex σ V Q R) (k : Int) (tick : Nat → ℚ) (qs : List Q) (i : Nat) (s s' : σ) (ts) :
    perfSearches ix k tick i qs s = (.ok ts, s') ↔
      Searched ix k qs s s' ∧ ts = (List.range' i qs.length).map tick := by
  induction qs generalizing i s ts with
  | nil =>
    simp only [perfSearches, Prod.mk.injEq, Except.ok.injEq, List.length_nil, List.range'_zero, List.map_nil]
    constructor
    · rintro ⟨rfl, rfl⟩; exact ⟨.nil _, rfl⟩
    · rintro ⟨h, rfl⟩; cases h; exact ⟨rfl, rfl⟩
  | cons q qs ih =>
    unfold perfSearches
    cases h : ix.search q k s with
    | mk r s1 =>
      cases r with
      | error e =>
        simp only [Prod.mk.injEq, reduceCtorEq, false_and, false_iff, not_and]
        intro hs
        cases hs with
        | cons h' _ => rw [h] at h'; cases h'
      | ok r =>
        simp only
        constructor
        · intro hh
          cases h2 : perfSearches ix k tick (i + 1) qs s1 with
          | mk r2 s2 =>
            rw [h2] at hh
            cases r2 with
            | error e => cases hh
            | ok ts' =>
              simp only [Prod.mk.injEq, Except.ok.injEq] at hh
              obtain ⟨rfl, rfl⟩ := hh
              obtain ⟨h3, rfl⟩ := (ih _ _ _).1 h2
              exact ⟨.cons h h3, by simp [List.range'_succ]⟩
        · rintro ⟨hs, rfl⟩
          cases hs with
          | cons h' ht =>
            rw [h] at h'
            cases h'
            have := (ih (i + 1) s1 _).2 ⟨ht, rfl⟩
            rw [this]
            simp [List.range'_succ]

/-- **C191.** The measurement answers exactly when the index can add, adding, building (where there is
`build`) and every search succeed, and neither the time for adding nor the sum of the search times is
zero.  It then reports vectors and queries divided by these times, and the index is left in the state
after adding, building and searching. -/
theorem C191_report (ix : PerfIndex σ V Q R) (at_ : ℚ) (tick : Nat → ℚ) (vs : List V) (qs : List Q) (k : Int)
    (s s' : σ) (rep : PerfReport) :
    perf ix at_ tick vs qs k s = (.ok rep, s') ↔
      ∃ add s1 s2, ix.add = some add ∧ add vs s = (.ok (), s1) ∧
        (∀ b, ix.build = some b → b s1 = (.ok (), s2)) ∧ (ix.build = none → s2 = s1) ∧
        Searched ix k qs s2 s' ∧ at_ ≠ 0 ∧ ((List.range qs.length).map tick).sum ≠ 0 ∧
        rep = ⟨vs.length / at_, qs.length / ((List.range qs.length).map tick).sum⟩ := by
  have hrange : List.range qs.length = List.range' 0 qs.length := List.range_eq_range'
  have tail : ∀ s2, (match perfSearches ix k tick 0 qs s2 with
        | (.error e, s) => (.error e, s)
        | (.ok ts, s) =>
          if ts.sum = 0 then (.error .other, s)
          else if at_ = 0 then (.error .other, s)
          else (.ok ⟨vs.length / at_, qs.length / ts.sum⟩, s) : Res σ PerfReport) = (.ok rep, s') ↔
      Searched ix k qs s2 s' ∧ at_ ≠ 0 ∧ ((List.range qs.length).map tick).sum ≠ 0 ∧
        rep = ⟨vs.length / at_, qs.length / ((List.range qs.length).map tick).sum⟩ := by
    intro s2
    cases h : perfSearches ix k tick 0 qs s2 with
    | mk r s3 =>
      cases r with
      | error e =>
        simp only [Prod.mk.injEq, reduceCtorEq, false_and, false_iff, not_and]
        intro hs
        have := (perfSearches_ok ix k tick qs 0 s2 s' _).2 ⟨hs, rfl⟩
        rw [h] at this; cases this
      | ok ts =>
        obtain ⟨hs, rfl⟩ := (perfSearches_ok ix k tick qs 0 s2 s3 _).1 h
        have huniq : ∀ s', Searched ix k qs s2 s' → s' = s3 := by
          intro s' hs'
          have := (perfSearches_ok ix k tick qs 0 s2 s' _).2 ⟨hs', rfl⟩
          rw [h] at this; cases this; rfl
        simp only [hrange]
        split_ifs with h1 h2
        · simp [h1]
        · simp [h2]
        · simp only [Prod.mk.injEq, Except.ok.injEq]
          constructor
          · rintro ⟨rfl, rfl⟩; exact ⟨hs, h2, h1, rfl⟩
          · rintro ⟨hs', -, -, rfl⟩; exact ⟨rfl, (huniq _ hs').symm⟩
  unfold perf
  cases ha : ix.add with
  | none => simp
  | some add =>
    simp only
    cases h1 : add vs s with
    | mk r s1 =>
      cases r with
      | error e =>
        simp only [Prod.mk.injEq, reduceCtorEq, false_and, false_iff]
        rintro ⟨a, t1, t2, h2, h3, -⟩
        cases h2
        rw [h1] at h3; cases h3
      | ok u =>
        simp only
        cases hb : ix.build with
        | none =>
          simp only
          refine Iff.trans (tail s1) ?_
          constructor
          · intro h; exact ⟨add, s1, s1, rfl, h1, by simp, fun _ => rfl, h⟩
          · rintro ⟨a, t1, t2, h2, h3, -, h4, h⟩
            cases h2
            rw [h1] at h3; cases h3
            rw [h4 trivial] at h; exact h
        | some b =>
          cases h2 : b s1 with
          | mk r2 s2 =>
            cases r2 with
            | error e =>
              simp only [h2, Prod.mk.injEq, reduceCtorEq, false_and, false_iff]
              rintro ⟨a, t1, t2, h3, h4, h5, -⟩
              cases h3
              rw [h1] at h4; cases h4
              have := h5 b rfl
              rw [h2] at this; cases this
            | ok u =>
              simp only [h2]
              refine Iff.trans (tail s2) ?_
              constructor
              · intro h
                exact ⟨add, s1, s2, rfl, h1, fun b' hb' => by cases hb'; exact h2, by simp, h⟩
              · rintro ⟨a, t1, t2, h3, h4, h5, -, h⟩
                cases h3
                rw [h1] at h4; cases h4
                have := h5 b rfl
                rw [h2] at this; cases this
                exact h

/-- An index that keeps numbers in a list, can be built and counts the searches. -/
def exPerf : PerfIndex (List Nat × Nat) Nat Nat (List Nat) where
  add := some fun vs s => (.ok (), (s.1 ++ vs, s.2))
  build := some fun s => (.ok (), s)
  search := fun q _ s => (.ok (s.1.filter (· = q)), (s.1, s.2 + 1))

example : perf exPerf 2 (fun i => i + 1) [4, 5, 6] [5, 9] 10 ([1], 0) = (.ok ⟨3 / 2, 2 / 3⟩, ([1, 4, 5, 6], 2)) := by
  decide +kernel

/-- **C191, as users expect it, fails** for three of the five indices: flat, HNSW and IVF have no `add`
(they have `insert`), and the measurement ends with `AttributeError` before anything happens. -/
theorem C191_no_add_refuted (ix : PerfIndex σ V Q R) (h : ix.add = none) (at_ : ℚ) (tick : Nat → ℚ)
    (vs : List V) (qs : List Q) (k : Int) (s : σ) : perf ix at_ tick vs qs k s = (.error .attribute, s) := by
  unfold perf
  rw [h]

example : ({ exPerf with add := none } : PerfIndex (List Nat × Nat) Nat Nat (List Nat)).add = none := rfl

/-- **C191, as users expect it, fails** without queries: whatever the index, there is no report, and when
adding worked the vectors stay in the index. -/
theorem C191_no_queries_refuted (ix : PerfIndex σ V Q R) (at_ : ℚ) (tick : Nat → ℚ) (vs : List V) (k : Int) (s : σ) :
    (∀ rep, (perf ix at_ tick vs [] k s).1 ≠ .ok rep) ∧
    (∀ add s1, ix.add = some add → add vs s = (.ok (), s1) → ix.build = none →
      perf ix at_ tick vs [] k s = (.error .other, s1)) := by
  constructor
  · intro rep h
    have : perf ix at_ tick vs [] k s = (.ok rep, (perf ix at_ tick vs [] k s).2) := by rw [← h]
    obtain ⟨_, _, _, _, _, _, _, _, _, h0, _⟩ := (C191_report ix at_ tick vs [] k s _ rep).1 this
    exact h0 rfl
  · intro add s1 ha h1 hb
    simp [perf, ha, h1, hb, perfSearches]

example : perf { exPerf with build := none } 2 (fun i => i + 1) [4, 5, 6] [] 10 ([1], 0) =
    (.error .other, ([1, 4, 5, 6], 0)) := by decide +kernel

/-- **C191.** The measurement is not neutral: an index whose searches do not change it is left as adding
and building left it, with the test vectors in it. -/
theorem C191_left_behind (ix : PerfIndex σ V Q R) (hs : ∀ q k s, (ix.search q k s).2 = s) (at_ : ℚ)
    (tick : Nat → ℚ) (vs : List V) (qs : List Q) (k : Int) (s s' : σ) (rep : PerfReport)
    (h : perf ix at_ tick vs qs k s = (.ok rep, s')) :
    ∃ add s1, ix.add = some add ∧ add vs s = (.ok (), s1) ∧
      (∀ b, ix.build = some b → b s1 = (.ok (), s')) ∧ (ix.build = none → s' = s1) := by
  obtain ⟨add, s1, s2, h1, h2, h3, h4, h5, -⟩ := (C191_report ix at_ tick vs qs k s s' rep).1 h
  have : s' = s2 := by
    clear h h3 h4
    induction h5 with
    | nil s => rfl
    | cons hq _ ih =>
      have := congrArg Prod.snd hq
      rw [hs] at this
      exact ih.trans this.symm
  exact ⟨add, s1, h1, h2, by rw [this]; exact h3, by rw [this]; exact h4⟩

example : ∃ rep, perf { exPerf with search := fun q _ s => (.ok (s.1.filter (· = q)), s) } 2 (fun i => i + 1)
    [4, 5, 6] [5, 9] 10 ([1], 0) = (.ok rep, ([1, 4, 5, 6], 0)) := ⟨⟨3 / 2, 2 / 3⟩, by decide +kernel⟩

end Valori.Props
