import Verif.Lemmas.IvfTrainedOnce

/-!
# C237: searching a trained IVF index beside insertions, updates and deletions
-/

namespace Valori.Props

open Valori Valori.Spec TConc

variable {V M D : Type} [LinearOrder D] {env : IConcEnv V D} {ops : Nat → FOp V M} {s0 : TConc V M D}

/-- A moment (an initial part of the schedule) at which thread `t` makes a statement of its call. -/
def TDuring (env : IConcEnv V D) (ops : Nat → FOp V M) (s0 : TConc V M D) (sched : List Nat) (t : Nat)
    (pre : List Nat) : Prop :=
  pre ++ [t] <+: sched ∧ ∀ r, (s0.run env ops pre).thr t ≠ .done r

/-- **C237** (partial: a search may raise, may miss a vector nobody touches and may return one twice, see
`Props/IvfTrainedCases`) Beside any insertions, updates and deletions, a search that returns gives at most `k` results
in order of distance; the distance of each is that of a vector that the cache or the storage had under its id at
some moment of the search, its metadata were stored under the id at some moment of the search. -/
theorem C237_sound_partial (h0 : ∀ t, s0.thr t = .start) {t : Nat} {q : V} {k : Int} (ho : ops t = .search q k)
    {sched : List Nat} {l : List (Hit D M)} (hd : (s0.run env ops sched).thr t = .done (.hits l)) :
    (∀ h ∈ l,
      (∃ p v, TDuring env ops s0 sched t p ∧ env.dist q v = .ok h.dist ∧
        ((s0.run env ops p).cache.get? h.id = some v ∨ ∃ m, (s0.run env ops p).store.get? h.id = some (v, m))) ∧
      (∃ p v, TDuring env ops s0 sched t p ∧ (s0.run env ops p).store.get? h.id = some (v, h.md))) ∧
    (l.map Hit.dist).Pairwise (· ≤ ·) ∧ (0 ≤ k → l.length ≤ k.toNat) := by
  let P (sched : List Nat) : Id × V → Prop := fun x =>
    ∃ p m, TDuring env ops s0 sched t p ∧ (s0.run env ops p).store.get? x.1 = some (x.2, m)
  let C (sched : List Nat) : Id × D → Prop := fun x =>
    ∃ p v, TDuring env ops s0 sched t p ∧ env.dist q v = .ok x.2 ∧
      ((s0.run env ops p).cache.get? x.1 = some v ∨ ∃ m, (s0.run env ops p).store.get? x.1 = some (v, m))
  let H (sched : List Nat) : Hit D M → Prop := fun h =>
    C sched (h.id, h.dist) ∧ ∃ p v, TDuring env ops s0 sched t p ∧ (s0.run env ops p).store.get? h.id = some (v, h.md)
  have main : ∀ sched, AtFine (P sched) (C sched) (H sched) k ((s0.run env ops sched).thr t) := by
    intro sched
    induction sched using List.reverseRecOn with
    | nil => simp only [run, List.foldl_nil, h0]; trivial
    | append_singleton sched t' ih =>
      have more : ∀ p, TDuring env ops s0 sched t p → TDuring env ops s0 (sched ++ [t']) t p := fun p h =>
        ⟨h.1.trans (List.prefix_append _ _), h.2⟩
      have ih' : AtFine (P (sched ++ [t'])) (C (sched ++ [t'])) (H (sched ++ [t'])) k ((s0.run env ops sched).thr t) := by
        refine ih.mono ?_ ?_ ?_
        · rintro x ⟨p, m, hp, h⟩; exact ⟨p, m, more p hp, h⟩
        · rintro x ⟨p, v, hp, h⟩; exact ⟨p, v, more p hp, h⟩
        · rintro x ⟨⟨p, v, hp, h⟩, p', v', hp', h'⟩
          exact ⟨⟨p, v, more p hp, h⟩, p', v', more p' hp', h'⟩
      rw [run_snocT]
      by_cases e : t' = t
      · subst e
        by_cases hdone : ∃ r, (s0.run env ops sched).thr t' = .done r
        · obtain ⟨r, hr⟩ := hdone
          have e0 : (s0.run env ops sched).step env ops t' = s0.run env ops sched := by simp only [step, ho, hr]
          rw [e0]; exact ih'
        · have hdur : TDuring env ops s0 (sched ++ [t']) t' sched :=
            ⟨List.prefix_rfl, fun r h => hdone ⟨r, h⟩⟩
          refine fine_step ho ?_ ?_ ?_ ?_ ih'
          · intro id v d h1 h2; exact ⟨sched, v, hdur, h2, .inl h1⟩
          · intro id v m h1; exact ⟨sched, m, hdur, h1⟩
          · rintro id v d ⟨p, m, hp, h1⟩ h2; exact ⟨p, v, hp, h2, .inr ⟨m, h1⟩⟩
          · intro id d v m h1 h2; exact ⟨h2, sched, v, hdur, h1⟩
      · rw [step_others env ops _ (fun x => e x.symm)]; exact ih'
  have h := main sched
  rw [hd] at h
  exact ⟨fun x hx => h.1 x hx, h.2⟩

/-- **C237** (partial: beside deletions a search may raise, `C237_raises_refuted`) If the distances are defined and no
thread deletes anything, a search beside insertions and updates never raises. -/
theorem C237_answers_partial (h0 : ∀ t, s0.thr t = .start) (hs : Settled s0) (ha : Apart ops s0) (hr : Ready env s0)
    (hdel : ∀ t id, ¬ opDeletes (ops t) id) {t : Nat} {q : V} {k : Int} (ho : ops t = .search q k)
    (hq : ∀ v, ∃ d, env.dist q v = .ok d) (sched : List Nat) :
    (s0.run env ops sched).thr t ≠ .done .raised := by
  have main : AtAlive ops (s0.run env ops sched) ((s0.run env ops sched).thr t) := by
    induction sched using List.reverseRecOn with
    | nil => simp only [run, List.foldl_nil, h0]; trivial
    | append_singleton sched t' ih =>
      rw [run_snocT]
      exact alive_next ho hq (run_inv h0 hs ha hr sched) hs ha hr ih t'
  intro hd
  rw [hd] at main
  obtain ⟨id, t', hid⟩ := main
  exact hdel t' id hid

/-- **C237** (partial: beside updates an id may come twice, `C237_twice_refuted`) If every cluster has a list of its own
and no thread updates anything, a search beside insertions and deletions returns no id twice. -/
theorem C237_once_partial (h0 : ∀ t, s0.thr t = .start) (hs : Settled s0) (ha : Apart ops s0) (hr : Ready env s0)
    (hown : ∀ c c' r, s0.clusters.get? c = some r → s0.clusters.get? c' = some r → c = c')
    (hupd : ∀ t id v m, ops t ≠ .update id v m) {t : Nat} {q : V} {k : Int} (ho : ops t = .search q k)
    {sched : List Nat} {l : List (Hit D M)} (hd : (s0.run env ops sched).thr t = .done (.hits l)) :
    (l.map Hit.id).Nodup := by
  have main : AtOnce ops (s0.run env ops sched) ((s0.run env ops sched).thr t) := by
    clear hd
    induction sched using List.reverseRecOn with
    | nil => simp only [run, List.foldl_nil, h0]; trivial
    | append_singleton sched t' ih =>
      rw [run_snocT]
      exact once_next ho hupd hown (run_inv h0 hs ha hr sched) hs ha hr ih t'
  rw [hd] at main
  exact main

/-- **C237** Searches do not disturb the others: no statement of a search changes the storage, the index or the place
of another thread. -/
theorem C237_reads_only (h0 : ∀ t, s0.thr t = .start) (hs : Settled s0) (ha : Apart ops s0) (hr : Ready env s0)
    {t : Nat} {q : V} {k : Int} (ho : ops t = .search q k) (sched : List Nat) :
    let s := s0.run env ops sched
    let s' := s0.run env ops (sched ++ [t])
    s'.store = s.store ∧ s'.ids = s.ids ∧ s'.cache = s.cache ∧ s'.count = s.count ∧ s'.lists = s.lists ∧
      s'.clusters = s.clusters ∧ s'.cents = s.cents ∧ ∀ u, u ≠ t → s'.thr u = s.thr u := by
  have h := run_inv h0 hs ha hr sched
  have h1 := h.thr t
  unfold AtOp at h1
  rw [ho] at h1
  obtain ⟨a, e, _⟩ := sr_step (env := env) ho h1 (fun id r => h.filled hs)
  simp only [run_snocT]
  refine ⟨by rw [e], by rw [e], by rw [e], by rw [e], by rw [e], by rw [e], by rw [e], fun u hu => ?_⟩
  rw [step_others env ops _ hu]

end Valori.Props
