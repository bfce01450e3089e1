import Verif.Model.ParInsert
import Verif.Lemmas.Dict

/-!
# C164, C165: parallel insertion
-/

namespace Valori.Props

open Valori

variable {V M : Type}

/-! ## C164: flat index -/

/-- The uuids of all rows are different, and new. -/
structure FreshRows (rows : Nat → List (FRow V M)) (old : List Id) : Prop where
  nodup : ∀ t, ((rows t).map FRow.id).Nodup
  apart : ∀ t t', t ≠ t' → ∀ r ∈ rows t, ∀ r' ∈ rows t', r.id ≠ r'.id
  new : ∀ t, ∀ r ∈ rows t, r.id ∉ old

theorem FreshRows.inj {rows : Nat → List (FRow V M)} {old : List Id} (h : FreshRows rows old)
    {t t' i i' : Nat} {r r' : FRow V M} (h1 : (rows t)[i]? = some r) (h2 : (rows t')[i']? = some r')
    (he : r.id = r'.id) : t = t' ∧ i = i' := by
  by_cases ht : t = t'
  · subst ht
    refine ⟨rfl, ?_⟩
    have n := h.nodup t
    obtain ⟨l1, e1⟩ := List.getElem?_eq_some_iff.1 h1
    obtain ⟨l2, e2⟩ := List.getElem?_eq_some_iff.1 h2
    refine (List.Nodup.getElem_inj_iff n (hi := by simpa using l1) (hj := by simpa using l2)).1 ?_
    simp [e1, e2, he]
  · exact absurd he (h.apart t t' ht r (List.mem_of_getElem? h1) r' (List.mem_of_getElem? h2))

/-- How many rows of a thread have reached the storage, the list of ids, and the cache. -/
def stored : Nat × FPc → Nat
  | (i, .append) => i + 1
  | (i, .cache) => i + 1
  | (i, _) => i

def appended : Nat × FPc → Nat
  | (i, .cache) => i + 1
  | (i, _) => i

/-- The invariant. -/
structure FInv (rows : Nat → List (FRow V M)) (s0 s : FPar V M) : Prop where
  nodup : s.ids.Nodup
  old : s0.ids <+: s.ids
  mem : ∀ id, id ∈ s.ids ↔ id ∈ s0.ids ∨
    ∃ t i r, (rows t)[i]? = some r ∧ i < appended (s.thr t) ∧ r.id = id
  order : ∀ t, (((rows t).map FRow.id).take (appended (s.thr t))).Sublist s.ids
  store : ∀ t i r, (rows t)[i]? = some r → i < stored (s.thr t) → s.store.get? r.id = some (r.v, r.m)
  storeOld : ∀ id, (∀ t, ∀ r ∈ rows t, r.id ≠ id) → s.store.get? id = s0.store.get? id
  cache : ∀ t i r, (rows t)[i]? = some r → i < (s.thr t).1 → s.cache.get? r.id = some r.v
  cacheOld : ∀ id, (∀ t, ∀ r ∈ rows t, r.id ≠ id) → s.cache.get? id = s0.cache.get? id
  len : ∀ t, appended (s.thr t) ≤ (rows t).length
  ended : ∀ t, (s.thr t).2 = .returned ∨ (s.thr t).2 = .len ∨ (∃ n, (s.thr t).2 = .count n) →
    (s.thr t).1 = (rows t).length
  count : s.count ≤ s.ids.length ∧ ∀ t n, (s.thr t).2 = .count n → n ≤ s.ids.length


/-- A step of thread `t` that leaves the list of ids, storage and cache alone, and moves no row. -/
theorem FInv.move {rows : Nat → List (FRow V M)} {s0 s : FPar V M} (h : FInv rows s0 s) (t : Nat)
    (pc : FPc) (c : Nat) (h1 : stored ((s.thr t).1, pc) = stored (s.thr t))
    (h2 : appended ((s.thr t).1, pc) = appended (s.thr t))
    (h3 : pc = .returned ∨ pc = .len ∨ (∃ n, pc = .count n) → (s.thr t).1 = (rows t).length)
    (h4 : c ≤ s.ids.length) (h5 : ∀ n, pc = .count n → n ≤ s.ids.length) :
    FInv rows s0 { s with count := c, thr := Function.update s.thr t ((s.thr t).1, pc) } := by
  have e1 : ∀ t', stored (Function.update s.thr t ((s.thr t).1, pc) t') = stored (s.thr t') := by
    intro t'
    by_cases ht : t' = t
    · subst ht; simp only [Function.update_self]; exact h1
    · rw [Function.update_of_ne ht]
  have e2 : ∀ t', appended (Function.update s.thr t ((s.thr t).1, pc) t') = appended (s.thr t') := by
    intro t'
    by_cases ht : t' = t
    · subst ht; simp only [Function.update_self]; exact h2
    · rw [Function.update_of_ne ht]
  have e3 : ∀ t', (Function.update s.thr t ((s.thr t).1, pc) t').1 = (s.thr t').1 := by
    intro t'
    by_cases ht : t' = t
    · subst ht; simp only [Function.update_self]
    · rw [Function.update_of_ne ht]
  refine ⟨h.nodup, h.old, ?_, ?_, ?_, h.storeOld, ?_, h.cacheOld, ?_, ?_, h4, ?_⟩
  · simp only [e2]; exact h.mem
  · simp only [e2]; exact h.order
  · simp only [e1]; exact h.store
  · simp only [e3]; exact h.cache
  · simp only [e2]; exact h.len
  · simp only [e3]
    intro t' h'
    by_cases ht : t' = t
    · subst ht; simp only [Function.update_self] at h'; exact h3 h'
    · rw [Function.update_of_ne ht] at h'; exact h.ended t' h'
  · intro t' n h'
    by_cases ht : t' = t
    · subst ht; simp only [Function.update_self] at h'; exact h5 n h'
    · simp only [Function.update_of_ne ht] at h'
      exact h.count.2 t' n h'

theorem finv_step {rows : Nat → List (FRow V M)} {s0 s : FPar V M} (hf : FreshRows rows s0.ids)
    (h : FInv rows s0 s) (t : Nat) : FInv rows s0 (s.step rows t) := by
  rcases hpc : s.thr t with ⟨i, pc⟩
  have hi : (s.thr t).1 = i := by rw [hpc]
  unfold FPar.step
  simp only [hpc]
  cases pc with
  | store =>
    simp only
    rcases hr : (rows t)[i]? with _ | r
    · have hlen := h.len t
      rw [hpc] at hlen
      have : (rows t).length ≤ i := List.getElem?_eq_none_iff.1 hr
      have hm := h.move t .len s.count (by rw [hpc]; rfl) (by rw [hpc]; rfl)
        (fun _ => by rw [hi]; simp only [appended] at hlen; omega) h.count.1 (by simp)
      rw [hi] at hm
      exact hm
    · simp only
      have hup : ∀ t', t' ≠ t → Function.update s.thr t (i, FPc.append) t' = s.thr t' :=
        fun t' ht => Function.update_of_ne ht _ _
      have e2 : ∀ t', appended (Function.update s.thr t (i, FPc.append) t') = appended (s.thr t') := by
        intro t'
        by_cases ht : t' = t
        · subst ht; simp only [Function.update_self, hpc]; rfl
        · rw [hup t' ht]
      have e3 : ∀ t', (Function.update s.thr t (i, FPc.append) t').1 = (s.thr t').1 := by
        intro t'
        by_cases ht : t' = t
        · subst ht; simp only [Function.update_self, hpc]
        · rw [hup t' ht]
      refine ⟨h.nodup, h.old, ?_, ?_, ?_, ?_, ?_, h.cacheOld, ?_, ?_, h.count.1, ?_⟩
      · simp only [e2]; exact h.mem
      · simp only [e2]; exact h.order
      · intro t' j r' hr' hj
        by_cases he : r'.id = r.id
        · obtain ⟨rfl, rfl⟩ := hf.inj hr' hr he
          rw [hr] at hr'
          obtain rfl := Option.some.inj hr'
          simp
        · rw [Dict.get?_set, if_neg he]
          by_cases ht : t' = t
          · subst ht
            simp only [Function.update_self] at hj
            have : j ≠ i := by rintro rfl; rw [hr] at hr'; exact he (by rw [Option.some.inj hr'])
            refine h.store t' j r' hr' ?_
            rw [hpc]; simp only [stored] at hj ⊢; omega
          · simp only [hup t' ht] at hj
            exact h.store t' j r' hr' hj
      · intro id hid
        rw [Dict.get?_set, if_neg (Ne.symm (hid t r (List.mem_of_getElem? hr)))]
        exact h.storeOld id hid
      · simp only [e3]; exact h.cache
      · simp only [e2]; exact h.len
      · simp only [e3]
        intro t' h'
        by_cases ht : t' = t
        · subst ht; simp at h'
        · rw [hup t' ht] at h'; exact h.ended t' h'
      · intro t' n h'
        by_cases ht : t' = t
        · subst ht; simp at h'
        · simp only [hup t' ht] at h'
          exact h.count.2 t' n h'
  | append =>
    simp only
    rcases hr : (rows t)[i]? with _ | r
    · exact h
    · simp only
      have hup : ∀ t', t' ≠ t → Function.update s.thr t (i, FPc.cache) t' = s.thr t' :=
        fun t' ht => Function.update_of_ne ht _ _
      have e1 : ∀ t', stored (Function.update s.thr t (i, FPc.cache) t') = stored (s.thr t') := by
        intro t'
        by_cases ht : t' = t
        · subst ht; simp only [Function.update_self, hpc]; rfl
        · rw [hup t' ht]
      have e3 : ∀ t', (Function.update s.thr t (i, FPc.cache) t').1 = (s.thr t').1 := by
        intro t'
        by_cases ht : t' = t
        · subst ht; simp only [Function.update_self, hpc]
        · rw [hup t' ht]
      have hnew : r.id ∉ s.ids := by
        intro hm
        rcases (h.mem r.id).1 hm with h1 | ⟨t', j, r', h1, h2, h3⟩
        · exact hf.new t r (List.mem_of_getElem? hr) h1
        · obtain ⟨rfl, rfl⟩ := hf.inj h1 hr h3
          rw [hpc] at h2
          simp [appended] at h2
      have hlen : i < (rows t).length := (List.getElem?_eq_some_iff.1 hr).1
      refine ⟨?_, ?_, ?_, ?_, ?_, h.storeOld, ?_, h.cacheOld, ?_, ?_, ?_, ?_⟩
      · exact List.nodup_append.2 ⟨h.nodup, by simp, fun a ha b hb => by
          simp only [List.mem_singleton] at hb
          subst hb
          rintro rfl
          exact hnew ha⟩
      · exact h.old.trans (List.prefix_append _ _)
      · intro id
        simp only [List.mem_append, List.mem_singleton]
        constructor
        · rintro (hm | rfl)
          · rcases (h.mem id).1 hm with h1 | ⟨t', j, r', h1, h2, h3⟩
            · exact .inl h1
            · refine .inr ⟨t', j, r', h1, ?_, h3⟩
              by_cases ht : t' = t
              · subst ht; simp only [Function.update_self]; rw [hpc] at h2
                simp only [appended] at h2 ⊢; omega
              · simp only [hup t' ht]; exact h2
          · exact .inr ⟨t, i, r, hr, by simp only [Function.update_self]; simp [appended], rfl⟩
        · rintro (h1 | ⟨t', j, r', h1, h2, h3⟩)
          · exact .inl ((h.mem id).2 (.inl h1))
          · by_cases ht : t' = t
            · subst ht
              simp only [Function.update_self] at h2
              simp only [appended] at h2
              by_cases hj : j = i
              · subst hj
                rw [hr] at h1
                obtain rfl := Option.some.inj h1
                exact .inr h3.symm
              · exact .inl ((h.mem id).2 (.inr ⟨t', j, r', h1, by rw [hpc]; simp only [appended]; omega,
                  h3⟩))
            · simp only [hup t' ht] at h2
              exact .inl ((h.mem id).2 (.inr ⟨t', j, r', h1, h2, h3⟩))
      · intro t'
        by_cases ht : t' = t
        · subst ht
          simp only [Function.update_self]
          have ho := h.order t'
          rw [hpc] at ho
          simp only [appended] at ho ⊢
          rw [List.take_succ]
          refine ho.append ?_
          simp [hr]
        · simp only [hup t' ht]
          exact (h.order t').trans (List.sublist_append_left _ _)
      · simp only [e1]; exact h.store
      · simp only [e3]; exact h.cache
      · intro t'
        by_cases ht : t' = t
        · subst ht; simp only [Function.update_self]; simp only [appended]; omega
        · simp only [hup t' ht]; exact h.len t'
      · simp only [e3]
        intro t' h'
        by_cases ht : t' = t
        · subst ht; simp at h'
        · rw [hup t' ht] at h'; exact h.ended t' h'
      · simp only [List.length_append, List.length_singleton]
        exact Nat.le_succ_of_le h.count.1
      · intro t' n h'
        simp only [List.length_append, List.length_singleton]
        by_cases ht : t' = t
        · subst ht; simp at h'
        · simp only [hup t' ht] at h'
          exact Nat.le_succ_of_le (h.count.2 t' n h')
  | cache =>
    simp only
    rcases hr : (rows t)[i]? with _ | r
    · exact h
    · simp only
      have hup : ∀ t', t' ≠ t → Function.update s.thr t (i + 1, FPc.store) t' = s.thr t' :=
        fun t' ht => Function.update_of_ne ht _ _
      have e1 : ∀ t', stored (Function.update s.thr t (i + 1, FPc.store) t') = stored (s.thr t') := by
        intro t'
        by_cases ht : t' = t
        · subst ht; simp only [Function.update_self, hpc]; rfl
        · rw [hup t' ht]
      have e2 : ∀ t', appended (Function.update s.thr t (i + 1, FPc.store) t') = appended (s.thr t') := by
        intro t'
        by_cases ht : t' = t
        · subst ht; simp only [Function.update_self, hpc]; rfl
        · rw [hup t' ht]
      refine ⟨h.nodup, h.old, ?_, ?_, ?_, h.storeOld, ?_, ?_, ?_, ?_, h.count.1, ?_⟩
      · simp only [e2]; exact h.mem
      · simp only [e2]; exact h.order
      · simp only [e1]; exact h.store
      · intro t' j r' hr' hj
        by_cases he : r'.id = r.id
        · obtain ⟨rfl, rfl⟩ := hf.inj hr' hr he
          rw [hr] at hr'
          obtain rfl := Option.some.inj hr'
          simp
        · rw [Dict.get?_set, if_neg he]
          by_cases ht : t' = t
          · subst ht
            simp only [Function.update_self] at hj
            have : j ≠ i := by rintro rfl; rw [hr] at hr'; exact he (by rw [Option.some.inj hr'])
            refine h.cache t' j r' hr' ?_
            rw [hpc]; simp only at hj ⊢; omega
          · simp only [hup t' ht] at hj
            exact h.cache t' j r' hr' hj
      · intro id hid
        rw [Dict.get?_set, if_neg (Ne.symm (hid t r (List.mem_of_getElem? hr)))]
        exact h.cacheOld id hid
      · simp only [e2]; exact h.len
      · intro t' h'
        by_cases ht : t' = t
        · subst ht; simp at h'
        · simp only [hup t' ht] at h' ⊢; exact h.ended t' h'
      · intro t' n h'
        by_cases ht : t' = t
        · subst ht; simp at h'
        · simp only [hup t' ht] at h'
          exact h.count.2 t' n h'
  | len =>
    simp only
    have he := h.ended t (by rw [hpc]; simp)
    have hm := h.move t (.count s.ids.length) s.count (by rw [hpc]; rfl) (by rw [hpc]; rfl)
      (fun _ => he) h.count.1 (by rintro n hn; rw [FPc.count.inj hn])
    rw [hi] at hm
    exact hm
  | count n =>
    simp only
    have he := h.ended t (by rw [hpc]; simp)
    have hm := h.move t .returned n (by rw [hpc]; rfl) (by rw [hpc]; rfl)
      (fun _ => he) (h.count.2 t n (by rw [hpc])) (by simp)
    rw [hi] at hm
    exact hm
  | returned => exact h

/-- The index before the threads start: ids without repetition, the statistics not above their number. -/
structure FStart (s : FPar V M) : Prop where
  thr : s.thr = fun _ => (0, .store)
  nodup : s.ids.Nodup
  count : s.count ≤ s.ids.length

theorem finv_run {rows : Nat → List (FRow V M)} {s0 : FPar V M} (h0 : FStart s0)
    (hf : FreshRows rows s0.ids) (sched : List Nat) : FInv rows s0 (s0.run rows sched) := by
  have hstart : FInv rows s0 s0 := by
    refine ⟨h0.nodup, List.prefix_rfl, ?_, ?_, ?_, fun _ _ => rfl, ?_, fun _ _ => rfl, ?_, ?_,
      h0.count, ?_⟩
    · intro id; simp [h0.thr, appended]
    · intro t; simp [h0.thr, appended]
    · intro t i r _ h; simp [h0.thr, stored] at h
    · intro t i r _ h; simp [h0.thr] at h
    · intro t; simp [h0.thr, appended]
    · intro t h; simp [h0.thr] at h
    · intro t n h; simp [h0.thr] at h
  have : ∀ s, FInv rows s0 s → FInv rows s0 (s.run rows sched) := by
    unfold FPar.run
    induction sched with
    | nil => exact fun s h => h
    | cons t ts ih => exact fun s h => ih _ (finv_step hf h t)
  exact this _ hstart

/-- **C164** Any number of threads may insert into a flat index at once.  Whatever the schedule, when all
of them have returned the index lists the old ids followed by the new ones, each exactly once, the ids of
each thread in its order; the storage and the cache hold every row under its id, and nothing else has
changed in them. -/
theorem C164_flat_parallel (rows : Nat → List (FRow V M)) (s0 : FPar V M) (h0 : FStart s0)
    (hf : FreshRows rows s0.ids) (sched : List Nat) :
    let s := s0.run rows sched
    (∀ t, (s.thr t).2 = .returned ∨ rows t = []) →
    s.ids.Nodup ∧ s0.ids <+: s.ids ∧
    (∀ id, id ∈ s.ids ↔ id ∈ s0.ids ∨ ∃ t, ∃ r ∈ rows t, r.id = id) ∧
    (∀ t, ((rows t).map FRow.id).Sublist s.ids) ∧
    (∀ t, ∀ r ∈ rows t, s.store.get? r.id = some (r.v, r.m) ∧ s.cache.get? r.id = some r.v) ∧
    ∀ id, (∀ t, ∀ r ∈ rows t, r.id ≠ id) →
      s.store.get? id = s0.store.get? id ∧ s.cache.get? id = s0.cache.get? id := by
  intro s hdone
  have h : FInv rows s0 s := finv_run h0 hf sched
  have hall : ∀ t, rows t ≠ [] → s.thr t = ((rows t).length, .returned) := by
    intro t hne
    have h2 := (hdone t).resolve_right hne
    have h1 := h.ended t (.inl h2)
    rw [← h1, ← h2]
  have happ : ∀ t, appended (s.thr t) = (rows t).length := by
    intro t
    by_cases hne : rows t = []
    · have := h.len t
      rw [hne] at this ⊢
      simpa using this
    · rw [hall t hne]; rfl
  refine ⟨h.nodup, h.old, fun id => ?_, fun t => ?_, fun t r hr => ?_, fun id hid =>
    ⟨h.storeOld id hid, h.cacheOld id hid⟩⟩
  · rw [h.mem id]
    refine or_congr Iff.rfl ⟨?_, ?_⟩
    · rintro ⟨t, i, r, h1, -, h3⟩
      exact ⟨t, r, List.mem_of_getElem? h1, h3⟩
    · rintro ⟨t, r, h1, h3⟩
      obtain ⟨i, hi, rfl⟩ := List.getElem_of_mem h1
      exact ⟨t, i, _, List.getElem?_eq_getElem hi, by rw [happ]; exact hi, h3⟩
  · have := h.order t
    rw [happ, List.take_of_length_le (by simp)] at this
    exact this
  · obtain ⟨i, hi, rfl⟩ := List.getElem_of_mem hr
    have hne : rows t ≠ [] := List.ne_nil_of_mem hr
    exact ⟨h.store t i _ (List.getElem?_eq_getElem hi) (by rw [hall t hne]; exact hi),
      h.cache t i _ (List.getElem?_eq_getElem hi) (by rw [hall t hne]; exact hi)⟩

/-- **C164** At every moment, the number of vectors in the statistics is at most the number of ids, and
every id listed is in the storage. -/
theorem C164_flat_stats_partial (rows : Nat → List (FRow V M)) (s0 : FPar V M) (h0 : FStart s0)
    (hf : FreshRows rows s0.ids) (hst : ∀ id ∈ s0.ids, (s0.store.get? id).isSome) (sched : List Nat) :
    (s0.run rows sched).count ≤ (s0.run rows sched).ids.length ∧
    ∀ id ∈ (s0.run rows sched).ids, ((s0.run rows sched).store.get? id).isSome := by
  have h := finv_run h0 hf sched
  refine ⟨h.count.1, fun id hid => ?_⟩
  rcases (h.mem id).1 hid with h1 | ⟨t, i, r, h1, h2, rfl⟩
  · rw [h.storeOld id (fun t r hr he => hf.new t r hr (he ▸ h1))]
    exact hst id h1
  · rw [h.store t i r h1]
    · rfl
    · refine lt_of_lt_of_le h2 ?_
      rcases (s0.run rows sched).thr t with ⟨i, pc⟩
      cases pc <;> simp [appended, stored]

/-- Two threads with one row each. -/
def twoRows : Nat → List (FRow Nat Nat)
  | 0 => [⟨"a", 1, none⟩]
  | 1 => [⟨"b", 2, some 5⟩]
  | _ => []

/-- An empty flat index. -/
def emptyFlat : FPar Nat Nat := ⟨[], [], [], 0, fun _ => (0, .store)⟩

theorem twoRows_fresh : FreshRows twoRows emptyFlat.ids := by
  refine ⟨fun t => ?_, fun t t' h => ?_, fun t r hr => by simp [emptyFlat]⟩
  · rcases t with _ | _ | t <;> simp [twoRows]
  · rcases t with _ | _ | t <;> rcases t' with _ | _ | t' <;> simp [twoRows] at h ⊢

/-- **C164 (refuted), statistics.** The number of vectors in the statistics may stay too small for good:
one thread reads the length, the other one finishes, then the first writes what it read. -/
theorem C164_flat_count_refuted :
    ¬ ∀ (rows : Nat → List (FRow Nat Nat)) (s0 : FPar Nat Nat) (sched : List Nat), FStart s0 →
      FreshRows rows s0.ids → (∀ t, ((s0.run rows sched).thr t).2 = .returned ∨ rows t = []) →
      (s0.run rows sched).count = (s0.run rows sched).ids.length := by
  intro h
  have := h twoRows emptyFlat [0, 0, 0, 0, 0, 1, 1, 1, 1, 1, 1, 0] ⟨rfl, by simp [emptyFlat], by decide⟩
    twoRows_fresh (fun t => by
      rcases t with _ | _ | t
      · left; decide
      · left; decide
      · right; rfl)
  revert this
  decide

/-- The hypotheses of C164 hold, and two interleaved threads are served. -/
example : FStart emptyFlat ∧
    (emptyFlat.run twoRows [0, 1, 1, 0, 0, 1, 0, 1, 0, 1, 0, 1]).ids = ["b", "a"] :=
  ⟨⟨rfl, by simp [emptyFlat], by decide⟩, by decide⟩

/-! ## C165: LSH index -/

/-- Each row is stored under the id its thread was given, with its metadata, and entered in the hash
tables under this id, with the projections that queries use. -/
def LshGood {V : Type} (rows : Nat → List V) (s : LPar V) : Prop :=
  ∀ (t i : Nat) (r : V) (id : Nat), (rows t)[i]? = some r → (s.thr t).got[i]? = some id →
    s.vectors[id]? = some r ∧ s.infos[id]? = some r ∧ ∃ p, s.proj = some p ∧ (p, r, id) ∈ s.tables

/-- **C165 (refuted), contents.** Two threads that add one vector each to an index in use, both returning
normally: each finds the vector and metadata of the other under its id. -/
theorem C165_lsh_contents_refuted :
    ∃ (rows : Nat → List Nat) (s0 : LPar Nat) (sched : List Nat),
      s0 = { LPar.fresh with dim := true, proj := some 0, drawn := 1 } ∧
      (∀ t < 2, ((s0.run rows sched).thr t).pc = .returned) ∧ ((s0.run rows sched).thr 0).got = [0] ∧
      ((s0.run rows sched).thr 1).got = [1] ∧ (s0.run rows sched).vectors[0]? = (rows 1)[0]? ∧
      (s0.run rows sched).infos[0]? = (rows 1)[0]? ∧ ¬ LshGood rows (s0.run rows sched) := by
  refine ⟨fun t => [10 + t], _, [0, 0, 1, 1, 1, 1, 0, 0, 1, 0, 1, 0], rfl, by decide, by decide,
    by decide, by decide, by decide, fun h => ?_⟩
  have := (h 0 0 10 0 rfl (by decide)).1
  revert this
  decide

/-- **C165 (refuted), projections.** Two threads that make the first additions: both find no dimension
and both draw projections; what the first one has entered by then is hashed with the wrong ones. -/
theorem C165_lsh_projections_refuted :
    ∃ (rows : Nat → List Nat) (sched : List Nat),
      (∀ t < 2, ((LPar.fresh.run rows sched).thr t).pc = .returned) ∧
      (LPar.fresh.run rows sched).vectors[0]? = (rows 0)[0]? ∧
      ((LPar.fresh.run rows sched).thr 0).got = [0] ∧
      ∀ p, (LPar.fresh.run rows sched).proj = some p → ∀ id, (p, 10, id) ∉ (LPar.fresh.run rows sched).tables := by
  refine ⟨fun t => [10 + t], [0, 1, 0, 0, 0, 0, 0, 0, 0, 1, 1, 1, 1, 1, 1, 1], by decide, by decide,
    by decide, fun p hp id hm => ?_⟩
  have h1 : (LPar.fresh.run (fun t => [10 + t]) [0, 1, 0, 0, 0, 0, 0, 0, 0, 1, 1, 1, 1, 1, 1, 1]).tables =
      [(0, 10, 0), (1, 11, 1)] := by decide
  have h2 : (LPar.fresh.run (fun t => [10 + t]) [0, 1, 0, 0, 0, 0, 0, 0, 0, 1, 1, 1, 1, 1, 1, 1]).proj =
      some 1 := by decide
  rw [h2] at hp
  obtain rfl := Option.some.inj hp
  rw [h1] at hm
  simp at hm

/-- **C165 (refuted), failures.** A thread may raise because the other one has set the dimension but not
yet drawn the projections; its vector is in the index all the same. -/
theorem C165_lsh_raises_refuted :
    ∃ (rows : Nat → List Nat) (sched : List Nat),
      ((LPar.fresh.run rows sched).thr 1).pc = .raised ∧ (LPar.fresh.run rows sched).vectors = rows 1 := by
  exact ⟨fun t => [10 + t], [0, 0, 1, 1, 1, 1, 1], by decide, by decide⟩

/-- The ids a thread has been given. -/
def held (th : LThr) : List Nat :=
  match th.pc with
  | .vec id => th.got ++ [id]
  | .info id => th.got ++ [id]
  | .hash id => th.got ++ [id]
  | _ => th.got

/-- Ids in use are below the counter and belong to one thread. -/
structure LIds (s : LPar V) : Prop where
  below : ∀ t, ∀ id ∈ held (s.thr t), id < s.next
  nodup : ∀ t, (held (s.thr t)).Nodup
  apart : ∀ t t', t ≠ t' → ∀ id ∈ held (s.thr t), id ∉ held (s.thr t')

theorem LIds.same {s s' : LPar V} (h : LIds s) (hn : s'.next = s.next)
    (hh : ∀ t, (held (s'.thr t)).Sublist (held (s.thr t))) : LIds s' :=
  ⟨fun t id hid => hn ▸ h.below t id ((hh t).subset hid), fun t => (h.nodup t).sublist (hh t),
    fun t t' ht id hid hid' => h.apart t t' ht id ((hh t).subset hid) ((hh t').subset hid')⟩

theorem LIds.move {s s' : LPar V} (h : LIds s) (t : Nat) (th : LThr) (hn : s'.next = s.next)
    (ht : s'.thr = Function.update s.thr t th) (hh : (held th).Sublist (held (s.thr t))) : LIds s' := by
  refine h.same hn fun u => ?_
  rw [ht]
  by_cases hu : u = t
  · subst hu; simpa using hh
  · simp [Function.update_of_ne hu]

theorem lids_step (rows : Nat → List V) {s : LPar V} (h : LIds s) (t : Nat) :
    LIds (LPar.step rows s t) := by
  unfold LPar.step
  rcases hth : s.thr t with ⟨row, pc, got⟩
  cases pc with
  | test =>
    dsimp only
    split
    · exact h.move t _ rfl rfl (by rw [hth]; exact List.Sublist.refl _)
    · exact h.move t _ rfl rfl (by rw [hth]; exact List.Sublist.refl _)
  | setDim => exact h.move t _ rfl rfl (by rw [hth]; exact List.Sublist.refl _)
  | generate => exact h.move t _ rfl rfl (by rw [hth]; exact List.Sublist.refl _)
  | take =>
    dsimp only
    split
    · have hb : ∀ id ∈ got, id < s.next := fun id hid => h.below t id (by rw [hth]; exact hid)
      refine ⟨fun u id hid => ?_, fun u => ?_, fun u u' hu id hid hid' => ?_⟩
      · by_cases hut : u = t
        · subst hut
          simp only [Function.update_self, held, List.mem_append, List.mem_singleton] at hid
          rcases hid with hid | rfl
          · exact Nat.lt_succ_of_lt (hb id hid)
          · exact Nat.lt_succ_self _
        · simp only [Function.update_of_ne hut] at hid
          exact Nat.lt_succ_of_lt (h.below u id hid)
      · by_cases hut : u = t
        · subst hut
          simp only [Function.update_self, held]
          have := h.nodup u
          rw [hth] at this
          exact List.nodup_append.2 ⟨this, by simp, fun a ha b hb' => by
            rw [List.mem_singleton] at hb'
            exact hb' ▸ Nat.ne_of_lt (hb a ha)⟩
        · simp only [Function.update_of_ne hut]
          exact h.nodup u
      · by_cases hut : u = t
        · subst hut
          simp only [Function.update_self, held, Function.update_of_ne (Ne.symm hu), List.mem_append,
            List.mem_singleton] at hid hid'
          rcases hid with hid | rfl
          · exact h.apart u u' hu id (by rw [hth]; exact hid) hid'
          · exact Nat.lt_irrefl _ (h.below u' _ hid')
        · by_cases hut' : u' = t
          · subst hut'
            simp only [Function.update_self, held, Function.update_of_ne hut, List.mem_append,
              List.mem_singleton] at hid hid'
            rcases hid' with hid' | rfl
            · exact h.apart u u' hu id hid (by rw [hth]; exact hid')
            · exact Nat.lt_irrefl _ (h.below u _ hid)
          · simp only [Function.update_of_ne hut, Function.update_of_ne hut'] at hid hid'
            exact h.apart u u' hu id hid hid'
    · exact h.move t _ rfl rfl (by rw [hth]; exact List.Sublist.refl _)
  | vec id =>
    dsimp only
    split
    · exact h.move t _ rfl rfl (by rw [hth]; exact List.Sublist.refl _)
    · exact h
  | info id =>
    dsimp only
    split
    · exact h.move t _ rfl rfl (by rw [hth]; exact List.Sublist.refl _)
    · exact h
  | hash id =>
    dsimp only
    split
    · exact h.move t _ rfl rfl (by rw [hth]; exact List.Sublist.refl _)
    · exact h.move t _ rfl rfl (by rw [hth]; simp [held])
    · exact h
  | returned => exact h
  | raised => exact h

/-- **C165** Whatever the schedule, no two vectors are given the same id, by one thread or by two (as long
as reading and incrementing the counter are not interrupted). -/
theorem C165_lsh_ids_partial (rows : Nat → List V) (sched : List Nat) :
    let s := LPar.fresh.run rows sched
    (∀ t, (s.thr t).got.Nodup) ∧
    ∀ t t', t ≠ t' → ∀ id ∈ (s.thr t).got, id ∉ (s.thr t').got := by
  intro s
  have h0 : LIds (LPar.fresh : LPar V) := by
    refine ⟨fun t id hid => ?_, fun t => ?_, fun t t' _ id hid => ?_⟩ <;> simp [LPar.fresh, held] at *
  have : ∀ s0 : LPar V, LIds s0 → LIds (s0.run rows sched) := by
    unfold LPar.run
    induction sched with
    | nil => exact fun s h => h
    | cons t ts ih => exact fun s h => ih _ (lids_step rows h t)
  have h : LIds s := this _ h0
  have hsub : ∀ t, (s.thr t).got.Sublist (held (s.thr t)) := by
    intro t
    unfold held
    split <;> simp
  exact ⟨fun t => (h.nodup t).sublist (hsub t), fun t t' ht id hid hid' =>
    h.apart t t' ht id ((hsub t).subset hid) ((hsub t').subset hid')⟩

/-- Where the running thread stands. -/
def LAt (rows : Nat → List V) (s : LPar V) (th : LThr) (row : Option V) : Prop :=
  match th.pc with
  | .test => s.vectors.length = s.next ∧ s.infos.length = s.next ∧ th.got = []
  | .setDim => s.vectors.length = s.next ∧ s.infos.length = s.next ∧ s.dim = false ∧ th.got = []
  | .generate => s.vectors.length = s.next ∧ s.infos.length = s.next ∧ s.dim = true ∧
      ∀ t, (s.thr t).got = []
  | .take => s.vectors.length = s.next ∧ s.infos.length = s.next ∧ s.dim = true
  | .vec id => s.vectors.length = id ∧ s.infos.length = id ∧ s.next = id + 1 ∧ row.isSome ∧ s.dim = true
  | .info id => s.vectors.length = id + 1 ∧ s.vectors[id]? = row ∧ s.infos.length = id ∧
      s.next = id + 1 ∧ row.isSome ∧ s.dim = true
  | .hash id => s.vectors.length = id + 1 ∧ s.vectors[id]? = row ∧ s.infos.length = id + 1 ∧
      s.infos[id]? = row ∧ s.next = id + 1 ∧ row.isSome ∧ s.dim = true
  | .returned => s.vectors.length = s.next ∧ s.infos.length = s.next ∧ row = none
  | .raised => False

/-- What holds while only thread `a` is running. -/
structure LSer (rows : Nat → List V) (a : Nat) (s : LPar V) : Prop where
  others : ∀ t, t ≠ a → (s.thr t).pc = .test ∧ (s.thr t).got = [] ∨
    (s.thr t).pc = .returned ∧ (rows t)[(s.thr t).row]? = none
  row : ∀ t, (s.thr t).row = (s.thr t).got.length
  dim : s.dim = true → (s.thr a).pc ≠ .generate → s.proj.isSome
  first : s.dim = false → ∀ t, (s.thr t).got = []
  here : LAt rows s (s.thr a) ((rows a)[(s.thr a).row]?)
  good : LshGood rows s
  le : ∀ t, (s.thr t).got.length ≤ (rows t).length

theorem prefix_getE {α : Type} {l l' : List α} (h : l <+: l') {i : Nat} {a : α} (ha : l[i]? = some a) :
    l'[i]? = some a := by
  obtain ⟨k, rfl⟩ := h
  have hi : i < l.length := (List.getElem?_eq_some_iff.1 ha).1
  rw [List.getElem?_append_left hi]
  exact ha

theorem LshGood.keep {rows : Nat → List V} {s s' : LPar V} (h : LshGood rows s)
    (hv : s.vectors <+: s'.vectors) (hi : s.infos <+: s'.infos) (ht : s.tables <+: s'.tables)
    (hp : s'.proj = s.proj) (hg : ∀ t, (s'.thr t).got = (s.thr t).got) : LshGood rows s' := by
  intro t i r id hr hid
  rw [hg] at hid
  obtain ⟨h1, h2, p, h3, h4⟩ := h t i r id hr hid
  exact ⟨prefix_getE hv h1, prefix_getE hi h2, p, hp ▸ h3, ht.subset h4⟩

/-- A step of the running thread that leaves its ids alone. -/
theorem LSer.move {rows : Nat → List V} {a : Nat} {s s' : LPar V} (h : LSer rows a s) (th : LThr)
    (hthr : s'.thr = Function.update s.thr a th) (hg : th.got = (s.thr a).got)
    (hr : th.row = (s.thr a).row) (hdim : s'.dim = true → th.pc ≠ .generate → s'.proj.isSome)
    (hfirst : s'.dim = false → s.dim = false)
    (hat : LAt rows s' th ((rows a)[th.row]?)) (hgood : LshGood rows s') : LSer rows a s' := by
  have hgot : ∀ t, (s'.thr t).got = (s.thr t).got := by
    intro t
    rw [hthr]
    by_cases ht : t = a
    · subst ht; simpa using hg
    · simp [Function.update_of_ne ht]
  refine ⟨fun t ht => ?_, fun t => ?_, ?_, fun hd t => ?_, ?_, hgood, fun t => hgot t ▸ h.le t⟩
  · rw [hthr, Function.update_of_ne ht]; exact h.others t ht
  · rw [hgot, hthr]
    by_cases ht : t = a
    · subst ht; simpa [hr] using h.row t
    · rw [Function.update_of_ne ht]; exact h.row t
  · rw [hthr]; simpa using hdim
  · rw [hgot]; exact h.first (hfirst hd) t
  · rw [hthr]; simpa using hat

theorem lser_step {rows : Nat → List V} {a : Nat} {s : LPar V} (h : LSer rows a s) :
    LSer rows a (LPar.step rows s a) := by
  have hh := h.here
  have hd := h.dim
  have hrow := h.row a
  have hgot : ∀ th : LThr, th.got = (s.thr a).got → ∀ t,
      (Function.update s.thr a th t).got = (s.thr t).got := by
    intro th hth t
    by_cases ht : t = a
    · subst ht; simpa using hth
    · simp [Function.update_of_ne ht]
  unfold LPar.step
  rcases hth : s.thr a with ⟨row, pc, got⟩
  rw [hth] at hh hd hrow
  have kg : ∀ (s' : LPar V) (pc' : LPc), s.vectors <+: s'.vectors → s.infos <+: s'.infos →
      s.tables <+: s'.tables → s'.proj = s.proj → s'.thr = Function.update s.thr a ⟨row, pc', got⟩ →
      LshGood rows s' := by
    intro s' pc' h1 h2 h3 h4 h5
    exact h.good.keep h1 h2 h3 h4 (by rw [h5]; exact hgot _ (by rw [hth]))
  cases pc with
  | test =>
    obtain ⟨h1, h2, h3⟩ := hh
    dsimp only
    split
    · rename_i hdim
      exact h.move ⟨row, .take, got⟩ rfl (by rw [hth]) (by rw [hth]) (fun _ _ => hd hdim (by simp)) id
        ⟨h1, h2, hdim⟩ (kg _ .take List.prefix_rfl List.prefix_rfl List.prefix_rfl rfl rfl)
    · rename_i hdim
      exact h.move ⟨row, .setDim, got⟩ rfl (by rw [hth]) (by rw [hth]) (fun h' => absurd h' hdim) id
        ⟨h1, h2, by simpa using hdim, h3⟩
        (kg _ .setDim List.prefix_rfl List.prefix_rfl List.prefix_rfl rfl rfl)
  | setDim =>
    obtain ⟨h1, h2, h3, h4⟩ := hh
    refine h.move ⟨row, .generate, got⟩ rfl (by rw [hth]) (by rw [hth]) (fun _ h' => absurd rfl h')
        (fun _ => h3) ⟨h1, h2, rfl, ?_⟩
        (kg _ .generate List.prefix_rfl List.prefix_rfl List.prefix_rfl rfl rfl)
    intro t
    rw [show _ = (s.thr t).got from hgot ⟨row, .generate, got⟩ (by rw [hth]) t]
    exact h.first h3 t
  | generate =>
    obtain ⟨h1, h2, h3, h4⟩ := hh
    refine h.move ⟨row, .take, got⟩ rfl (by rw [hth]) (by rw [hth]) (fun _ _ => rfl) (fun h => h)
      ⟨h1, h2, h3⟩ ?_
    intro t i r id _ hid
    rw [show _ = (s.thr t).got from hgot ⟨row, .take, got⟩ (by rw [hth]) t, h4 t] at hid
    simp at hid
  | take =>
    obtain ⟨h1, h2, h3⟩ := hh
    dsimp only
    split
    · rename_i r hr
      exact h.move ⟨row, .vec s.next, got⟩ rfl (by rw [hth]) (by rw [hth]) (fun h' _ => hd h' (by simp)) id
        ⟨h1, h2, rfl, by simp [hr], h3⟩
        (kg _ (.vec s.next) List.prefix_rfl List.prefix_rfl List.prefix_rfl rfl rfl)
    · rename_i hr
      exact h.move ⟨row, .returned, got⟩ rfl (by rw [hth]) (by rw [hth]) (fun h' _ => hd h' (by simp)) id
        ⟨h1, h2, hr⟩ (kg _ .returned List.prefix_rfl List.prefix_rfl List.prefix_rfl rfl rfl)
  | vec id =>
    obtain ⟨h1, h2, h3, h4, h5⟩ := hh
    dsimp only
    split
    · rename_i r hr
      refine h.move ⟨row, .info id, got⟩ rfl (by rw [hth]) (by rw [hth]) (fun h' _ => hd h' (by simp))
        (fun h => h) ⟨by simp [h1], ?_, h2, h3, by simp [hr], h5⟩
        (kg _ (.info id) (List.prefix_append _ _) List.prefix_rfl List.prefix_rfl rfl rfl)
      simp only [hr]
      rw [← h1]; simp
    · exact h
  | info id =>
    obtain ⟨h1, h2, h3, h4, h5, h6⟩ := hh
    dsimp only
    split
    · rename_i r hr
      refine h.move ⟨row, .hash id, got⟩ rfl (by rw [hth]) (by rw [hth]) (fun h' _ => hd h' (by simp))
        (fun h => h) ⟨h1, h2, by simp [h3], ?_, h4, by simp [hr], h6⟩
        (kg _ (.hash id) List.prefix_rfl (List.prefix_append _ _) List.prefix_rfl rfl rfl)
      simp only [hr]
      rw [← h3]; simp
    · exact h
  | hash id =>
    obtain ⟨h1, h2, h3, h4, h5, h6, h7⟩ := hh
    have hp := hd h7 (by simp)
    dsimp only
    split
    · rename_i r p hr hpp
      refine ⟨fun t ht => ?_, fun t => ?_, fun _ _ => by simp [hpp], fun h' => ?_, ?_, ?_, fun t => ?_⟩
      · simp only [Function.update_of_ne ht]; exact h.others t ht
      · by_cases ht : t = a
        · subst ht; simpa using hrow
        · simp only [Function.update_of_ne ht]; exact h.row t
      · simp only at h'; rw [h7] at h'; cases h'
      · simp only [Function.update_self]
        exact ⟨by rw [h1, h5], by rw [h3, h5], h7⟩
      · intro t i x id' hx hid
        by_cases ht : t = a
        · subst ht
          simp only [Function.update_self] at hid
          rcases lt_trichotomy i got.length with hi | hi | hi
          · rw [List.getElem?_append_left hi] at hid
            obtain ⟨g1, g2, q, g3, g4⟩ := h.good t i x id' hx (by rw [hth]; exact hid)
            exact ⟨g1, g2, q, g3, List.mem_append_left _ g4⟩
          · subst hi
            rw [List.getElem?_append_right (le_refl _)] at hid
            simp at hid
            subst hid
            dsimp only at hrow hr h2 h4
            rw [hrow] at h2 h4 hr
            rw [hx] at h2 h4 hr
            obtain rfl := Option.some.inj hr
            exact ⟨h2, h4, p, hpp, by simp⟩
          · rw [List.getElem?_append_right (le_of_lt hi)] at hid
            rw [List.getElem?_eq_none (by simp; omega)] at hid
            cases hid
        · simp only [Function.update_of_ne ht] at hid
          obtain ⟨g1, g2, q, g3, g4⟩ := h.good t i x id' hx hid
          exact ⟨g1, g2, q, g3, List.mem_append_left _ g4⟩
      · by_cases ht : t = a
        · subst ht
          have := (List.getElem?_eq_some_iff.1 hr).1
          simp only [Function.update_self, List.length_append, List.length_singleton]
          dsimp only at hrow this
          omega
        · simp only [Function.update_of_ne ht]; exact h.le t
    · rename_i hpp
      rw [hpp] at hp
      cases hp
    · exact h
  | returned => exact h
  | raised => exact h

/-- The calls are made one after another: each thread runs until its call has returned. -/
def OneAfterAnother {V : Type} (rows : Nat → List V) : LPar V → List (Nat × Nat) → Prop
  | _, [] => True
  | s, (t, n) :: rest =>
    ((s.run rows (List.replicate n t)).thr t).pc = .returned ∧
      OneAfterAnother rows (s.run rows (List.replicate n t)) rest

theorem lser_block {rows : Nat → List V} {a : Nat} (n : Nat) {s : LPar V} (h : LSer rows a s) :
    LSer rows a (s.run rows (List.replicate n a)) := by
  unfold LPar.run
  induction n generalizing s with
  | zero => exact h
  | succ n ih => exact ih (lser_step h)

theorem lser_switch {rows : Nat → List V} {a b : Nat} {s : LPar V} (h : LSer rows a s)
    (ha : (s.thr a).pc = .returned ∨ (s.thr a).pc = .test) : LSer rows b s := by
  by_cases hab : b = a
  · exact hab ▸ h
  have hh := h.here
  have hlen : s.vectors.length = s.next ∧ s.infos.length = s.next := by
    unfold LAt at hh
    rcases ha with ha | ha <;> rw [ha] at hh <;> exact ⟨hh.1, hh.2.1⟩
  refine ⟨fun t ht => ?_, h.row, fun hd _ => h.dim hd (by rcases ha with ha | ha <;> simp [ha]), h.first,
    ?_, h.good, h.le⟩
  · by_cases hta : t = a
    · subst hta
      unfold LAt at hh
      rcases ha with ha | ha
      · rw [ha] at hh
        exact .inr ⟨ha, hh.2.2⟩
      · rw [ha] at hh
        exact .inl ⟨ha, hh.2.2⟩
    · exact h.others t hta
  · unfold LAt
    rcases h.others b hab with ⟨h1, h2⟩ | ⟨h1, h2⟩ <;> rw [h1]
    · exact ⟨hlen.1, hlen.2, h2⟩
    · exact ⟨hlen.1, hlen.2, h2⟩

/-- **C165** Calls made one after another are safe: every vector a call has added is found under its id,
with its metadata, and hashed with the projections that queries use; each finished call has added all its
vectors, and no call raises. -/
theorem C165_lsh_serial_partial (rows : Nat → List V) (blocks : List (Nat × Nat))
    (hs : OneAfterAnother rows LPar.fresh blocks) :
    let s := LPar.fresh.run rows (blocks.flatMap fun b => List.replicate b.2 b.1)
    LshGood rows s ∧ ∀ t, (s.thr t).pc ≠ .raised ∧
      ((s.thr t).pc = .returned → (s.thr t).got.length = (rows t).length) := by
  intro s
  have key : ∀ (bs : List (Nat × Nat)) (s0 : LPar V), (∀ a, LSer rows a s0) → OneAfterAnother rows s0 bs →
      ∀ a, LSer rows a (s0.run rows (bs.flatMap fun b => List.replicate b.2 b.1)) := by
    intro bs
    induction bs with
    | nil => exact fun s0 h _ => h
    | cons b bs ih =>
      intro s0 h hb
      have h1 := lser_block b.2 (h b.1)
      have := ih _ (fun a => lser_switch h1 (.inl hb.1)) hb.2
      rw [List.flatMap_cons]
      unfold LPar.run at this ⊢
      rw [List.foldl_append]
      exact this
  have h0 : ∀ a, LSer rows a (LPar.fresh : LPar V) := by
    intro a
    refine ⟨fun t _ => .inl ⟨rfl, rfl⟩, fun t => rfl, fun h => by simp [LPar.fresh] at h, fun _ _ => rfl,
      ⟨rfl, rfl, rfl⟩, fun t i r id _ h => by simp [LPar.fresh] at h, fun t => Nat.zero_le _⟩
  have h := key blocks _ h0 hs
  refine ⟨(h 0).good, fun t => ?_⟩
  have hh : LAt rows s (s.thr t) ((rows t)[(s.thr t).row]?) := (h t).here
  unfold LAt at hh
  refine ⟨fun hr => ?_, fun hr => ?_⟩
  · rw [hr] at hh; exact hh
  · rw [hr] at hh
    have h1 := List.getElem?_eq_none_iff.1 hh.2.2
    have h2 := (h t).row t
    have h3 := (h t).le t
    change (s.thr t).row = (s.thr t).got.length at h2
    change (s.thr t).got.length ≤ (rows t).length at h3
    omega

/-- Two calls, the second with two vectors, one after the other. -/
example : OneAfterAnother (fun t => List.replicate (t + 1) (10 + t)) LPar.fresh [(1, 12), (0, 6)] ∧
    ((LPar.fresh.run (fun t => List.replicate (t + 1) (10 + t))
      ([(1, 12), (0, 6)].flatMap fun b => List.replicate b.2 b.1)).vectors : List Nat) = [11, 11, 10] := by
  refine ⟨⟨by decide, by decide, trivial⟩, by decide⟩

end Valori.Props
