import Verif.Lemmas.IvfTrainedInv

/-!
# C236: threads that insert, search, update and delete on one trained IVF index
-/

namespace Valori.Props

open Valori Valori.Spec TConc

variable {V M D : Type} [LinearOrder D] {env : IConcEnv V D} {ops : Nat → FOp V M} {s0 : TConc V M D}

/-- **C236** An id that no thread inserts, updates or deletes stays as it was in the storage, in the cache, in the list of
ids and in the lists of the clusters, at every moment. -/
theorem C236_untouched (h0 : ∀ t, s0.thr t = .start) (hs : Settled s0) (ha : Apart ops s0) (hr : Ready env s0) {id : Id}
    (hw : ∀ t, ¬ opWrites (ops t) id) (hd : ∀ t, ¬ opDeletes (ops t) id) (sched : List Nat) :
    let s := s0.run env ops sched
    s.store.get? id = s0.store.get? id ∧ s.cache.get? id = s0.cache.get? id ∧ s.ids.count id = s0.ids.count id ∧
      ∀ r, (s.content r).count id = (s0.content r).count id := by
  have h := (run_inv h0 hs ha hr sched).idle id fun t h => h.elim (hw t) (hd t)
  exact ⟨h.store, h.cache, h.ids, h.lists⟩

/-- **C236** When an insertion has returned, it has returned the ids of its rows, and each row is stored, cached and
listed once, and in the list of the cluster with the nearest centroid once, in no other list. -/
theorem C236_inserted (h0 : ∀ t, s0.thr t = .start) (hs : Settled s0) (ha : Apart ops s0) (hr : Ready env s0) {t : Nat}
    {rows : List (FRow V M)} (ho : ops t = .insert rows) {sched : List Nat} {x : FRes M D}
    (hd : (s0.run env ops sched).thr t = .done x) :
    let s := s0.run env ops sched
    x = .ids (rows.map FRow.id) ∧ ∀ r ∈ rows, s.store.get? r.id = some (r.v, r.m) ∧ s.cache.get? r.id = some r.v ∧
      s.ids.count r.id = 1 ∧ Placed s r.id (env.near s0.cents r.v) := by
  have h := run_inv h0 hs ha hr sched
  have h1 := h.thr t
  unfold AtOp at h1
  rw [ho, hd] at h1
  cases x with
  | ids l =>
    refine ⟨by rw [h1.1], fun r hrow => ?_⟩
    obtain ⟨j, hj⟩ := List.mem_iff_getElem?.1 hrow
    obtain ⟨a, b, c, d⟩ := h1.2 j r hj
    rw [h.fixed.cents] at d
    exact ⟨a, c, b, d⟩
  | _ => exact h1.elim

/-- **C236** When an update has returned, it has returned whether the id was stored at the beginning; if so, the storage
and the cache have the new vector, the id is listed once and is in the list of the cluster with the nearest
centroid once, in no other list; if not, the id is nowhere. -/
theorem C236_updated (h0 : ∀ t, s0.thr t = .start) (hs : Settled s0) (ha : Apart ops s0) (hr : Ready env s0) {t : Nat}
    {id : Id} {v : V} {m : Option M} (ho : ops t = .update id v m) {sched : List Nat} {x : FRes M D}
    (hd : (s0.run env ops sched).thr t = .done x) :
    let s := s0.run env ops sched
    x = .flag (s0.store.get? id).isSome ∧
      ((s0.store.get? id).isSome → s.store.get? id = some (v, m) ∧ s.cache.get? id = some v ∧ s.ids.count id = 1 ∧
        Placed s id (env.near s0.cents v)) ∧
      (s0.store.get? id = none → Gone s id) := by
  have h := run_inv h0 hs ha hr sched
  have h1 := h.thr t
  unfold AtOp at h1
  rw [ho, hd] at h1
  cases x with
  | flag b =>
    cases b with
    | true =>
      obtain ⟨⟨a, b, c⟩, d, e⟩ := h1
      refine ⟨by rw [a], fun _ => ⟨b, d, ?_, by rw [← h.fixed.cents]; exact e⟩, fun h' => ?_⟩
      · rw [c, hs.ids, if_pos a]
      · rw [h'] at a; cases a
    | false =>
      obtain ⟨a, e⟩ := h1
      exact ⟨by rw [a]; rfl, (fun h' => by rw [a] at h'; cases h'), fun _ => (hs.gone a).same e⟩
  | _ => exact h1.elim

/-- **C236** When a deletion has returned, its ids are nowhere any more, and it has returned `True` exactly if they were
different and all stored at the beginning. -/
theorem C236_deleted (h0 : ∀ t, s0.thr t = .start) (hs : Settled s0) (ha : Apart ops s0) (hr : Ready env s0) {t : Nat}
    {l : List Id} (ho : ops t = .delete l) {sched : List Nat} {x : FRes M D}
    (hd : (s0.run env ops sched).thr t = .done x) :
    let s := s0.run env ops sched
    (∀ id ∈ l, Gone s id) ∧ ∃ ok, x = .flag ok ∧ (ok = true ↔ l.Nodup ∧ ∀ id ∈ l, (s0.store.get? id).isSome) := by
  have h1 := (run_inv h0 hs ha hr sched).thr t
  unfold AtOp at h1
  rw [ho, hd] at h1
  cases x with
  | flag ok => exact ⟨h1.1, ok, rfl, h1.2⟩
  | _ => exact h1.elim

/-- **C236** When all threads that touch ids have returned, the index is at rest again, with as many clusters as
before. -/
theorem C236_at_rest (h0 : ∀ t, s0.thr t = .start) (hs : Settled s0) (ha : Apart ops s0) (hr : Ready env s0)
    {sched : List Nat} (hd : ∀ t id, opTouches (ops t) id → ∃ x, (s0.run env ops sched).thr t = .done x) :
    Settled (s0.run env ops sched) ∧ Ready env (s0.run env ops sched) ∧
      (s0.run env ops sched).clusters = s0.clusters ∧ (s0.run env ops sched).cents = s0.cents := by
  have h := run_inv h0 hs ha hr sched
  generalize hst : s0.run env ops sched = s at h hd
  have still : ∀ {id}, Same id s0 s → s.cache.get? id = (s.store.get? id).map Prod.fst ∧
      (s.ids.count id = if (s.store.get? id).isSome then 1 else 0) ∧
      ((s.store.get? id).isSome → ∃ k, Placed s id k) ∧ (s.store.get? id = none → Nowhere s id) := by
    intro id e
    rw [e.store, e.cache, e.ids]
    refine ⟨hs.agree id, hs.ids id, fun h' => ?_, fun h' => (hs.absent id h').same e⟩
    obtain ⟨k, hk⟩ := hs.placed id h'
    exact ⟨k, hk.same e h.fixed.clusters⟩
  have written : ∀ {id v m k}, s.store.get? id = some (v, m) → s.cache.get? id = some v → s.ids.count id = 1 →
      Placed s id k → s.cache.get? id = (s.store.get? id).map Prod.fst ∧
      (s.ids.count id = if (s.store.get? id).isSome then 1 else 0) ∧
      ((s.store.get? id).isSome → ∃ k, Placed s id k) ∧ (s.store.get? id = none → Nowhere s id) := by
    intro id v m k a b c d
    rw [a, b, c]
    exact ⟨rfl, rfl, fun _ => ⟨k, d⟩, fun h' => by cases h'⟩
  have away : ∀ {id}, Gone s id → s.cache.get? id = (s.store.get? id).map Prod.fst ∧
      (s.ids.count id = if (s.store.get? id).isSome then 1 else 0) ∧
      ((s.store.get? id).isSome → ∃ k, Placed s id k) ∧ (s.store.get? id = none → Nowhere s id) := by
    intro id g
    rw [g.store, g.cache, g.ids]
    exact ⟨rfl, rfl, (fun h' => by cases h'), fun _ => g.lists⟩
  have all : ∀ id, s.cache.get? id = (s.store.get? id).map Prod.fst ∧
      (s.ids.count id = if (s.store.get? id).isSome then 1 else 0) ∧
      ((s.store.get? id).isSome → ∃ k, Placed s id k) ∧ (s.store.get? id = none → Nowhere s id) := by
    intro id
    by_cases ht : ∃ t, opTouches (ops t) id
    · obtain ⟨t, ht⟩ := ht
      obtain ⟨x, hx⟩ := hd t id ht
      rw [← hst] at hx
      cases ho : ops t with
      | insert rows =>
        have hid : id ∈ rows.map FRow.id := by rw [ho] at ht; exact ht.elim (fun h => h) (fun h => h.elim)
        obtain ⟨r, hrow, rfl⟩ := List.mem_map.1 hid
        obtain ⟨a, b, c, d⟩ := (C236_inserted h0 hs ha hr ho hx).2 r hrow
        rw [hst] at a b c d
        exact written a b c d
      | search q k => rw [ho] at ht; exact (ht.elim (fun h => h) (fun h => h)).elim
      | update i v m =>
        have hid : id = i := by rw [ho] at ht; exact ht.elim (fun h => h) (fun h => h.elim)
        subst hid
        obtain ⟨_, h2, h3⟩ := C236_updated h0 hs ha hr ho hx
        rw [hst] at h2 h3
        cases hz : s0.store.get? id with
        | none => exact away (h3 hz)
        | some y =>
          obtain ⟨a, b, c, d⟩ := h2 (by rw [hz]; rfl)
          exact written a b c d
      | delete l =>
        have hid : id ∈ l := by rw [ho] at ht; exact ht.elim (fun h => h.elim) (fun h => h)
        have h2 := (C236_deleted h0 hs ha hr ho hx).1 id hid
        rw [hst] at h2
        exact away h2
    · exact still (h.idle id fun t h' => ht ⟨t, h'⟩)
  exact ⟨⟨h.storeKeys, h.cacheKeys, fun id => (all id).1, fun id => (all id).2.1, fun id => (all id).2.2.1,
    fun id => (all id).2.2.2⟩, hr.fixed h.fixed, h.fixed.clusters, h.fixed.cents⟩

end Valori.Props
