import Verif.Props.IvfTrained
import Verif.Props.IvfTrainedCases

/-!
# C243: calls on a trained IVF index that keep out of each other's way leave the same index in whatever order
-/

namespace Valori.Props
open Valori Valori.TConc

variable {V M D : Type} [LinearOrder D] {env : IConcEnv V D} {ops : Nat → FOp V M} {s0 : TConc V M D}

theorem gone_sameT {a b : TConc V M D} {id : Id} (h : Gone a id) (h' : Gone b id) : Same id a b :=
  ⟨h'.store.trans h.store.symm, h'.cache.trans h.cache.symm, h'.ids.trans h.ids.symm, fun r => by
    rw [List.count_eq_zero.2 (h.lists r), List.count_eq_zero.2 (h'.lists r)]⟩

theorem placed_sameT {a b : TConc V M D} {id : Id} {k : Nat} (hc : b.clusters = a.clusters) (h : Placed a id k)
    (h' : Placed b id k) (r : Nat) : (b.content r).count id = (a.content r).count id := by
  obtain ⟨o, h1, h2⟩ := h
  obtain ⟨o', h1', h2'⟩ := h'
  rw [hc, h1, Option.some.injEq] at h1'
  subst h1'
  rw [h2, h2']

theorem same_everywhereT (h0 : ∀ t, s0.thr t = .start) (hs : Settled s0) (ha : Apart ops s0) (hr : Ready env s0)
    {sched sched' : List Nat} (hd : ∀ t id, opTouches (ops t) id → ∃ x, (s0.run env ops sched).thr t = .done x)
    (hd' : ∀ t id, opTouches (ops t) id → ∃ x, (s0.run env ops sched').thr t = .done x) (id : Id) :
    Same id (s0.run env ops sched) (s0.run env ops sched') := by
  have hc : (s0.run env ops sched').clusters = (s0.run env ops sched).clusters :=
    (C236_at_rest h0 hs ha hr hd').2.2.1.trans (C236_at_rest h0 hs ha hr hd).2.2.1.symm
  by_cases hn : ∃ t, opTouches (ops t) id
  · obtain ⟨t, ht⟩ := hn
    obtain ⟨x, hx⟩ := hd t id ht
    obtain ⟨x', hx'⟩ := hd' t id ht
    cases ho : ops t with
    | insert rows =>
      rw [ho] at ht
      simp only [opTouches, opWrites, opDeletes, or_false] at ht
      obtain ⟨r, hr1, rfl⟩ := List.mem_map.1 ht
      obtain ⟨a1, a2, a3, a4⟩ := (C236_inserted h0 hs ha hr ho hx).2 r hr1
      obtain ⟨b1, b2, b3, b4⟩ := (C236_inserted h0 hs ha hr ho hx').2 r hr1
      exact ⟨b1.trans a1.symm, b2.trans a2.symm, b3.trans a3.symm, placed_sameT hc a4 b4⟩
    | search q k => rw [ho] at ht; rcases ht with h | h <;> exact h.elim
    | update y v m =>
      rw [ho] at ht
      have ht : id = y := by simpa [opTouches, opWrites, opDeletes] using ht
      subst ht
      obtain ⟨-, a1, a2⟩ := C236_updated h0 hs ha hr ho hx
      obtain ⟨-, b1, b2⟩ := C236_updated h0 hs ha hr ho hx'
      by_cases he : (s0.store.get? id).isSome
      · obtain ⟨a1, a2, a3, a4⟩ := a1 he
        obtain ⟨b1, b2, b3, b4⟩ := b1 he
        exact ⟨b1.trans a1.symm, b2.trans a2.symm, b3.trans a3.symm, placed_sameT hc a4 b4⟩
      · have he : s0.store.get? id = none := by simpa using he
        exact gone_sameT (a2 he) (b2 he)
    | delete l =>
      rw [ho] at ht
      have ht : id ∈ l := by simpa [opTouches, opWrites, opDeletes] using ht
      exact gone_sameT ((C236_deleted h0 hs ha hr ho hx).1 id ht) ((C236_deleted h0 hs ha hr ho hx').1 id ht)
  · have hw : ∀ t, ¬ opWrites (ops t) id := fun t h => hn ⟨t, .inl h⟩
    have hdl : ∀ t, ¬ opDeletes (ops t) id := fun t h => hn ⟨t, .inr h⟩
    obtain ⟨a1, a2, a3, a4⟩ := C236_untouched h0 hs ha hr hw hdl sched
    obtain ⟨b1, b2, b3, b4⟩ := C236_untouched h0 hs ha hr hw hdl sched'
    exact ⟨b1.trans a1.symm, b2.trans a2.symm, b3.trans a3.symm, fun r => (b4 r).trans (a4 r).symm⟩

/-- **C243**, trained IVF: two executions in which all insertions, updates and deletions have ended leave the same vectors
and metadata in the storage and in the cache, the same ids, and the same ids in every cluster. -/
theorem C243_ivf (h0 : ∀ t, s0.thr t = .start) (hs : Settled s0) (ha : Apart ops s0) (hr : Ready env s0)
    {sched sched' : List Nat} (hd : ∀ t id, opTouches (ops t) id → ∃ x, (s0.run env ops sched).thr t = .done x)
    (hd' : ∀ t id, opTouches (ops t) id → ∃ x, (s0.run env ops sched').thr t = .done x) :
    let a := s0.run env ops sched
    let b := s0.run env ops sched'
    (∀ id, b.store.get? id = a.store.get? id ∧ b.cache.get? id = a.cache.get? id) ∧ b.ids.Perm a.ids ∧
      b.cents = a.cents ∧ b.clusters = a.clusters ∧ ∀ r, (b.content r).Perm (a.content r) := by
  have h := same_everywhereT h0 hs ha hr hd hd'
  obtain ⟨-, -, c1, c2⟩ := C236_at_rest h0 hs ha hr hd
  obtain ⟨-, -, c1', c2'⟩ := C236_at_rest h0 hs ha hr hd'
  exact ⟨fun id => ⟨(h id).store, (h id).cache⟩, List.perm_iff_count.2 fun id => (h id).ids, c2'.trans c2.symm,
    c1'.trans c1.symm, fun r => List.perm_iff_count.2 fun id => (h id).lists r⟩

/-- **C243**, trained IVF: insertions, updates and deletions also return the same. -/
theorem C243_ivf_replies (h0 : ∀ t, s0.thr t = .start) (hs : Settled s0) (ha : Apart ops s0) (hr : Ready env s0)
    {sched sched' : List Nat} {t : Nat} (hq : ∀ q k, ops t ≠ .search q k) {x x' : FRes M D}
    (hx : (s0.run env ops sched).thr t = .done x) (hx' : (s0.run env ops sched').thr t = .done x') : x = x' := by
  cases ho : ops t with
  | search q k => exact absurd ho (hq q k)
  | insert rows => rw [(C236_inserted h0 hs ha hr ho hx).1, (C236_inserted h0 hs ha hr ho hx').1]
  | update id v m => rw [(C236_updated h0 hs ha hr ho hx).1, (C236_updated h0 hs ha hr ho hx').1]
  | delete l =>
    obtain ⟨-, ok, e, h⟩ := C236_deleted h0 hs ha hr ho hx
    obtain ⟨-, ok', e', h'⟩ := C236_deleted h0 hs ha hr ho hx'
    have : ok = ok' := by rw [Bool.eq_iff_iff, h, h']
    rw [e, e', this]

/-- The calls of `fourOps` in turns and one after the other: all have ended in both, the lists have the same ids in another
order. -/
example :
    let a := run ivfEndsC fourOps fourT turnsT
    let b := run ivfEndsC fourOps fourT (List.replicate 40 0 ++ List.replicate 40 1 ++ List.replicate 40 2)
    a.thr 0 = .done (.ids ["e", "f"]) ∧ b.thr 0 = .done (.ids ["e", "f"]) ∧ b.thr 1 = .done (.flag true) ∧
      b.thr 2 = .done (.flag true) ∧ a.lists = [["d", "f"], ["c", "b", "e"]] ∧ b.lists = [["d", "f"], ["c", "e", "b"]] := by
  decide +kernel

end Valori.Props
