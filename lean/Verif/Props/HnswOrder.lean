import Verif.Props.HnswConcCases

/-!
# C243: calls on an HNSW index that keep out of each other's way leave the same vectors in whatever order, but not the
same graph
-/

namespace Valori.Props
open Valori Spec GConc
variable {V M D : Type} [LinearOrder D] {env : HParEnv V D} {ops : Nat → FOp V M} {s0 : GConc V M D}

/-- **C243**, HNSW (partial: the graph, and with it the answers of searches, may differ, see `C243_hnsw_refuted`): two
executions in which all insertions, updates and deletions have ended without raising leave the same vectors and metadata
in the storage and in the index. -/
theorem C243_hnsw_partial (h0 : ∀ t, s0.thr t = .start) (hk : KeysOnce s0) (hc : NoClash ops) {sched sched' : List Nat}
    (hd : ∀ t, (∀ q k, ops t ≠ .search q k) → ∃ r, (s0.run env ops sched).thr t = .done r ∧ r ≠ .raised)
    (hd' : ∀ t, (∀ q k, ops t ≠ .search q k) → ∃ r, (s0.run env ops sched').thr t = .done r ∧ r ≠ .raised) (id : Id) :
    (s0.run env ops sched').store.get? id = (s0.run env ops sched).store.get? id ∧
      (s0.run env ops sched').vectors.get? id = (s0.run env ops sched).vectors.get? id := by
  by_cases hw : ∃ t, opWrites (ops t) id
  · obtain ⟨t, ht⟩ := hw
    have hx := hc.apart t id ht
    cases ho : ops t with
    | insert rows =>
      rw [ho] at ht
      obtain ⟨x, hxm, rfl⟩ := List.mem_map.1 ht
      obtain ⟨j, hj⟩ := List.mem_iff_getElem?.1 hxm
      have hq : ∀ y ∈ rows, ¬ OthersTouch ops t y.id := fun y hy =>
        hc.apart t y.id (by rw [ho]; exact List.mem_map.2 ⟨y, hy, rfl⟩)
      obtain ⟨r, hr1, hr2⟩ := hd t (by intro q k h; rw [ho] at h; cases h)
      obtain ⟨r', hr1', hr2'⟩ := hd' t (by intro q k h; rw [ho] at h; cases h)
      obtain ⟨a1, a2, -⟩ := (C235_inserted h0 ho (hc.rows t rows ho) hq hr1 hr2).2 j x hj
      obtain ⟨b1, b2, -⟩ := (C235_inserted h0 ho (hc.rows t rows ho) hq hr1' hr2').2 j x hj
      exact ⟨b1.trans a1.symm, b2.trans a2.symm⟩
    | update y v m =>
      rw [ho] at ht
      cases ht
      obtain ⟨r, hr1, -⟩ := hd t (by intro q k h; rw [ho] at h; cases h)
      obtain ⟨r', hr1', -⟩ := hd' t (by intro q k h; rw [ho] at h; cases h)
      obtain ⟨-, a1, a2, a3⟩ := C235_updated (env := env) h0 ho hx hr1
      obtain ⟨-, b1, b2, b3⟩ := C235_updated (env := env) h0 ho hx hr1'
      refine ⟨b1.trans a1.symm, ?_⟩
      cases he : s0.store.get? id with
      | none => exact (b3 he).trans (a3 he).symm
      | some y => exact (b2 (by rw [he]; rfl)).trans (a2 (by rw [he]; rfl)).symm
    | search q k => rw [ho] at ht; exact ht.elim
    | delete l => rw [ho] at ht; exact ht.elim
  · have hw' : ∀ t, ¬ opWrites (ops t) id := fun t h => hw ⟨t, h⟩
    by_cases hdl : ∃ t, opDeletes (ops t) id
    · obtain ⟨t, ht⟩ := hdl
      cases ho : ops t with
      | delete l =>
        rw [ho] at ht
        obtain ⟨r, hr1, hr2⟩ := hd t (by intro q k h; rw [ho] at h; cases h)
        obtain ⟨r', hr1', hr2'⟩ := hd' t (by intro q k h; rw [ho] at h; cases h)
        obtain ⟨a1, a2, -⟩ := C235_deleted (env := env) h0 hk ho hr1 hr2 ht hw'
        obtain ⟨b1, b2, -⟩ := C235_deleted (env := env) h0 hk ho hr1' hr2' ht hw'
        exact ⟨b1.trans a1.symm, b2.trans a2.symm⟩
      | insert rows => rw [ho] at ht; exact ht.elim
      | search q k => rw [ho] at ht; exact ht.elim
      | update i v m => rw [ho] at ht; exact ht.elim
    · obtain ⟨a1, a2, -⟩ := C235_untouched (env := env) (s0 := s0) hw' (fun t h => hdl ⟨t, h⟩) sched
      obtain ⟨b1, b2, -⟩ := C235_untouched (env := env) (s0 := s0) hw' (fun t h => hdl ⟨t, h⟩) sched'
      exact ⟨b1.trans a1.symm, b2.trans a2.symm⟩

/-- An initialised index without vectors. -/
def emptyG : GConc Nat Nat Nat := ⟨[], [], 0, [], [[]], 0, fun _ => .start⟩

def twoRowsG : Nat → FOp Nat Nat
  | 0 => .insert [⟨"a", 10, none⟩]
  | 1 => .insert [⟨"b", 20, none⟩]
  | _ => .search 12 1

/-- With `m = 1`: `random.sample` picks one node of the level, which may be the new one itself. -/
def lastHPar : HParEnv Nat Nat := { exHPar [] 1 with rnd := fun _ _ => ⟨0, fun _ l => l.drop (l.length - 1)⟩ }

theorem twoRowsG_apart : NoClash twoRowsG ∧ KeysOnce emptyG := by
  have hw : ∀ t id, (opWrites (twoRowsG t) id ∨ opDeletes (twoRowsG t) id) → (t = 0 ∧ id = "a") ∨ (t = 1 ∧ id = "b") := by
    intro t id h
    rcases t with _ | _ | t <;> simpa [twoRowsG, opWrites, opDeletes] using h
  refine ⟨⟨fun t rows h => ?_, fun t id h ⟨t', hne, h'⟩ => ?_⟩, by decide, by decide, by decide⟩
  · rcases t with _ | _ | t <;> simp only [twoRowsG] at h <;> cases h <;> decide
  · rcases hw t id (.inl h) with ⟨rfl, rfl⟩ | ⟨rfl, rfl⟩ <;> rcases hw t' _ h' with ⟨rfl, e⟩ | ⟨rfl, e⟩ <;>
      first | exact hne rfl | exact absurd e (by decide)

/-- The hypotheses of `C243_hnsw_partial` are met, with both rows in both indices and different graphs. -/
example :
    let a := emptyG.run (exHPar [] 2) twoRowsG ((List.replicate 20 [0, 1, 2]).flatten)
    let b := emptyG.run (exHPar [] 2) twoRowsG (List.replicate 20 1 ++ List.replicate 20 0)
    (∀ t, (∀ q k, twoRowsG t ≠ .search q k) → ∃ r, a.thr t = .done r ∧ r ≠ .raised) ∧
    (∀ t, (∀ q k, twoRowsG t ≠ .search q k) → ∃ r, b.thr t = .done r ∧ r ≠ .raised) ∧
    a.vectors = [("a", 10), ("b", 20)] ∧ b.vectors = [("b", 20), ("a", 10)] ∧ a.levels ≠ b.levels := by
  refine ⟨fun t h => ?_, fun t h => ?_, by decide +kernel, by decide +kernel, by decide +kernel⟩
  · rcases t with _ | _ | t
    · exact ⟨.ids ["a"], by decide +kernel, by decide⟩
    · exact ⟨.ids ["b"], by decide +kernel, by decide⟩
    · exact absurd rfl (h 12 1)
  · rcases t with _ | _ | t
    · exact ⟨.ids ["a"], by decide +kernel, by decide⟩
    · exact ⟨.ids ["b"], by decide +kernel, by decide⟩
    · exact absurd rfl (h 12 1)

/-- **C243 (refuted), HNSW.** Two threads insert one row each, one after the other; which is first decides what later
searches give, with the same random numbers. -/
theorem C243_hnsw_refuted :
    let a := emptyG.run lastHPar twoRowsG (List.replicate 20 0 ++ List.replicate 20 1)
    let b := emptyG.run lastHPar twoRowsG (List.replicate 20 1 ++ List.replicate 20 0)
    a.thr 0 = .done (.ids ["a"]) ∧ a.thr 1 = .done (.ids ["b"]) ∧ b.thr 0 = .done (.ids ["a"]) ∧
    b.thr 1 = .done (.ids ["b"]) ∧
    (a.run lastHPar twoRowsG (List.replicate 20 2)).thr 2 = .done (.hits [⟨"a", 2, none⟩]) ∧
    (b.run lastHPar twoRowsG (List.replicate 20 2)).thr 2 = .done (.hits [⟨"b", 8, none⟩]) := by
  decide +kernel

end Valori.Props
