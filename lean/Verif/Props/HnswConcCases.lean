import Verif.Props.HnswConc
import Verif.Props.HnswPar

/-!
# C234, C235: what goes wrong on one HNSW index, and cases of the theorems
-/

namespace Valori.Props
open Valori Spec GConc
variable {V M D : Type} [LinearOrder D]

/-- Three vectors in one level; `a` and `b` are linked. -/
def threeIn : GConc Nat Nat Nat where
  store := [("a", (0, some 1)), ("b", (5, none)), ("c", (9, none))]
  vectors := [("a", 0), ("b", 5), ("c", 9)]
  count := 3
  lists := [["b"], ["a"], []]
  levels := [[("a", 0), ("b", 1), ("c", 2)]]
  maxLevel := 0
  thr := fun _ => .start

theorem threeIn_rest : AtRest threeIn := by
  refine ⟨fun id => ?_, fun l id h => ?_, by simp [threeIn], ⟨by decide, by decide, by decide⟩⟩
  · simp only [threeIn, Dict.get?]
    split_ifs <;> rfl
  · cases l with
    | zero =>
      simp only [nodeRef, threeIn, Dict.get?, List.getElem?_cons_zero, Option.bind_some] at h ⊢
      split_ifs at h ⊢ <;> first | rfl | exact h
    | succ l => simp [nodeRef, threeIn] at h

/-! ## A search raises beside a deletion -/

def deleteAndSearch : Nat → FOp Nat Nat
  | 0 => .delete ["a"]
  | _ => .search 0 2

/-- **C234** A search beside a deletion may raise although there is nothing wrong with either call: the vector is
looked up in the storage after it has been taken out of it, or in the index after it has been tested to be there. -/
theorem C234_search_raises_refuted :
    ∃ sched₁ sched₂ : List Nat,
      (threeIn.run (exHPar [] 2) deleteAndSearch sched₁).thr 1 = .done .raised ∧
      (threeIn.run (exHPar [] 2) deleteAndSearch sched₁).thr 0 = .done (.flag true) ∧
      (threeIn.run (exHPar [] 2) deleteAndSearch sched₂).thr 1 = .done .raised ∧
      (threeIn.run (exHPar [] 2) deleteAndSearch sched₂).thr 0 = .done (.flag true) := by
  refine ⟨List.replicate 14 1 ++ List.replicate 20 0 ++ List.replicate 10 1,
    List.replicate 7 1 ++ List.replicate 20 0 ++ List.replicate 10 1, ?_⟩
  decide +kernel

/-- The same calls one after the other. -/
example : (threeIn.run (exHPar [] 2) deleteAndSearch (List.replicate 20 1)).thr 1 =
    .done (.hits [⟨"a", 0, some 1⟩, ⟨"b", 5, none⟩]) := by decide +kernel

/-- A case of `C234_search_sound_partial`: `a`, deleted before the search returns, is among the results. -/
example : let sched := List.replicate 15 1 ++ List.replicate 20 0 ++ List.replicate 10 1
    (threeIn.run (exHPar [] 2) deleteAndSearch sched).thr 1 =
      .done (.hits [⟨"a", 0, some 1⟩, ⟨"b", 5, none⟩]) ∧
    (threeIn.run (exHPar [] 2) deleteAndSearch sched).thr 0 = .done (.flag true) := by decide +kernel

/-! ## Two deletions break the index -/

def deleteTwo : Nat → FOp Nat Nat
  | 0 => .delete ["a"]
  | 1 => .delete ["b"]
  | _ => .search 0 1

def deleteTwoSched : List Nat := List.replicate 10 0 ++ List.replicate 20 1 ++ [0]

theorem done_stays {env : HParEnv V D} {q : V} {k : Int} {s : GConc V M D} (r : FRes M D) (n : Nat) :
    (nextAlone env q k s)^[n] (.done r) = .done r := by
  induction n with
  | zero => rfl
  | succ n ih => rw [Function.iterate_succ_apply']; rw [ih]; rfl

/-- **C235** If the first node of the level from which searches start has no vector, no search ever gives an answer,
whatever the query, the number of results and the distance. -/
theorem C235_broken_entry {env : HParEnv V D} {ops : Nat → FOp V M} {s : GConc V M D} {t : Nat} {q : V} {k : Int}
    (ho : ops t = .search q k) (ht : s.thr t = .start) (hv : s.vectors ≠ []) {a : Id} {r : Nat} {d : Dict Id Nat}
    (hl : s.levels[min s.maxLevel (s.levels.length - 1)]? = some ((a, r) :: d)) (ha : s.vectors.get? a = none) :
    (∀ n l, (s.run env ops (List.replicate n t)).thr t ≠ .done (.hits l)) ∧
    (∀ n ≥ 8, (s.run env ops (List.replicate n t)).thr t = .done .raised) := by
  have h8 : (nextAlone env q k s)^[8] (.start : GAt M D) = .done .raised := by
    have hne : s.vectors.isEmpty = false := by
      cases h : s.vectors with
      | nil => exact absurd h hv
      | cons x xs => rfl
    simp [Function.iterate_succ_apply', nextAlone, hne, stepSr, hl, ha]
  constructor
  · intro n l h
    rw [alone_run ho, ht] at h
    simp only [Function.update_self] at h
    rcases Nat.le_total n 8 with hn | hn
    · obtain ⟨m, hm⟩ : ∃ m, 8 = m + n := ⟨8 - n, by omega⟩
      rw [hm, Function.iterate_add_apply, h, done_stays] at h8
      cases h8
    · obtain ⟨m, rfl⟩ := Nat.exists_eq_add_of_le' hn
      rw [Function.iterate_add_apply, h8, done_stays] at h
      cases h
  · intro n hn
    rw [alone_run ho, ht]
    simp only [Function.update_self]
    obtain ⟨m, rfl⟩ := Nat.exists_eq_add_of_le' hn
    rw [Function.iterate_add_apply, h8, done_stays]

/-- **C235** Two threads delete two linked vectors of an index at rest: one of the calls raises KeyError and leaves a
node without vector, and from then on every search raises, whatever the query and `k`, although `c` is in the
storage and in the index and nobody has touched it. -/
theorem C235_two_deletions_refuted :
    let e := threeIn.run (exHPar [] 2) deleteTwo deleteTwoSched
    AtRest threeIn ∧ e.thr 0 = .done .raised ∧ e.thr 1 = .done (.flag true) ∧
    e.store = [("c", (9, none))] ∧ e.vectors = [("c", 9)] ∧
    ∀ (q : Nat) (k : Int) (ops : Nat → FOp Nat Nat), ops 2 = .search q k →
      (∀ n l, (e.run (exHPar [] 2) ops (List.replicate n 2)).thr 2 ≠ .done (.hits l)) ∧
      ∀ n ≥ 8, (e.run (exHPar [] 2) ops (List.replicate n 2)).thr 2 = .done .raised := by
  intro e
  refine ⟨threeIn_rest, by decide +kernel, by decide +kernel, by decide +kernel, by decide +kernel, ?_⟩
  intro q k ops ho
  have h1 : e.levels[min e.maxLevel (e.levels.length - 1)]? = some [("a", 0), ("c", 2)] := by decide +kernel
  exact C235_broken_entry ho (by decide +kernel) (by decide +kernel) h1 (by decide +kernel)

/-! ## An update beside a deletion -/

def updateAndDelete : Nat → FOp Nat Nat
  | 0 => .update "a" 3 none
  | 1 => .delete ["a"]
  | _ => .search 0 1

/-- **C235** An update and a deletion of the same id both return `True`, and the index keeps a vector for an id that
is not stored. -/
theorem C235_update_beside_delete_refuted :
    ∃ sched, let e := threeIn.run (exHPar [] 2) updateAndDelete sched
      e.thr 0 = .done (.flag true) ∧ e.thr 1 = .done (.flag true) ∧
      e.store.get? "a" = none ∧ e.vectors.get? "a" = some 3 ∧ e.count = 2 ∧ e.vectors.length = 3 :=
  ⟨List.replicate 2 0 ++ List.replicate 20 1 ++ [0], by decide +kernel⟩

/-- The other way round: the update comes first altogether, and nothing is left. -/
example : let e := threeIn.run (exHPar [] 2) updateAndDelete (List.replicate 3 0 ++ List.replicate 20 1)
    e.thr 0 = .done (.flag true) ∧ e.thr 1 = .done (.flag true) ∧ e.store.get? "a" = none ∧
    e.vectors.get? "a" = none := by decide +kernel

/-! ## An insertion beside a deletion -/

def insertAndDelete : Nat → FOp Nat Nat
  | 0 => .insert [⟨"d", 7, some 4⟩, ⟨"e", 8, none⟩]
  | 1 => .delete ["a"]
  | _ => .search 7 1

/-- **C235** An insertion raises because a vector it chose as a neighbour has been deleted; its first row stays in the
storage and in the index under an id that the caller never learns, its second row is not there. -/
theorem C235_insert_beside_delete_refuted :
    ∃ sched, let e := threeIn.run (exHPar [] 2) insertAndDelete sched
      e.thr 0 = .done .raised ∧ e.thr 1 = .done (.flag true) ∧
      e.store.get? "d" = some (7, some 4) ∧ e.vectors.get? "d" = some 7 ∧ (e.nodeRef 0 "d").isSome ∧
      e.store.get? "e" = none :=
  ⟨List.replicate 11 0 ++ List.replicate 20 1 ++ List.replicate 30 0, by decide +kernel⟩

/-! ## Cases of the theorems -/

theorem insertAndDelete_noClash : NoClash insertAndDelete := by
  refine ⟨fun t rows h => ?_, fun t id h => ?_⟩
  · rcases t with _ | _ | t <;> simp only [insertAndDelete, reduceCtorEq] at h
    cases h; decide
  · rcases t with _ | _ | t
    · rintro ⟨t', ht, hx⟩
      rcases t' with _ | _ | t'
      · exact ht rfl
      · rcases hx with hx | hx
        · exact hx
        · simp only [insertAndDelete, opDeletes, opWrites, List.mem_singleton] at hx h
          subst hx; simp at h
      · rcases hx with hx | hx <;> exact hx
    · exact h.elim
    · exact h.elim

/-- A schedule in which the deletion comes between the two rows of the insertion. -/
def betweenRows : List Nat := List.replicate 20 0 ++ List.replicate 20 1 ++ List.replicate 60 0

/-- A case of `C235_at_rest`, `C235_inserted`, `C235_deleted` and `C235_untouched`. -/
example : let e := threeIn.run (exHPar [] 2) insertAndDelete betweenRows
    e.thr 0 = .done (.ids ["d", "e"]) ∧ e.thr 1 = .done (.flag true) ∧
    e.vectors = [("b", 5), ("c", 9), ("d", 7), ("e", 8)] ∧ AtRest e := by
  intro e
  have h1 : e.thr 0 = .done (.ids ["d", "e"]) := by decide +kernel
  have h2 : e.thr 1 = .done (.flag true) := by decide +kernel
  refine ⟨h1, h2, by decide +kernel, C235_at_rest (fun _ => rfl) threeIn_rest insertAndDelete_noClash ?_⟩
  intro t ht
  rcases t with _ | _ | t
  · refine ⟨.ids ["d", "e"], ?_, by simp⟩; decide +kernel
  · refine ⟨.flag true, ?_, by simp⟩; decide +kernel
  · exact absurd rfl (ht 7 1)

/-- A case of `C235_later_search`: the rows inserted are found. -/
example : (threeIn.run (exHPar [] 2) insertAndDelete (betweenRows ++ List.replicate 40 2)).thr 2 =
    .done (.hits [⟨"d", 0, some 4⟩]) := by decide +kernel

/-- A case of `C235_updated`: an update beside a deletion of another id. -/
example :
    let ops : Nat → FOp Nat Nat := fun t => if t = 0 then .update "a" 3 none else .delete ["b"]
    let e := threeIn.run (exHPar [] 2) ops ([0] ++ List.replicate 20 1 ++ [0, 0])
    e.thr 0 = .done (.flag true) ∧ e.vectors = [("a", 3), ("c", 9)] ∧ e.store.get? "a" = some (3, none) := by
  decide +kernel

end Valori.Props
