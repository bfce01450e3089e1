import Verif.Props.IvfTrained
import Verif.Props.IvfTrainedSearch
import Verif.Props.IvfConc

/-!
# C236 and C237: cases, and what goes wrong
-/

namespace Valori.Props

open Valori Valori.Spec TConc

/-- Four vectors, centres 0 and 100. -/
def fourT : TConc Nat Nat Nat :=
  { store := [("a", (5, none)), ("b", (18, some 1)), ("d", (12, none)), ("c", (95, none))]
    ids := ["a", "b", "d", "c"]
    cache := [("a", 5), ("b", 18), ("d", 12), ("c", 95)]
    count := 4
    cents := [0, 100]
    lists := [["a", "b", "d"], ["c"]]
    clusters := [(0, 0), (1, 1)]
    thr := fun _ => .start }

theorem fourT_settled : Settled fourT := by
  have hc : ∀ r, fourT.content (r + 2) = [] := fun r => by simp [content, fourT]
  have h0 : fourT.content 0 = ["a", "b", "d"] := rfl
  have h1 : fourT.content 1 = ["c"] := rfl
  refine ⟨by decide, by decide, fun id => ?_, fun id => ?_, fun id h => ?_, fun id h => ?_⟩
  all_goals
    by_cases ea : id = "a"
    · subst ea
      first
        | decide
        | (refine ⟨0, 0, by decide, fun r => ?_⟩
           rcases r with _ | _ | r <;> [simp [h0]; simp [h1]; simp [hc]])
        | exact absurd h (by decide)
    by_cases eb : id = "b"
    · subst eb
      first
        | decide
        | (refine ⟨0, 0, by decide, fun r => ?_⟩
           rcases r with _ | _ | r <;> [simp [h0]; simp [h1]; simp [hc]])
        | exact absurd h (by decide)
    by_cases ed : id = "d"
    · subst ed
      first
        | decide
        | (refine ⟨0, 0, by decide, fun r => ?_⟩
           rcases r with _ | _ | r <;> [simp [h0]; simp [h1]; simp [hc]])
        | exact absurd h (by decide)
    by_cases ec : id = "c"
    · subst ec
      first
        | decide
        | (refine ⟨1, 1, by decide, fun r => ?_⟩
           rcases r with _ | _ | r <;> [simp [h0]; simp [h1]; simp [hc]])
        | exact absurd h (by decide)
  · simp [fourT, Dict.get?, ea, eb, ed, ec, Ne.symm ea, Ne.symm eb, Ne.symm ed, Ne.symm ec]
  · simp [fourT, Dict.get?, ea, eb, ed, ec, Ne.symm ea, Ne.symm eb, Ne.symm ed, Ne.symm ec]
  · simp [fourT, Dict.get?, ea, eb, ed, ec, Ne.symm ea, Ne.symm eb, Ne.symm ed, Ne.symm ec] at h
  · intro r
    rcases r with _ | _ | r
    · simp [h0, ea, eb, ed]
    · simp [h1, ec]
    · simp [hc]

theorem fourT_ready : Ready ivfEndsC fourT := by
  refine ⟨fun v => ?_, fun k r h => ?_⟩
  · simp only [ivfEndsC, ivfEnds, fourT]
    split <;> decide
  · simp only [fourT, List.mem_cons, Prod.mk.injEq, List.not_mem_nil, or_false] at h
    rcases h with h | h <;> simp [fourT, h.2]

/-- Four threads: one inserts two rows, one updates, one deletes, one searches. -/
def fourOps : Nat → FOp Nat Nat
  | 0 => .insert [⟨"e", 90, none⟩, ⟨"f", 8, some 7⟩]
  | 1 => .update "b" 99 (some 2)
  | 2 => .delete ["a"]
  | 3 => .search 20 1
  | _ => .insert []

theorem fourOps_apart : Apart fourOps fourT := by
  refine ⟨fun t t' id h h' => ?_, fun t rows h => ?_, fun t id h => ?_⟩
  · rcases t with _ | _ | _ | _ | t <;> rcases t' with _ | _ | _ | _ | t' <;>
      simp [fourOps, opTouches, opWrites, opDeletes] at h h' ⊢ <;> first | (subst h; simp at h') | (subst h'; simp at h)
  · rcases t with _ | _ | _ | _ | t <;> simp only [fourOps, reduceCtorEq] at h <;> cases h <;> decide
  · rcases t with _ | _ | _ | _ | t <;> simp [fourOps, opInserts] at h
    rcases h with rfl | rfl <;> decide

/-- The four threads in turn. -/
def turnsT : List Nat := (List.replicate 30 [0, 1, 2, 3]).flatten

/-- The hypotheses of the theorems of C236 are met, and all calls return: the old vector `b` moves to the second
cluster, `a` is gone, `e` and `f` are in their clusters, `c` and `d` stay. -/
example : Settled fourT ∧ Apart fourOps fourT ∧ Ready ivfEndsC fourT ∧
    let s := run ivfEndsC fourOps fourT turnsT
    s.thr 0 = .done (.ids ["e", "f"]) ∧ s.thr 1 = .done (.flag true) ∧ s.thr 2 = .done (.flag true) ∧
      s.ids = ["b", "d", "c", "e", "f"] ∧ s.lists = [["d", "f"], ["c", "b", "e"]] ∧
      s.store.get? "b" = some (99, some 2) ∧ s.cache.get? "b" = some 99 ∧ s.store.get? "c" = some (95, none) :=
  ⟨fourT_settled, fourOps_apart, fourT_ready, by decide +kernel⟩

/-- `c` and `d` are touched by no thread, as `C236_untouched` wants. -/
example : ∀ t, ¬ opWrites (fourOps t) "d" ∧ ¬ opDeletes (fourOps t) "d" := by
  intro t
  rcases t with _ | _ | _ | _ | t <;> simp [fourOps, opWrites, opDeletes]

/-- An update of an id that is not stored, and a deletion of an id twice and of one that is not stored. -/
def absentOps : Nat → FOp Nat Nat
  | 0 => .update "x" 1 none
  | 1 => .delete ["a", "a"]
  | 2 => .delete ["b", "y"]
  | _ => .insert []

theorem absentOps_apart : Apart absentOps fourT := by
  refine ⟨fun t t' id h h' => ?_, fun t rows h => ?_, fun t id h => ?_⟩
  · rcases t with _ | _ | _ | t <;> rcases t' with _ | _ | _ | t' <;>
      simp [absentOps, opTouches, opWrites, opDeletes] at h h' ⊢ <;> first | (subst h; simp at h') | (subst h'; simp at h)
  · rcases t with _ | _ | _ | t <;> simp only [absentOps, reduceCtorEq] at h
    cases h; decide
  · rcases t with _ | _ | _ | t <;> simp [absentOps, opInserts] at h

example : Apart absentOps fourT ∧
    let s := run ivfEndsC absentOps fourT ((List.replicate 30 [0, 1, 2]).flatten)
    s.thr 0 = .done (.flag false) ∧ s.thr 1 = .done (.flag false) ∧ s.thr 2 = .done (.flag false) ∧
      s.ids = ["d", "c"] ∧ s.lists = [["d"], ["c"]] :=
  ⟨absentOps_apart, by decide +kernel⟩

/-- Insertions, updates and a search; nobody deletes. -/
def noDelete : Nat → FOp Nat Nat
  | 0 => .insert [⟨"e", 90, none⟩]
  | 1 => .update "b" 99 (some 2)
  | 3 => .search 20 5
  | _ => .insert []

theorem noDelete_apart : Apart noDelete fourT := by
  refine ⟨fun t t' id h h' => ?_, fun t rows h => ?_, fun t id h => ?_⟩
  · rcases t with _ | _ | _ | _ | t <;> rcases t' with _ | _ | _ | _ | t' <;>
      simp [noDelete, opTouches, opWrites, opDeletes] at h h' ⊢ <;> first | (subst h; simp at h') | (subst h'; simp at h)
  · rcases t with _ | _ | _ | _ | t <;> simp only [noDelete, reduceCtorEq] at h <;> cases h <;> decide
  · rcases t with _ | _ | _ | _ | t <;> simp [noDelete, opInserts] at h
    subst h; decide

/-- As `C237_answers_partial` wants. -/
example : Settled fourT ∧ Apart noDelete fourT ∧ Ready ivfEndsC fourT ∧ (∀ t id, ¬ opDeletes (noDelete t) id) ∧
    (∀ v, ∃ d, ivfEndsC.dist 20 v = .ok d) ∧
    (run ivfEndsC noDelete fourT (List.replicate 4 1 ++ (List.replicate 40 [0, 3]).flatten)).thr 3 =
      .done (.hits [⟨"d", 8, none⟩, ⟨"a", 15, none⟩, ⟨"e", 70, none⟩, ⟨"c", 75, none⟩, ⟨"b", 79, some 2⟩]) := by
  refine ⟨fourT_settled, noDelete_apart, fourT_ready, fun t id => ?_, fun v => ⟨_, rfl⟩, by decide +kernel⟩
  rcases t with _ | _ | _ | _ | t <;> simp [noDelete, opDeletes]

/-- Insertions, deletions and a search; nobody updates. -/
def noUpdate : Nat → FOp Nat Nat
  | 0 => .insert [⟨"e", 90, none⟩]
  | 2 => .delete ["a"]
  | 3 => .search 20 1
  | _ => .insert []

theorem noUpdate_apart : Apart noUpdate fourT := by
  refine ⟨fun t t' id h h' => ?_, fun t rows h => ?_, fun t id h => ?_⟩
  · rcases t with _ | _ | _ | _ | t <;> rcases t' with _ | _ | _ | _ | t' <;>
      simp [noUpdate, opTouches, opWrites, opDeletes] at h h' ⊢ <;> first | (subst h; simp at h') | (subst h'; simp at h)
  · rcases t with _ | _ | _ | _ | t <;> simp only [noUpdate, reduceCtorEq] at h <;> cases h <;> decide
  · rcases t with _ | _ | _ | _ | t <;> simp [noUpdate, opInserts] at h
    subst h; decide

/-- As `C237_once_partial` wants. -/
example : Settled fourT ∧ Apart noUpdate fourT ∧ Ready ivfEndsC fourT ∧
    (∀ c c' r, fourT.clusters.get? c = some r → fourT.clusters.get? c' = some r → c = c') ∧
    (∀ t id v m, noUpdate t ≠ .update id v m) ∧
    (run ivfEndsC noUpdate fourT ((List.replicate 40 [0, 3]).flatten)).thr 3 = .done (.hits [⟨"b", 2, some 1⟩]) := by
  refine ⟨fourT_settled, noUpdate_apart, fourT_ready, fun c c' r h h' => ?_, fun t id v m h => ?_, by decide +kernel⟩
  · rcases c with _ | _ | c <;> rcases c' with _ | _ | c' <;> simp [fourT, Dict.get?] at h h' ⊢ <;> omega
  · rcases t with _ | _ | _ | _ | t <;> simp only [noUpdate, reduceCtorEq] at h

/-! ## C237: what a search may do -/

/-- **C237 (refuted), raises.** A search finds an id in the cache; before it reads the vector another thread deletes
the id: the search raises (a KeyError, passed on as an index error), although the distances are defined and no two
threads touch the same id. -/
theorem C237_raises_refuted :
    Settled fourT ∧ Apart noUpdate fourT ∧ Ready ivfEndsC fourT ∧
    (run ivfEndsC noUpdate fourT (List.replicate 5 3 ++ List.replicate 20 2 ++ [3])).thr 3 = .done .raised :=
  ⟨fourT_settled, noUpdate_apart, fourT_ready, by decide +kernel⟩

/-- **C237 (refuted), misses.** A search of all clusters misses the nearest vector, which no thread touches: the
deletion of another id shifts the list the search walks through. -/
theorem C237_misses_refuted :
    Settled fourT ∧ Apart noUpdate fourT ∧ Ready ivfEndsC fourT ∧
    (∀ t, ¬ opWrites (noUpdate t) "b" ∧ ¬ opDeletes (noUpdate t) "b") ∧ ivfEndsC.dist 20 18 = .ok 2 ∧
    (run ivfEndsC noUpdate fourT (List.replicate 6 3 ++ List.replicate 20 2 ++ List.replicate 20 3)).thr 3 =
      .done (.hits [⟨"d", 8, none⟩]) := by
  refine ⟨fourT_settled, noUpdate_apart, fourT_ready, fun t => ?_, rfl, by decide +kernel⟩
  rcases t with _ | _ | _ | _ | t <;> simp [noUpdate, opWrites, opDeletes]

/-- **C237 (refuted), twice.** An update moves a vector that a search has already met to a cluster still to come: it
is returned twice, both times with the new metadata, once with the old distance. -/
theorem C237_twice_refuted :
    Settled fourT ∧ Apart noDelete fourT ∧ Ready ivfEndsC fourT ∧
    (run ivfEndsC noDelete fourT (List.replicate 8 3 ++ List.replicate 20 1 ++ List.replicate 20 3)).thr 3 =
      .done (.hits [⟨"b", 2, some 2⟩, ⟨"a", 15, none⟩, ⟨"c", 75, none⟩, ⟨"b", 79, some 2⟩]) :=
  ⟨fourT_settled, noDelete_apart, fourT_ready, by decide +kernel⟩

/-! ## C236: what happens without the assumptions -/

/-- An update and a deletion of the same id, and a search. -/
def updDelT : Nat → FOp Nat Nat
  | 0 => .update "a" 99 none
  | 1 => .delete ["a"]
  | 2 => .search 20 5
  | _ => .insert []

/-- **C236 (refuted), an update beside a deletion of the same id.** Both return `True`; the id is cached and in the list
of a cluster, but not stored, and every later search that comes to it raises. -/
theorem C236_update_beside_delete_refuted :
    let s := run ivfEndsC updDelT fourT ([0] ++ List.replicate 30 1 ++ List.replicate 30 0)
    s.thr 0 = .done (.flag true) ∧ s.thr 1 = .done (.flag true) ∧ s.store.get? "a" = none ∧
      s.cache.get? "a" = some 99 ∧ s.lists = [["b", "d"], ["c", "a"]] ∧ "a" ∉ s.ids ∧
      (run ivfEndsC updDelT s (List.replicate 40 2)).thr 2 = .done .raised := by
  decide +kernel

/-- Two updates of the same id, and a search. -/
def twoUpdatesT : Nat → FOp Nat Nat
  | 0 => .update "a" 99 none
  | 1 => .update "a" 98 none
  | 2 => .search 20 9
  | _ => .insert []

/-- **C236 (refuted), two updates of the same id.** Both return `True`; the id is in a list twice, and later searches
return it twice. -/
theorem C236_two_updates_refuted :
    let s := run ivfEndsC twoUpdatesT fourT (List.replicate 6 0 ++ List.replicate 30 1 ++ List.replicate 30 0)
    s.thr 0 = .done (.flag true) ∧ s.thr 1 = .done (.flag true) ∧ s.lists = [["b", "d"], ["c", "a", "a"]] ∧
      (run ivfEndsC twoUpdatesT s (List.replicate 40 2)).thr 2 =
        .done (.hits [⟨"b", 2, some 1⟩, ⟨"d", 8, none⟩, ⟨"c", 75, none⟩, ⟨"a", 78, none⟩, ⟨"a", 78, none⟩]) := by
  decide +kernel

/-- As `fourT`, but the second cluster has no list yet. -/
def noSecond : TConc Nat Nat Nat :=
  { fourT with
    store := [("a", (5, none)), ("b", (18, some 1))], ids := ["a", "b"], cache := [("a", 5), ("b", 18)], count := 2
    lists := [["a", "b"]], clusters := [(0, 0)] }

/-- **C236 (refuted), a new cluster.** When an insertion makes the list of a cluster that has none, a deletion of
another id at the same time raises (a RuntimeError, passed on as an index error), after it has taken the id out of the
storage, the list of ids and the cache. -/
theorem C236_new_cluster_refuted :
    Apart noUpdate noSecond ∧
    let s := run ivfEndsC noUpdate noSecond (List.replicate 6 2 ++ List.replicate 30 0 ++ List.replicate 6 2)
    s.thr 2 = .done .raised ∧ s.thr 0 = .done (.ids ["e"]) ∧ s.store.get? "a" = none ∧ s.cache.get? "a" = none ∧
      "a" ∉ s.ids := by
  refine ⟨⟨noUpdate_apart.owner, noUpdate_apart.rows, fun t id h => ?_⟩, by decide +kernel⟩
  rcases t with _ | _ | _ | _ | t <;> simp [noUpdate, opInserts] at h
  subst h; decide

/-- **C236 (refuted), the count.** After an insertion beside a deletion of another id all calls have returned and the
number of vectors that `get_stats` gives is not that of the stored vectors. -/
theorem C236_count_refuted :
    Settled fourT ∧ Apart noUpdate fourT ∧ Ready ivfEndsC fourT ∧
    let s := run ivfEndsC noUpdate fourT (List.replicate 5 0 ++ [0] ++ List.replicate 30 2 ++ List.replicate 30 0)
    s.thr 0 = .done (.ids ["e"]) ∧ s.thr 2 = .done (.flag true) ∧ s.count = 5 ∧ s.ids.length = 4 ∧
      s.store.length = 4 :=
  ⟨fourT_settled, noUpdate_apart, fourT_ready, by decide +kernel⟩

end Valori.Props
