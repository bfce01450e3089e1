import Mathlib.Data.List.Dedup
import Verif.Props.LshConcSearch

/-!
# C240: what a search of an LSH index may meet
-/

namespace Valori.Props
open Valori Valori.LConc
open Valori.Spec (NHit)

/-- Numbers as vectors: one table with three bits, similarity 10 minus the difference, sets without order. -/
def lenv : LConcEnv Nat Nat where
  hash v := if v < 8 then some [[v % 2 == 1, v / 2 % 2 == 1, v / 4 == 1]] else none
  sim q v := .ok (10 - (max q v - min q v))
  setOrder := List.dedup
  threshold := 0

/-- An index that holds the vectors, with metadata 100, 101, … -/
def lindex (l : List Nat) : LConc Nat Nat Nat where
  vectors := l.map some
  metas := (List.range l.length).map fun i => some (100 + i)
  tables := [(l.zipIdx.foldl (fun d x => match lenv.hash x.1 with
    | some [c] => d.set c ((d.get? c).getD [] ++ [x.2])
    | _ => d) ([] : Dict Code (List Nat)))]
  nextId := l.length
  thr := fun _ => .start

/-- What `lindex` builds. -/
example : (lindex [0, 5, 0]).tables = [[([false, false, false], [0, 2]), ([true, false, true], [1])]] := by decide

/-- A search for 0 beside an insertion, an update and a deletion of other ids. -/
def lops : Nat → LOp Nat Nat
  | 0 => .search 0 2
  | 1 => .insert [(0, 7), (3, 8)]
  | 2 => .update 1 6 (some 9)
  | _ => .delete [2]

def lsched : List Nat := [0, 1, 2, 3, 1, 2, 3, 1, 2, 3, 1, 2, 3, 1, 2, 3, 1, 1, 0, 1, 2, 3, 0, 1, 2, 3, 0, 0, 0, 0, 0, 0]

/-- The hypotheses of `C240_sound_partial` and `C240_finds` can be met: the search returns, with id 0. -/
example : (∀ t, (lindex [0, 5, 0]).thr t = .start) ∧ (∀ l, (lenv.setOrder l).Nodup) ∧
    (∀ l x, x ∈ l → x ∈ lenv.setOrder l) ∧ 0 ∈ (lindex [0, 5, 0]).bucket 0 [false, false, false] ∧
    LeftAlone lops 0 ∧
    ((lindex [0, 5, 0]).run lenv lops lsched).thr 0 = .done (.hits [⟨0, 10, some 100⟩, ⟨3, 10, some 7⟩]) := by
  refine ⟨fun _ => rfl, List.nodup_dedup, fun l x h => List.mem_dedup.2 h, by decide, ⟨?_, ?_⟩, by rfl⟩
  · intro t v m h
    match t with
    | 0 => cases h
    | 1 => cases h
    | 2 => simp only [lops, LOp.update.injEq] at h; omega
    | _ + 3 => cases h
  · intro t l h
    match t with
    | 0 => cases h
    | 1 => cases h
    | 2 => cases h
    | _ + 3 => simp only [lops, LOp.delete.injEq] at h; rw [← h]; decide

/-- Searches and deletions. -/
def lcalm : Nat → LOp Nat Nat
  | 0 => .search 2 2
  | _ => .delete [0]

/-- The hypotheses of `C240_calm` can be met; the search has no exact candidate and tries the other buckets. -/
example : (∀ t, (lindex [0, 5]).thr t = .start) ∧
    (∀ u, (∃ q k, lcalm u = .search q k) ∨ ∃ l, lcalm u = .delete l) ∧ (lenv.hash 2).isSome ∧
    (∀ v, ∃ d, lenv.sim 2 v = .ok d) ∧ (lindex [0, 5]).vectors.length ≤ (lindex [0, 5]).metas.length ∧
    ((lindex [0, 5]).run lenv lcalm [0, 0, 0, 1, 0, 1, 0, 1, 0, 0, 0, 0, 0, 0, 0, 0, 0, 0]).thr 0 =
      .done (.hits [⟨0, 8, some 100⟩]) := by
  refine ⟨fun _ => rfl, ?_, by decide, fun v => ⟨_, rfl⟩, by decide, by rfl⟩
  intro u
  match u with
  | 0 => exact .inl ⟨2, 2, rfl⟩
  | _ + 1 => exact .inr ⟨[0], rfl⟩

/-! ## What goes wrong -/

/-- A search for 1, an insertion of 6. -/
def lraise : Nat → LOp Nat Nat
  | 0 => .search 1 2
  | _ => .insert [(6, 7)]

/-- **C240** A search raises when an insertion makes a new bucket while the search tries the buckets near to the
query (`RuntimeError: dictionary changed size during iteration`); alone it returns. -/
theorem C240_raises_refuted :
    ((lindex [0, 5]).run lenv lraise [0, 0, 0, 0, 0, 1, 1, 1, 1, 1, 1, 1, 0, 0]).thr 0 = .done .raised ∧
    ((lindex [0, 5]).run lenv lraise [0, 0, 0, 0, 0, 0, 0, 0, 0, 0, 0, 0, 0, 0, 0, 0, 0, 0]).thr 0 =
      .done (.hits [⟨0, 9, some 100⟩, ⟨1, 6, some 101⟩]) :=
  ⟨rfl, rfl⟩

/-- A search for 0 and a deletion of id 0. -/
def lgone : Nat → LOp Nat Nat
  | 0 => .search 0 2
  | _ => .delete [0]

/-- **C240** A search returns a result without metadata, though every vector was inserted with metadata, when a deletion
of the id comes between. -/
theorem C240_metadata_refuted :
    ((lindex [0, 5]).run lenv lgone [0, 0, 0, 0, 1, 1, 1, 1, 1, 1, 1, 0, 0]).thr 0 =
      .done (.hits [⟨0, 10, none⟩]) ∧
    ∀ m ∈ (lindex [0, 5]).metas, m.isSome = true :=
  ⟨rfl, by decide⟩

/-- A search for 0 and an update of id 0. -/
def lmixed : Nat → LOp Nat Nat
  | 0 => .search 0 2
  | _ => .update 0 3 (some 9)

def lmixedSched : List Nat := [0, 0, 0, 0, 1, 1, 1, 1, 1, 1, 1, 1, 1, 1, 0, 0]

/-- **C240** A search returns the similarity of the vector before an update with the metadata after it, though the
index never had that vector with these metadata. -/
theorem C240_mixed_refuted :
    ((lindex [0, 5]).run lenv lmixed lmixedSched).thr 0 = .done (.hits [⟨0, 10, some 9⟩]) ∧
    ∀ p ∈ lmixedSched.inits, ∀ v, ((lindex [0, 5]).run lenv lmixed p).vectors[0]? = some (some v) →
      ((lindex [0, 5]).run lenv lmixed p).metas[0]? = some (some 9) → lenv.sim 0 v ≠ .ok 10 := by
  refine ⟨rfl, ?_⟩
  have h : ∀ p ∈ lmixedSched.inits, ((lindex [0, 5]).run lenv lmixed p).metas[0]? = some (some 9) →
      ((lindex [0, 5]).run lenv lmixed p).vectors[0]? = some (some 3) := by decide +kernel
  intro p hp v hv hm e
  rw [h p hp hm] at hv
  cases hv
  revert e; decide

/-- A search for 0 and an update of id 0 that stores the same vector again. -/
def lmissed : Nat → LOp Nat Nat
  | 0 => .search 0 2
  | _ => .update 0 0 none

def lmissedSched : List Nat := [1, 1, 1, 1, 0, 0, 0, 0, 0, 0, 0, 0, 0, 0, 0, 0, 0, 0, 0, 1, 1, 1, 1, 1]

/-- **C240** A search beside an update may miss the updated id, though the index has the same vector under it at
every moment and the vector is the query. -/
theorem C240_missed_refuted :
    ((lindex [0, 5]).run lenv lmissed lmissedSched).thr 0 = .done (.hits [⟨1, 5, some 101⟩]) ∧
    ((lindex [0, 5]).run lenv lmissed lmissedSched).thr 1 = .done (.flag true) ∧
    ∀ p ∈ lmissedSched.inits, ((lindex [0, 5]).run lenv lmissed p).vectors[0]? = some (some 0) :=
  ⟨rfl, rfl, by decide +kernel⟩

end Valori.Props
