import Mathlib.Order.Basic
import Mathlib.Data.List.Basic
import Mathlib.Data.List.Range

/-!
# Duplicate search: `find_duplicates` of utils/helpers.py
-/

namespace Valori

variable {D : Type} [LinearOrder D]

/-- The body of the inner loop, helpers.py:214-220: `group` and `processed` (a set, here a list). -/
def dupInner (sim : Nat → Nat → D) (thr : D) (i : Nat) (st : List Nat × List Nat) (j : Nat) :
    List Nat × List Nat :=
  if j ∈ st.2 then st
  else if thr ≤ sim i j then (st.1 ++ [j], j :: st.2) else st

/-- The body of the outer loop, helpers.py:207-223: `duplicate_groups` and `processed`. -/
def dupOuter (sim : Nat → Nat → D) (thr : D) (n : Nat) (st : List (List Nat) × List Nat) (i : Nat) :
    List (List Nat) × List Nat :=
  if i ∈ st.2 then st
  else
    let r := (List.range' (i + 1) (n - (i + 1))).foldl (dupInner sim thr i) ([i], i :: st.2)
    (if r.1.length > 1 then st.1 ++ [r.1] else st.1, r.2)

/-- `find_duplicates`, helpers.py:186-225, from the similarity matrix on.  Simplification: the
similarities are in a linear order, so there is no NaN. -/
def findDuplicates (sim : Nat → Nat → D) (thr : D) (n : Nat) : List (List Nat) :=
  ((List.range n).foldl (dupOuter sim thr n) ([], [])).1

end Valori
