import Verif.Model.Py

/-!
# The fragment of numpy used by the quantisers

Exact arithmetic: float rounding, overflow, NaN and infinities are not modelled.
-/

namespace Valori

/-- A numpy array of one or two dimensions.  A matrix carries its number of columns, so an
array of shape `(0, d)` is represented.  Simplification: other ranks are left out; every
quantiser method treats rank 0 and rank 3 or more as it treats a wrong rank here. -/
inductive Arr (F : Type) where
  | vec (v : List F)
  | mat (cols : Nat) (rows : List (List F))
deriving DecidableEq

/-- A binary elementwise operation on two 1-d operands under numpy's broadcasting rules:
equal lengths, or one operand of length 1; anything else raises `ValueError`. -/
def bzip {α β γ : Type} (f : α → β → γ) (a : List α) (b : List β) : Except Err (List γ) :=
  if a.length = b.length then .ok (List.zipWith f a b)
  else match a, b with
    | [x], b => .ok (b.map fun y => f x y)
    | a, [y] => .ok (a.map fun x => f x y)
    | _, _ => .error .value

/-- `row[s:e]` for `0 <= s <= e`. -/
def slice {α : Type} (row : List α) (s e : Nat) : List α := (row.take e).drop s

/-- `row[s:e] = vals` for `0 <= s <= e`: the slice is clipped to the row; the value must have
the width of the clipped slice or width 1. -/
def setSlice {α : Type} (row : List α) (s e : Nat) (vals : List α) : Except Err (List α) :=
  if vals.length = (slice row s e).length then .ok (row.take s ++ vals ++ row.drop e)
  else match vals with
    | [x] => .ok (row.take s ++ List.replicate (slice row s e).length x ++ row.drop e)
    | _ => .error .value

/-- `q[:d]` if `q` is longer than `d`, zero padding on the right if it is shorter. -/
def fitTo {F : Type} [Zero F] (d : Nat) (q : List F) : List F :=
  if d < q.length then q.take d
  else if q.length < d then q ++ List.replicate (d - q.length) 0
  else q

/-- Elementwise reduction over axis 0 (`np.min`, `np.max`): raises `ValueError` on an array
without rows. -/
def reduceRows {F : Type} (op : F → F → F) : List (List F) → Except Err (List F)
  | [] => .error .value
  | r :: rs => .ok (rs.foldl (List.zipWith op) r)

/-- A loop whose body may raise: `[f(x) for x in l]`. -/
def mapE {α β : Type} (f : α → Except Err β) : List α → Except Err (List β)
  | [] => .ok []
  | x :: xs =>
    match f x with
    | .error e => .error e
    | .ok y =>
      match mapE f xs with
      | .error e => .error e
      | .ok ys => .ok (y :: ys)

/-- Index of the first minimum (`np.argmin`) of `x :: l`. -/
def argminFrom {F : Type} [LinearOrder F] (best : F) (bi i : Nat) : List F → Nat
  | [] => bi
  | x :: xs => if x < best then argminFrom x i (i + 1) xs else argminFrom best bi (i + 1) xs

/-- `np.argmin`: the first index of the least value; raises `ValueError` when empty. -/
def argmin {F : Type} [LinearOrder F] : List F → Except Err Nat
  | [] => .error .value
  | x :: xs => .ok (argminFrom x 0 1 xs)

end Valori
