import Verif.Model.Similarity

/-!
# The distance functions on integer arrays

numpy computes `a - b`, `np.dot(a, b)` and `np.abs(a)` of integer arrays in their own type, where results
that do not fit wrap around; `np.sum` works in the 64-bit type of the same signedness; `np.linalg.norm`
converts to floats first.  Simplification: both arrays have the same type, and floats are exact.
-/

namespace Valori

/-- A numpy integer type: `uint8` is `⟨8, false⟩`, `int16` is `⟨16, true⟩`. -/
structure IntType where
  bits : Nat
  signed : Bool
deriving DecidableEq, Repr

namespace IntType

/-- What is kept of a result. -/
def wrap (d : IntType) (x : Int) : Int :=
  if d.signed then Int.bmod x (2 ^ d.bits) else x % 2 ^ d.bits

/-- The type `np.sum` works in. -/
def wide (d : IntType) : IntType := ⟨max d.bits 64, d.signed⟩

/-- `a - b`. -/
def sub (d : IntType) (a b : List Int) : List Int := List.zipWith (fun x y => d.wrap (x - y)) a b

/-- `np.abs(a)`; the smallest number of a signed type is its own absolute value. -/
def abs (d : IntType) (a : List Int) : List Int := a.map fun x => d.wrap |x|

/-- A sum computed in this type. -/
def total (d : IntType) (a : List Int) : Int := a.foldl (fun acc x => d.wrap (acc + x)) 0

/-- `np.dot(a, b)`. -/
def dot (d : IntType) (a b : List Int) : Int := d.total (List.zipWith (fun x y => d.wrap (x * y)) a b)

/-- The numbers as floats. -/
def floats {F : Type} [Field F] (a : List Int) : List F := List.map (Int.cast : Int → F) a

variable {F : Type} [Field F] [LinearOrder F] (sqrt : F → F)

/-- `cosine_similarity`, similarity.py:10-42, on integer arrays. -/
def cosineSim (d : IntType) : Option (List Int) → Option (List Int) → Except Err F :=
  onVecs fun a b =>
    let dp : F := (d.dot a b : Int)
    let na := normL sqrt (floats a)
    let nb := normL sqrt (floats b)
    if na = 0 ∨ nb = 0 then .ok 0 else .ok (clipTo (-1) 1 (dp / (na * nb)))

/-- `euclidean_distance`, similarity.py:60-77, on integer arrays. -/
def euclidDist (d : IntType) : Option (List Int) → Option (List Int) → Except Err F :=
  onVecs fun a b => .ok (normL sqrt (floats (d.sub a b)))

/-- `euclidean_distance_squared`, similarity.py:80-98, on integer arrays. -/
def euclidSq (d : IntType) : Option (List Int) → Option (List Int) → Except Err Int :=
  onVecs fun a b =>
    let diff := d.sub a b
    .ok (d.dot diff diff)

/-- `dot_product`, similarity.py:101-118, on integer arrays. -/
def dotProduct (d : IntType) : Option (List Int) → Option (List Int) → Except Err Int :=
  onVecs fun a b => .ok (d.dot a b)

/-- `manhattan_distance`, similarity.py:121-138, on integer arrays. -/
def manhattan (d : IntType) : Option (List Int) → Option (List Int) → Except Err Int :=
  onVecs fun a b => .ok (d.wide.total (d.abs (d.sub a b)))

/-- `chebyshev_distance`, similarity.py:141-158, on integer arrays. -/
def chebyshev (d : IntType) : Option (List Int) → Option (List Int) → Except Err Int :=
  onVecs fun a b =>
    match d.abs (d.sub a b) with
    | [] => .error .value
    | x :: xs => .ok (xs.foldl max x)

/-- `_compute_distance` of the HNSW and IVF indices, hnsw.py:320-334 and ivf.py:396-410, on integer arrays
of the same length. -/
def indexDist (d : IntType) (metric : String) (a b : List Int) : Except Err F :=
  if metric = "cosine" then
    let dp : F := (d.dot a b : Int)
    let na := normL sqrt (floats a)
    let nb := normL sqrt (floats b)
    if na = 0 ∨ nb = 0 then .ok 1 else .ok (1 - dp / (na * nb))
  else if metric = "euclidean" then .ok (normL sqrt (floats (d.sub a b)))
  else .error .index

end IntType
end Valori
