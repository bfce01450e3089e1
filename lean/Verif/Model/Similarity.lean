import Verif.Model.Py
import Verif.Model.Duplicates
import Mathlib.Algebra.Order.Field.Basic
import Mathlib.Algebra.Order.Group.Unbundled.Abs
import Mathlib.Algebra.BigOperators.Group.List.Basic

/-!
# Similarity functions: utils/similarity.py, and the matrix helpers of utils/helpers.py

Exact arithmetic: `F` is an ordered field, `sqrt` a parameter.  An argument is `some v` when it is a
one-dimensional array and `none` when it has another number of dimensions.
-/

namespace Valori

variable {F : Type} [Field F] [LinearOrder F]

/-- The two checks at the head of every pairwise function, e.g. similarity.py:21-25. -/
def onVecs {α β : Type} (f : List α → List α → Except Err β) (a b : Option (List α)) : Except Err β :=
  match a, b with
  | some a, some b => if a.length ≠ b.length then .error .value else f a b
  | _, _ => .error .value

/-- `np.dot` of two vectors. -/
def dotL (a b : List F) : F := (List.zipWith (· * ·) a b).sum

/-- `np.linalg.norm` of a vector. -/
def normL (sqrt : F → F) (a : List F) : F := sqrt (a.map fun x => x * x).sum

/-- `np.clip(x, lo, hi)`. -/
def clipTo (lo hi x : F) : F := min (max x lo) hi

/-- `np.max`, which raises `ValueError` on an empty array. -/
def maxL (a : List F) : Except Err F :=
  match a with
  | [] => .error .value
  | x :: xs => .ok (xs.foldl max x)

/-- `cosine_similarity`, similarity.py:10-42. -/
def cosineSim (sqrt : F → F) : Option (List F) → Option (List F) → Except Err F :=
  onVecs fun a b =>
    let d := dotL a b
    let na := normL sqrt a
    let nb := normL sqrt b
    if na = 0 ∨ nb = 0 then .ok 0 else .ok (clipTo (-1) 1 (d / (na * nb)))

/-- `cosine_distance`, similarity.py:45-57. -/
def cosineDist (sqrt : F → F) (a b : Option (List F)) : Except Err F :=
  match cosineSim sqrt a b with
  | .error e => .error e
  | .ok s => .ok (1 - s)

/-- `euclidean_distance`, similarity.py:60-77. -/
def euclidDist (sqrt : F → F) : Option (List F) → Option (List F) → Except Err F :=
  onVecs fun a b => .ok (normL sqrt (List.zipWith (· - ·) a b))

/-- `euclidean_distance_squared`, similarity.py:80-98. -/
def euclidSq : Option (List F) → Option (List F) → Except Err F :=
  onVecs fun a b =>
    let diff := List.zipWith (· - ·) a b
    .ok (dotL diff diff)

/-- `dot_product`, similarity.py:101-118. -/
def dotProduct : Option (List F) → Option (List F) → Except Err F :=
  onVecs fun a b => .ok (dotL a b)

/-- `manhattan_distance`, similarity.py:121-138. -/
def manhattan : Option (List F) → Option (List F) → Except Err F :=
  onVecs fun a b => .ok ((List.zipWith (· - ·) a b).map fun x => |x|).sum

/-- `chebyshev_distance`, similarity.py:141-158. -/
def chebyshev : Option (List F) → Option (List F) → Except Err F :=
  onVecs fun a b => maxL ((List.zipWith (· - ·) a b).map fun x => |x|)

/-- `hamming_distance`, similarity.py:161-182. -/
def hammingD : Option (List F) → Option (List F) → Except Err Nat :=
  onVecs fun a b =>
    let ab := a.map fun x => decide (0 < x)
    let bb := b.map fun x => decide (0 < x)
    .ok ((List.zipWith (fun x y => if x ≠ y then 1 else 0) ab bb).sum)

/-- `jaccard_similarity`, similarity.py:185-214. -/
def jaccardSim : Option (List F) → Option (List F) → Except Err F :=
  onVecs fun a b =>
    let ab := a.map fun x => decide (0 < x)
    let bb := b.map fun x => decide (0 < x)
    let inter := (List.zipWith (fun x y => if x && y then 1 else 0) ab bb).sum
    let union := (List.zipWith (fun x y => if x || y then 1 else 0) ab bb).sum
    if union = 0 then (if inter = 0 then .ok 1 else .ok 0) else .ok ((inter : Nat) / (union : Nat))

/-- `jaccard_distance`, similarity.py:217-229. -/
def jaccardDist (a b : Option (List F)) : Except Err F :=
  match jaccardSim a b with
  | .error e => .error e
  | .ok s => .ok (1 - s)

/-- `normalize_vector`, similarity.py:232-258. -/
def normalizeVec (sqrt : F → F) (v : Option (List F)) (norm : String) : Except Err (List F) :=
  match v with
  | none => .error .value
  | some v =>
    let value : Except Err F :=
      if norm = "l2" then .ok (normL sqrt v)
      else if norm = "l1" then .ok (v.map fun x => |x|).sum
      else if norm = "max" then maxL (v.map fun x => |x|)
      else .error .value
    match value with
    | .error e => .error e
    | .ok n => if n = 0 then .ok v else .ok (v.map fun x => x / n)

/-- A two-dimensional array: its rows and `shape[1]`. -/
structure Mat (F : Type) where
  rows : List (List F)
  cols : Nat

/-- `batch_cosine_similarity`, similarity.py:261-293; `none` for arrays that are not
two-dimensional. -/
def batchCosine (sqrt : F → F) (A B : Option (Mat F)) : Except Err (List (List F)) :=
  match A, B with
  | some A, some B =>
    if A.cols ≠ B.cols then .error .value
    else
      let na := A.rows.map fun r => if normL sqrt r = 0 then 1 else normL sqrt r
      let nb := B.rows.map fun r => if normL sqrt r = 0 then 1 else normL sqrt r
      .ok ((A.rows.zip na).map fun (r, x) => (B.rows.zip nb).map fun (s, y) =>
        clipTo (-1) 1 (dotL r s / (x * y)))
  | _, _ => .error .value

/-! ## helpers.py -/

/-- `np.min`. -/
def minL (a : List F) : Except Err F :=
  match a with
  | [] => .error .value
  | x :: xs => .ok (xs.foldl min x)

/-- One row of `normalize_vectors`, helpers.py:134-149; `eps` is `1e-8`.  Simplification: the code
works on all rows at once. -/
def normalizeRow (sqrt : F → F) (eps : F) (method : String) (r : List F) : Except Err (List F) :=
  if method = "l2" then .ok (r.map fun x => x / (normL sqrt r + eps))
  else if method = "l1" then .ok (r.map fun x => x / ((r.map fun x => |x|).sum + eps))
  else if method = "max" then
    match maxL (r.map fun x => |x|) with
    | .error e => .error e
    | .ok m => .ok (r.map fun x => x / (m + eps))
  else
    match minL r, maxL r with
    | .ok lo, .ok hi => .ok (r.map fun x => (x - lo) / (hi - lo + eps))
    | _, _ => .error .value

/-- `normalize_vectors`, helpers.py:123-152.  The method is looked at first (134-152); rows without
entries make `np.max` and `np.min` fail. -/
def normalizeVectors (sqrt : F → F) (eps : F) (rows : List (List F)) (method : String) :
    Except Err (List (List F)) :=
  if method = "l2" ∨ method = "l1" ∨ method = "max" ∨ method = "minmax" then
    rows.mapM (normalizeRow sqrt eps method)
  else .error .validation

/-- `compute_similarity_matrix(..., "cosine")`, helpers.py:167-170. -/
def cosineMatrix (sqrt : F → F) (eps : F) (rows : List (List F)) : List (List F) :=
  let normalized := rows.map fun r => r.map fun x => x / (normL sqrt r + eps)
  normalized.map fun r => normalized.map fun s => dotL r s

/-- `compute_similarity_matrix(..., "euclidean")`, helpers.py:172-177. -/
def euclidMatrix (sqrt : F → F) (rows : List (List F)) : List (List F) :=
  rows.map fun r => rows.map fun s => 1 / (1 + normL sqrt (List.zipWith (· - ·) r s))

/-- `compute_similarity_matrix(..., "dot")`, helpers.py:179-180. -/
def dotMatrix (rows : List (List F)) : List (List F) :=
  rows.map fun r => rows.map fun s => dotL r s

/-- `compute_similarity_matrix`, helpers.py:154-183. -/
def similarityMatrix (sqrt : F → F) (eps : F) (rows : List (List F)) (metric : String) :
    Except Err (List (List F)) :=
  if metric = "cosine" then .ok (cosineMatrix sqrt eps rows)
  else if metric = "euclidean" then .ok (euclidMatrix sqrt rows)
  else if metric = "dot" then .ok (dotMatrix rows)
  else .error .validation

/-- `find_duplicates`, helpers.py:186-225.  `similarity_matrix[i, j]` is always in range, so the
default entries are never used. -/
def findDuplicatesOf (sqrt : F → F) (eps : F) (rows : List (List F)) (thr : F) (metric : String) :
    Except Err (List (List Nat)) :=
  match similarityMatrix sqrt eps rows metric with
  | .error e => .error e
  | .ok m => .ok (findDuplicates (fun i j => (m.getD i []).getD j 0) thr rows.length)

end Valori
