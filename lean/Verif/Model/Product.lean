import Verif.Model.Scalar

/-!
# `ProductQuantizer` (`/repo/src/valori/quantization/product.py`)

Exact arithmetic.  KMeans is a parameter.
-/

namespace Valori

/-- Fields of `ProductQuantizer`, product.py:23-31 and 62 (`effective_k` is read by `get_stats`
only and left out).  `books` is `self.centroids`, a list of `m` lists of centroids. -/
structure ProductQ (F : Type) where
  m : Nat
  k : Nat
  inited : Bool
  trained : Bool
  dim : Option Nat
  sub : Option Nat
  books : Option (List (List (List F)))
deriving DecidableEq

namespace ProductQ

/-- `ProductQuantizer(config)`, product.py:23-31. -/
def new (F : Type) (m k : Nat) : ProductQ F := ⟨m, k, false, false, none, none, none⟩

/-- `initialize`, product.py:33-38 (`_trained` is not reset). -/
def init {F : Type} (q : ProductQ F) : ProductQ F :=
  { q with inited := true, dim := none, sub := none, books := none }

variable {F : Type} [Field F] [LinearOrder F]

/-- `np.mean(subvectors, axis=0)`, product.py:79.  For an array without rows numpy gives NaN; the
theorems ask for at least one row. -/
def meanRow (sub : Nat) (rows : List (List F)) : List F :=
  (rows.foldl (List.zipWith (· + ·)) (List.replicate sub 0)).map (· / (rows.length : F))

/-- The centroids of one subspace, product.py:71-90: the mean, or the KMeans centres written over
a `(k, sub)` array of zeros.  `kmeans i ek rows` is the fit of subspace `i`. -/
def trainBook (kmeans : Nat → Nat → List (List F) → Except Err (List (List F))) (ek sub i : Nat)
    (rows : List (List F)) : Except Err (List (List F)) :=
  let subvectors := rows.map fun r => slice r (i * sub) ((i + 1) * sub)
  if ek ≤ 1 then
    if ek = 0 then .error .indexRange else .ok [meanRow sub subvectors]
  else match kmeans i ek subvectors with
    | .error e => .error e
    | .ok centers =>
      if centers.length ≤ ek then
        .ok (centers ++ List.replicate (ek - centers.length) (List.replicate sub 0))
      else .error .value

/-- The loop over subspaces, product.py:71-90: books finished so far stay when a later one
raises. -/
def trainBooks (kmeans : Nat → Nat → List (List F) → Except Err (List (List F))) (ek sub : Nat)
    (rows : List (List F)) : List Nat → List (List (List F)) → Res (List (List (List F))) Unit
  | [], books => (.ok (), books)
  | i :: is, books =>
    match trainBook kmeans ek sub i rows with
    | .error e => (.error e, books)
    | .ok b => trainBooks kmeans ek sub rows is (books.set i b)

/-- `train`, product.py:40-95.  Assignments made before an exception stay. -/
def train (kmeans : Nat → Nat → List (List F) → Except Err (List (List F))) (q : ProductQ F)
    (vectors : Arr F) : Res (ProductQ F) Unit :=
  if q.inited = false then (.error .quantization, q)
  else match vectors with
    | .vec _ => (.error .quantization, q)
    | .mat dim rows =>
      let q1 := { q with dim := some dim }
      if q.m = 0 then (.error .quantization, q1)
      else if dim % q.m ≠ 0 then (.error .quantization, q1)
      else
        let sub := dim / q.m
        let ek := min q.k (max 1 rows.length)
        let zeros := List.replicate q.m (List.replicate ek (List.replicate sub 0))
        match trainBooks kmeans ek sub rows (List.range q.m) zeros with
        | (.error _, books) =>
          (.error .quantization, { q1 with sub := some sub, books := some books })
        | (.ok _, books) =>
          (.ok (), { q1 with sub := some sub, books := some books, trained := true })

/-- Squared distance of a subvector to one centroid, product.py:126-129. -/
def cellDist (v c : List F) : Except Err F :=
  match bzip (fun x y => (x - y) ^ 2) v c with
  | .error e => .error e
  | .ok l => .ok l.sum

/-- The code type, product.py:109-114: `uint8` up to 256 centroids, else `uint16`. -/
def codeSize (ek : Nat) : Nat := if ek - 1 ≤ 255 then 256 else 65536

/-- One code, product.py:119-132.  Storing into the unsigned array wraps around. -/
def quantizeCell (ek sub : Nat) (row : List F) (i : Nat) (book : List (List F)) :
    Except Err Nat :=
  match mapE (cellDist (slice row (i * sub) ((i + 1) * sub))) book with
  | .error e => .error e
  | .ok ds =>
    match argmin ds with
    | .error e => .error e
    | .ok j => .ok (j % codeSize ek)

/-- The loop over subspaces for one row, product.py:119-132. -/
def quantizeCells (ek sub : Nat) (row : List F) : Nat → List (List (List F)) → Except Err (List Nat)
  | _, [] => .ok []
  | i, b :: bs =>
    match quantizeCell ek sub row i b with
    | .error e => .error e
    | .ok c =>
      match quantizeCells ek sub row (i + 1) bs with
      | .error e => .error e
      | .ok cs => .ok (c :: cs)

/-- `self.centroids.shape[1]`, product.py:110. -/
def effK (books : List (List (List F))) : Nat := (books.headD []).length

/-- `quantize`, product.py:97-137.  Rows are handled one by one (the code handles one subspace
of all rows at a time).  There is no check of the width: a longer row is cut silently. -/
def quantize (q : ProductQ F) (vectors : Arr F) : Except Err (List (List Nat)) :=
  if q.inited = false then .error .quantization
  else if q.trained = false then .error .quantization
  else match vectors, q.sub, q.books with
    | .mat _ rows, some sub, some books =>
      match mapE (fun row => quantizeCells (effK books) sub row 0 books) rows with
      | .error _ => .error .quantization
      | .ok codes => .ok codes
    | _, _, _ => .error .quantization

/-- The loop over subspaces for one row of `dequantize`, product.py:155-162: look the centroid
up (`IndexError` if there is none) and write it over the row. -/
def dequantizeCells (sub : Nat) (code : List Nat) :
    Nat → List (List (List F)) → List F → Except Err (List F)
  | _, [], row => .ok row
  | i, b :: bs, row =>
    match code[i]? with
    | none => .error .indexRange
    | some c =>
      match b[c]? with
      | none => .error .indexRange
      | some cent =>
        match setSlice row (i * sub) ((i + 1) * sub) cent with
        | .error e => .error e
        | .ok row' => dequantizeCells sub code (i + 1) bs row'

/-- `dequantize`, product.py:139-167.  Codes are unsigned, as `quantize` returns them. -/
def dequantize (q : ProductQ F) (codes : Arr Nat) : Except Err (List (List F)) :=
  if q.inited = false then .error .quantization
  else if q.trained = false then .error .quantization
  else match codes, q.dim, q.sub, q.books with
    | .mat _ rows, some dim, some sub, some books =>
      match mapE (fun code => dequantizeCells sub code 0 books (List.replicate dim 0)) rows with
      | .error _ => .error .quantization
      | .ok out => .ok out
    | _, _, _, _ => .error .quantization

/-- The loop of `compute_distance`, product.py:199-211. -/
def distCells (sub : Nat) (query : List F) (code : List Nat) :
    Nat → List (List (List F)) → F → Except Err F
  | _, [], acc => .ok acc
  | i, b :: bs, acc =>
    match code[i]? with
    | none => .error .indexRange
    | some c =>
      match b[c]? with
      | none => .error .indexRange
      | some cent =>
        match cellDist (slice query (i * sub) ((i + 1) * sub)) cent with
        | .error e => .error e
        | .ok x => distCells sub query code (i + 1) bs (acc + x)

/-- `compute_distance` up to the square root, product.py:169-211. -/
def sqDistance (q : ProductQ F) (query : List F) (code : List Nat) : Except Err F :=
  if q.inited = false then .error .quantization
  else if q.trained = false then .error .quantization
  else match q.dim, q.sub, q.books with
    | some dim, some sub, some books =>
      match distCells sub (fitTo dim query) code 0 books 0 with
      | .error _ => .error .quantization
      | .ok x => .ok x
    | _, _, _ => .error .quantization

/-- `compute_distance`, product.py:169-217. -/
noncomputable def computeDistance (q : ProductQ ℝ) (query : List ℝ) (code : List Nat) :
    Except Err ℝ :=
  match q.sqDistance query code with
  | .error e => .error e
  | .ok x => .ok (Real.sqrt x)

end ProductQ
end Valori
