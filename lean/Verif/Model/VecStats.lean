import Verif.Model.QuantStats
import Verif.Model.Debugging

/-!
# The numbers `analyze_vectors` reports: utils/debugging.py:148-216

Exact arithmetic over an ordered field; `sqrt` is a parameter.  Rows are finite numbers here; NaN and
infinities are in `Model/Debugging.lean`.
-/

namespace Valori

variable {F : Type} [Field F] [LinearOrder F]

/-- `np.mean` of a flat array with at least one entry. -/
def npMean (l : List F) : F := l.sum / (l.length : F)

/-- `np.std(l) ** 2`: the mean of the squared deviations from the mean. -/
def npVar (l : List F) : F := npMean (l.map fun x => (x - npMean l) ^ 2)

/-- `np.std`. -/
def npStd (sqrt : F → F) (l : List F) : F := sqrt (npVar l)

/-- Column `j` of a matrix, what `axis=0` runs over. -/
def npColumn (rows : List (List F)) (j : Nat) : List F := rows.map fun r => r.getD j 0

/-- Mean, standard deviation, least and greatest value of one array. -/
structure Spread (F : Type) where
  mean : F
  std : F
  least : F
  greatest : F
deriving DecidableEq

/-- The four numbers, e.g. debugging.py:154-157, 176-179, 209-212; `np.min` of no values raises
`ValueError`. -/
def spreadOf (sqrt : F → F) (l : List F) : Except Err (Spread F) :=
  match rangeOf l with
  | .error e => .error e
  | .ok (lo, hi) => .ok ⟨npMean l, npStd sqrt l, lo, hi⟩

/-- The numbers of `basic_stats`, `distribution` and `similarity`. -/
structure DataStats (F : Type) where
  all : Spread F
  meanOfMeans : F
  stdOfMeans : F
  meanOfStds : F
  stdOfStds : F
  norms : Spread F
  similarity : Spread F
deriving DecidableEq

/-- `np.linalg.norm` of a row. -/
def rowNorm (sqrt : F → F) (r : List F) : F := sqrt (r.map fun x => x * x).sum

/-- A row divided by its norm, debugging.py:196-198. -/
def unitRow (sqrt : F → F) (r : List F) : List F := r.map fun x => x / rowNorm sqrt r

/-- One entry of the matrix of debugging.py:201. -/
def rowDot (a b : List F) : F := (List.zipWith (· * ·) a b).sum

/-- The similarities looked at, debugging.py:188-206.  Simplification: a zero row gives NaN in numpy; the
theorems ask for rows that are not zero. -/
def rowSims (sqrt : F → F) (choice : Nat → List Nat) (rows : List (List F)) : List F :=
  offDiagonal (fun a b => rowDot (unitRow sqrt a) (unitRow sqrt b)) (sampled choice rows)

/-- `_basic_statistics`, `_distribution_analysis` and `_similarity_analysis`, debugging.py:146-216, of a
matrix with `cols` columns and at least one row. -/
def dataStats (sqrt : F → F) (choice : Nat → List Nat) (cols : Nat) (rows : List (List F)) :
    Except Err (DataStats F) :=
  match spreadOf sqrt rows.flatten with
  | .error e => .error e
  | .ok all =>
    let means := (List.range cols).map fun j => npMean (npColumn rows j)
    let stds := (List.range cols).map fun j => npStd sqrt (npColumn rows j)
    match spreadOf sqrt (rows.map (rowNorm sqrt)) with
    | .error e => .error e
    | .ok norms =>
      match spreadOf sqrt (rowSims sqrt choice rows) with
      | .error e => .error e
      | .ok sims => .ok ⟨all, npMean means, npStd sqrt means, npMean stds, npStd sqrt stds, norms, sims⟩

end Valori
