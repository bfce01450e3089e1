import Verif.Model.Np
import Mathlib.Algebra.Order.Field.Basic

/-!
# Profiling and analysis tools (`/repo/src/valori/utils/debugging.py`) and the function
decorators of `/repo/src/valori/utils/helpers.py`

Exact arithmetic over an ordered field; the clock, the process memory and the cosine of two rows
are parameters.  Printing is not modelled here; `print_analysis` is in `Model/PrintAnalysis`.
-/

namespace Valori

/-! ## `PerformanceProfiler`, debugging.py:22-116 -/

/-- One entry of `measurements[op]`, debugging.py:47-53. -/
structure Meas (F : Type) where
  duration : F
  memory : F
  stamp : F
deriving DecidableEq, Repr

/-- `self.measurements`, debugging.py:25-27 (`current_measurements` is never used). -/
abbrev Prof (F : Type) := Dict String (List (Meas F))

/-- What the `n`-th reading of `time.time()` and of `_get_memory_usage()` gives, debugging.py:32-33
and 38-39.  A start or an end of a block is one reading of both. -/
structure ProfEnv (F : Type) where
  clock : Nat → F
  memory : Nat → F

/-- Code run under the profiler: other code (`act`, which may change the program state and raise),
a sequence, and a block `with profiler.measure(op): ...`. -/
inductive Body (σ : Type) where
  | act (f : σ → Res σ Unit)
  | seq (a b : Body σ)
  | measure (op : String) (b : Body σ)

/-- The append with a fresh list for a new name, debugging.py:44-53. -/
def Prof.record {F : Type} (p : Prof F) (op : String) (m : Meas F) : Prof F :=
  p.set op ((p.get? op).getD [] ++ [m])

/-- Program state, profiler and number of readings taken so far. -/
structure PState (F σ : Type) where
  prof : Prof F
  tick : Nat
  prog : σ

/-- Running a body; `measure` is debugging.py:29-53: the `finally` part always records, the
exception goes on. -/
def Body.run {F σ : Type} [Sub F] (env : ProfEnv F) : Body σ → PState F σ → Res (PState F σ) Unit
  | .act f, s =>
    match f s.prog with
    | (r, q) => (r, { s with prog := q })
  | .seq a b, s =>
    match a.run env s with
    | (.error e, s') => (.error e, s')
    | (.ok _, s') => b.run env s'
  | .measure op b, s =>
    match b.run env { s with tick := s.tick + 1 } with
    | (r, s') =>
      (r, { s' with
        prof := s'.prof.record op
          ⟨env.clock s'.tick - env.clock s.tick, env.memory s'.tick - env.memory s.tick,
            env.clock s'.tick⟩
        tick := s'.tick + 1 })

/-- `min`, `max`, `avg`, `total` of one quantity, debugging.py:75-86. -/
structure Summary (F : Type) where
  least : F
  greatest : F
  avg : F
  total : F
deriving DecidableEq, Repr

/-- One entry of the summary. -/
structure OpSummary (F : Type) where
  count : Nat
  duration : Summary F
  memory : Summary F
deriving DecidableEq, Repr

/-- `min(l)`, `max(l)`, `sum(l)/len(l)`, `sum(l)`; Python's `min` raises ValueError on an empty
list. -/
def summarise {F : Type} [Field F] [LinearOrder F] : List F → Except Err (Summary F)
  | [] => .error .value
  | x :: l => .ok ⟨l.foldl min x, l.foldl max x, (x :: l).sum / ((x :: l).length : F), (x :: l).sum⟩

/-- `get_summary`, debugging.py:65-89. -/
def Prof.summary {F : Type} [Field F] [LinearOrder F] (p : Prof F) :
    Except Err (Dict String (OpSummary F)) :=
  mapE (fun e =>
    match summarise (e.2.map Meas.duration) with
    | .error x => .error x
    | .ok d =>
      match summarise (e.2.map Meas.memory) with
      | .error x => .error x
      | .ok m => .ok (e.1, ⟨e.2.length, d, m⟩)) p

/-! ## `VectorAnalyzer`, debugging.py:119-292 -/

/-- A float: finite, NaN or an infinity. -/
inductive Cell (F : Type) where
  | fin (x : F)
  | nan
  | inf (negative : Bool)
deriving DecidableEq, Repr

namespace Cell
variable {F : Type} [DecidableEq F]

/-- IEEE `==`: NaN equals nothing. -/
def eqv : Cell F → Cell F → Bool
  | .fin x, .fin y => decide (x = y)
  | .inf a, .inf b => a == b
  | _, _ => false

/-- `np.isnan`. -/
def isNan : Cell F → Bool
  | .nan => true
  | _ => false

/-- `np.isinf`. -/
def isInf : Cell F → Bool
  | .inf _ => true
  | _ => false

end Cell

/-- `np.all(vector == vector[0])`, debugging.py:228 and 252, for a row with at least one column. -/
def constantRow {F : Type} [DecidableEq F] : List (Cell F) → Bool
  | [] => true
  | x :: l => (x :: l).all fun y => y.eqv x

/-- `np.all(row == 0)`, debugging.py:232 and 256. -/
def zeroRow {F : Type} [DecidableEq F] [Zero F] (l : List (Cell F)) : Bool :=
  l.all fun y => y.eqv (.fin 0)

/-- `_compute_quality_score`, debugging.py:242-259, `size` being rows times columns. -/
def qualityScore {F : Type} [Field F] [LinearOrder F] (rows : List (List (Cell F))) (size : Nat) : F :=
  let nanRatio : F := ((rows.flatten.filter Cell.isNan).length : F) / size
  let infRatio : F := ((rows.flatten.filter Cell.isInf).length : F) / size
  let constantRatio : F := ((rows.filter constantRow).length : F) / rows.length
  let zeroRatio : F := ((rows.filter zeroRow).length : F) / rows.length
  max 0 (1 - (nanRatio + infRatio) * (1 / 2) - constantRatio * (3 / 10) - zeroRatio * (1 / 5))

/-- The part of `analyze_vectors`' answer that is modelled. -/
structure Analysis (F : Type) where
  count : Nat
  dimension : Nat
  sparsity : F
  nanValues : Nat
  infValues : Nat
  constantVectors : Nat
  zeroVectors : Nat
  score : F
  high : Nat
  low : Nat
deriving DecidableEq, Repr

/-- Off-diagonal entries of the similarity matrix in row-major order, debugging.py:195-206;
`sim` is the dot product of two normalised rows. -/
def offDiagonal {R C : Type} (sim : R → R → C) (rows : List R) : List C :=
  (rows.zipIdx.map fun p =>
    (rows.zipIdx.filter fun q => q.2 != p.2).map fun q => sim p.1 q.1).flatten

/-- `x > b` on floats. -/
def Cell.above {F : Type} [LinearOrder F] (b : F) : Cell F → Bool
  | .fin x => decide (b < x)
  | .inf false => true
  | _ => false

/-- `x < b` on floats. -/
def Cell.below {F : Type} [LinearOrder F] (b : F) : Cell F → Bool
  | .fin x => decide (x < b)
  | .inf true => true
  | _ => false

/-- The rows looked at, debugging.py:188-193: all of them, or the rows with the indices
`np.random.choice` gives when there are more than a thousand. -/
def sampled {R : Type} (choice : Nat → List Nat) (rows : List R) : List R :=
  if 1000 < rows.length then (choice rows.length).filterMap fun i => rows[i]? else rows

/-- `analyze_vectors`, debugging.py:125-158, 184-259; `none` is the answer `{"error": ...}` for an empty
array.  `vectors.shape[1]` raises IndexError for a one-dimensional array; `np.min` of no
similarities raises ValueError.  Simplification: means, deviations, norms and the least and greatest
similarity are left out; they are in `Model/VecStats.lean`. -/
def analyzeVectors {F : Type} [Field F] [LinearOrder F] (sim : List (Cell F) → List (Cell F) → Cell F)
    (choice : Nat → List Nat) : Arr (Cell F) → Except Err (Option (Analysis F))
  | .vec v => if v.length = 0 then .ok none else .error .indexRange
  | .mat cols rows =>
    if rows.length * cols = 0 then .ok none
    else
      let sims := offDiagonal sim (sampled choice rows)
      if sims.isEmpty then .error .value
      else .ok (some
        { count := rows.length
          dimension := cols
          sparsity :=
            ((rows.flatten.filter fun c => !c.eqv (.fin 0)).length : F) / (rows.length * cols : Nat)
          nanValues := (rows.flatten.filter Cell.isNan).length
          infValues := (rows.flatten.filter Cell.isInf).length
          constantVectors := (rows.filter constantRow).length
          zeroVectors := (rows.filter zeroRow).length
          score := qualityScore rows (rows.length * cols)
          high := (sims.filter (Cell.above (95 / 100))).length
          low := (sims.filter (Cell.below (-(1 / 2)))).length })

/-! ## `QueryAnalyzer`, debugging.py:295-361 -/

/-- The result part of an entry of `query_history`, debugging.py:309-331. -/
structure QueryEntry (F : Type) where
  count : Nat
  expected : Int
  time : F
  distances : Option (F × F)
deriving DecidableEq, Repr

/-- `[r["distance"] for r in results]`; a result without the key raises KeyError. -/
def distancesOf {F : Type} : List (Option F) → Except Err (List F) :=
  mapE fun
    | none => .error .key
    | some d => .ok d

/-- `analyze_query`, debugging.py:301-336; the statistics of the query vector are left out, of the
distances the least and the greatest are kept. -/
def analyzeQuery {F : Type} [LinearOrder F] (results : List (Option F)) (k : Int) (time : F)
    (h : List (QueryEntry F)) : Res (List (QueryEntry F)) (QueryEntry F) :=
  match distancesOf results with
  | .error e => (.error e, h)
  | .ok [] =>
    let a : QueryEntry F := ⟨results.length, k, time, none⟩
    (.ok a, h ++ [a])
  | .ok (x :: l) =>
    let a : QueryEntry F := ⟨results.length, k, time, some (l.foldl min x, l.foldl max x)⟩
    (.ok a, h ++ [a])

/-- `analyze_query_patterns`, debugging.py:338-361: number of queries, search times, result counts;
`none` is `{"error": "No query history"}`. -/
def queryPatterns {F : Type} [Field F] [LinearOrder F] (h : List (QueryEntry F)) :
    Except Err (Option (Nat × Summary F × Summary F)) :=
  match h with
  | [] => .ok none
  | _ =>
    match summarise (h.map QueryEntry.time) with
    | .error e => .error e
    | .ok t =>
      match summarise (h.map fun q => (q.count : F)) with
      | .error e => .error e
      | .ok c => .ok (some (h.length, t, c))

/-! ## `IndexInspector`, debugging.py:428-491 -/

/-- The attribute `vectors` of an index: a list (LSH, Annoy), a dictionary (HNSW) or absent. -/
inductive VectorsAttr (V : Type) where
  | absent
  | slots (l : List (Option V))
  | table (d : Dict String V)

/-- `_inspect_vectors`, debugging.py:452-473: `count` and, if given, `dimension`.  Building the
array raises ValueError for a deleted slot or a vector of another length among the first hundred;
slicing a dictionary raises TypeError (KeyError from Python 3.12 on). -/
def inspectVectors {V : Type} (dim : V → Nat) :
    VectorsAttr V → Except Err (Option (Nat × Option Nat))
  | .absent => .ok none
  | .table [] => .ok (some (0, none))
  | .table _ => .error .typeE
  | .slots [] => .ok (some (0, none))
  | .slots (none :: l) => .ok (some (l.length + 1, none))
  | .slots (some v :: l) =>
    if (l.take 99).all fun
      | none => false
      | some w => dim w == dim v
    then .ok (some (l.length + 1, some (dim v)))
    else .error .value

/-- `_inspect_hash_tables`, debugging.py:475-491: tables, buckets, entries; `none` is
`{"count": 0}`. -/
def inspectTables {K : Type} (tables : List (Dict K (List Int))) : Option (Nat × Nat × Nat) :=
  if tables.isEmpty then none
  else some (tables.length, (tables.map List.length).sum,
    (tables.map fun t => (t.map fun e => e.2.length).sum).sum)

/-! ## Decorators -/

/-- A Python function on a program state, with its own exceptions. -/
abbrev PyFun (ε σ α : Type) := σ → Except ε α × σ

/-- `timing_decorator`, helpers.py:330-341; printing left out. -/
def timingDecorator {ε σ α : Type} (f : PyFun ε σ α) : PyFun ε σ α := fun s =>
  match f s with
  | (.ok r, s') => (.ok r, s')
  | (.error e, s') => (.error e, s')

/-- `memory_usage_decorator`, helpers.py:344-369.  `psutil` says whether the import works, `isImport`
which exceptions are ImportErrors. -/
def memoryDecorator {ε σ α : Type} (psutil : Bool) (isImport : ε → Bool) (f : PyFun ε σ α) :
    PyFun ε σ α := fun s =>
  if psutil then
    match f s with
    | (.ok r, s') => (.ok r, s')
    | (.error e, s') => if isImport e then f s' else (.error e, s')
  else f s

/-- `debug_function`, debugging.py:364-398; printing left out. -/
def debugDecorator {ε σ α : Type} (f : PyFun ε σ α) : PyFun ε σ α := fun s =>
  match f s with
  | (.ok r, s') => (.ok r, s')
  | (.error e, s') => (.error e, s')

end Valori
