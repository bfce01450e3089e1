import Mathlib.Data.Rat.Defs
import Verif.Model.Py

/-!
# `validate_index_performance`, utils/helpers.py:438-480

The index is a set of methods; the clock is a parameter: `addTime` is the time measured around adding and
building, the query with number `i` takes `tick i`.  Simplified: times are exact; `avg_search_time` and the
answer of `get_stats` are left out.
-/

namespace Valori

/-- An index as this function uses it. `add` is absent from flat.py, hnsw.py and ivf.py, `build` from all
but annoy.py. -/
structure PerfIndex (σ V Q R : Type) where
  add : Option (List V → σ → Res σ Unit)
  build : Option (σ → Res σ Unit)
  search : Q → Int → σ → Res σ R

variable {σ V Q R : Type}

/-- The searches, helpers.py:465-469: the results are dropped, the times kept. -/
def perfSearches (ix : PerfIndex σ V Q R) (k : Int) (tick : Nat → ℚ) : Nat → List Q → σ → Res σ (List ℚ)
  | _, [], s => (.ok [], s)
  | i, q :: qs, s =>
    match ix.search q k s with
    | (.error e, s) => (.error e, s)
    | (.ok _, s) =>
      match perfSearches ix k tick (i + 1) qs s with
      | (.error e, s) => (.error e, s)
      | (.ok ts, s) => (.ok (tick i :: ts), s)

/-- The two throughputs reported. -/
structure PerfReport where
  addThroughput : ℚ
  searchThroughput : ℚ
deriving DecidableEq

/-- `validate_index_performance`, helpers.py:438-480.  `.other` stands for `ZeroDivisionError`. -/
def perf (ix : PerfIndex σ V Q R) (addTime : ℚ) (tick : Nat → ℚ) (vs : List V) (qs : List Q) (k : Int) (s : σ) :
    Res σ PerfReport :=
  match ix.add with
  | none => (.error .attribute, s)
  | some add =>
    match add vs s with
    | (.error e, s) => (.error e, s)
    | (.ok _, s) =>
      match (match ix.build with | none => (.ok (), s) | some b => b s : Res σ Unit) with
      | (.error e, s) => (.error e, s)
      | (.ok _, s) =>
        match perfSearches ix k tick 0 qs s with
        | (.error e, s) => (.error e, s)
        | (.ok ts, s) =>
          if ts.sum = 0 then (.error .other, s)
          else if addTime = 0 then (.error .other, s)
          else (.ok ⟨vs.length / addTime, qs.length / ts.sum⟩, s)

end Valori
