import Verif.Model.Hnsw
import Verif.Model.Ivf
import Mathlib.Order.WithBot
import Mathlib.Data.List.Chain

/-!
# Searches when a distance is NaN

`IVFIndex` and `HNSWIndex` do not look at the entries of the vectors they are given, so a stored
vector or a query with a NaN in it yields distances that are NaN.  Distances are taken in
`WithTop D`, `⊤` standing for NaN.  `insert`, `update` and `delete` compare distances only in
`_add_to_cluster` (ivf.py:331-338, `if distance < min_distance` starting from infinity), where NaN
and a value above all others behave alike, so the models of `Model/Ivf.lean` and `Model/Hnsw.lean`
serve unchanged.  What differs is `list.sort`: `x < nan` and `nan < x` are both false.
-/

namespace Valori
open Spec (Hit IxCall IxReply)

/-- `a < b` on floats: false when either side is NaN. -/
def ltNan {D : Type} [LinearOrder D] (a b : WithTop D) : Prop := b ≠ ⊤ ∧ a < b

/-- `l.sort(key=lambda x: x[1])` on entries whose keys may be NaN (ivf.py:129, 157, 377;
hnsw.py:144, 163).  Assumed is only what every version of CPython's list sort does: no entry is lost
or doubled (`perm`); a list in which no entry is smaller than the one before it is a single run and
is left as it is (`run`); when all keys are numbers the result is the stable ascending sort
(`numbers`). -/
structure NanSort (D : Type) [LinearOrder D] where
  sort : {α : Type} → List (α × WithTop D) → List (α × WithTop D)
  perm : ∀ {α : Type} (l : List (α × WithTop D)), (sort l).Perm l
  run : ∀ {α : Type} (l : List (α × WithTop D)), l.IsChain (fun a b => ¬ ltNan b.2 a.2) → sort l = l
  numbers : ∀ {α : Type} (l : List (α × WithTop D)), (∀ x ∈ l, x.2 ≠ ⊤) → sort l = pySortBy Prod.snd l

variable {σ V M D : Type} [LinearOrder D]

namespace Ivf

/-- The probed clusters, ivf.py:122-132. -/
def probesNan (srt : NanSort D) (env : IvfEnv V (WithTop D)) (q : V) (cents : List V) :
    Except Err (List Nat) :=
  match numberedDists (env.dist q) 0 cents with
  | .error e => .error e
  | .ok ds => .ok ((sliceTo (srt.sort ds) env.nProbes).map Prod.fst)

/-- `_brute_force_search` (ivf.py:359-394) and the second half of `search` (ivf.py:134-175), with the
simplification named at `Ivf.scanTop`. -/
def scanTopNan (srt : NanSort D) (env : IvfEnv V (WithTop D)) (B : Backend σ V M) (q : V) (k : Int)
    (cand : List Id) (f : Ivf V) (s : σ) : Res (Ivf V × σ) (List (Hit (WithTop D) M)) :=
  match scanVecs B (env.dist q) cand f.cache s with
  | (.error _, c, s') => (.error .index, { f with cache := c }, s')
  | (.ok ds, c, s') =>
    match fetchMeta B (sliceTo (srt.sort ds) k) s' with
    | (.ok hits, s'') => (.ok hits, { f with cache := c }, s'')
    | (.error _, s'') => (.error .index, { f with cache := c }, s'')

/-- `search`, ivf.py:106-178. -/
def searchNan (srt : NanSort D) (env : IvfEnv V (WithTop D)) (B : Backend σ V M) (ndim : Nat) (q : V)
    (k : Int) (f : Ivf V) (s : σ) : Res (Ivf V × σ) (List (Hit (WithTop D) M)) :=
  if !f.inited then (.error .index, f, s)
  else if ndim ≠ 1 then (.error .index, f, s)
  else if f.ids.isEmpty then (.ok [], f, s)
  else if !f.trained then scanTopNan srt env B q k f.ids f s
  else
    match f.cents with
    | none => (.error .index, f, s)
    | some cents =>
      match probesNan srt env q cents with
      | .error _ => (.error .index, f, s)
      | .ok ps => scanTopNan srt env B q k (ps.flatMap fun c => (f.clusters.get? c).getD []) f s

end Ivf

namespace Hnsw

/-- The walk down to level 0, hnsw.py:132-146. -/
def descendNan (srt : NanSort D) (env : HnswEnv V (WithTop D)) (q : V) (f : Hnsw V) :
    Nat → List (Id × WithTop D) → Except Err (List (Id × WithTop D))
  | 0, cands => .ok cands
  | l + 1, cands =>
    match expand (env.dist q) f.vectors ((f.levels[l + 1]?).getD []) cands with
    | .error e => .error e
    | .ok new => descendNan srt env q f l (sliceTo (srt.sort new) env.efSearch)

/-- All candidates before the final sort, hnsw.py:116-160. -/
def candidatesNan (srt : NanSort D) (env : HnswEnv V (WithTop D)) (q : V) (f : Hnsw V) :
    Except Err (List (Id × WithTop D)) :=
  let cur := min f.maxLevel (f.levels.length - 1)
  match entry env q f ((f.levels[cur]?).getD []) with
  | .error e => .error e
  | .ok c0 =>
    match descendNan srt env q f cur c0 with
    | .error e => .error e
    | .ok c =>
      if c.isEmpty then .ok []
      else
        match expand (env.dist q) f.vectors ((f.levels[0]?).getD []) c with
        | .error e => .error e
        | .ok fin => .ok (c ++ fin)

/-- `search`, hnsw.py:101-184, with the simplification named at `Hnsw.search`. -/
def searchNan (srt : NanSort D) (env : HnswEnv V (WithTop D)) (B : Backend σ V M) (ndim : Nat) (q : V)
    (k : Int) (f : Hnsw V) (s : σ) : Res (Hnsw V × σ) (List (Hit (WithTop D) M)) :=
  if !f.inited then (.error .index, f, s)
  else if ndim ≠ 1 then (.error .index, f, s)
  else if f.vectors.isEmpty then (.ok [], f, s)
  else
    match candidatesNan srt env q f with
    | .error _ => (.error .index, f, s)
    | .ok c =>
      match fetchMeta B (sliceTo (srt.sort c) (min k (f.vectors.length : Int))) s with
      | (.ok hits, s') => (.ok hits, f, s')
      | (.error _, s') => (.error .index, f, s')

end Hnsw
end Valori
