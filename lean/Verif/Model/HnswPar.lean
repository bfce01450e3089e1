import Verif.Model.Hnsw
import Verif.Model.FlatConc

/-!
# Several threads inserting into and searching one HNSW index: indices/hnsw.py:63-184 and 261-302

The index has no lock.  A step is one statement that reads or writes shared attributes; the scheduler may
switch threads between steps.  Every thread makes one call on an initialised index with arrays of the right
shape; nobody deletes, updates or closes.  A call of the storage is one step (C163 for the memory storage);
the storage is a map from ids to vectors and metadata.
-/

namespace Valori
open Spec (Hit)

/-- The call a thread makes; rows come with their uuids. -/
inductive HOp (V M : Type) where
  | insert (rows : List (FRow V M))
  | search (q : V) (k : Int)

/-- Next statement of an insertion of one row.  `store`: hnsw.py:89; `vec`: line 263; `len`, `count`: the
two halves of line 264; `test`, `grow`: lines 274 and 275; `node`: lines 278-284 for one level; `readMax`,
`setMax`: the two halves of line 286; `sample`: lines 289-294 for one level; for one neighbour `has`: lines
297 and 299, `push`: line 300, `backHas`: line 301, `backPush`: line 302. -/
inductive HIns where
  | store
  | vec
  | len
  | count (n : Nat)
  | test
  | grow
  | node (l : Nat)
  | readMax
  | setMax (n : Nat)
  | sample (l : Nat)
  | has (l : Nat) (todo : List Id)
  | push (l : Nat) (nb : Id) (todo : List Id)
  | backHas (l : Nat) (nb : Id) (todo : List Id)
  | backPush (l : Nat) (nb : Id) (todo : List Id)
deriving DecidableEq

/-- Next statement of a search.  `limit`: hnsw.py:114; `topMax`, `topLen`: the two reads of line 117; `top`:
line 121; `iter`, `next`: `iter(...)` and `next(...)` in line 123, where `n` is the size of the dictionary
when the iterator was made; `entry`: line 127; `walk`: the next candidate in lines 134-135 and 151-152
(`cands` are the candidates, `found` the new ones); `nbr`: the round of the loop in lines 136-141 and
153-158 for position `j` of the list; `info`: the loop that reads the metadata (lines 171-179). -/
inductive HSr (M D : Type) where
  | limit
  | topMax (k : Int)
  | topLen (k : Int) (mx : Nat)
  | top (k : Int) (cl : Nat)
  | iter (k : Int) (cl : Nat)
  | next (k : Int) (cl n : Nat)
  | entry (k : Int) (cl : Nat) (e : Id)
  | walk (k : Int) (cl : Nat) (cands todo found : List (Id × D))
  | nbr (k : Int) (cl : Nat) (cands todo found : List (Id × D)) (node : Id) (j : Nat)
  | info (todo : List (Id × D)) (acc : List (Hit D M))
deriving DecidableEq

/-- Where a thread is: `ins i p` in the insertion of row `i`, `srch p` in a search, `done r` returned or
raised. -/
inductive HAt (M D : Type) where
  | start
  | ins (i : Nat) (p : HIns)
  | srch (p : HSr M D)
  | done (r : FRes M D)
deriving DecidableEq

/-- The index, the storage behind it, and the place of each thread. -/
structure HPar (V M D : Type) where
  store : Dict Id (V × Option M)
  vectors : Dict Id V
  count : Nat
  levels : List Level
  maxLevel : Nat
  thr : Nat → HAt M D

/-- `ef_search`, the distance, and the random choices of thread `t` for its row `i`. -/
structure HParEnv (V D : Type) where
  efSearch : Int
  dist : V → V → Except Err D
  rnd : Nat → Nat → Rnd

/-- The level drawn for a row, hnsw.py:269-271. -/
def HParEnv.level {V D : Type} (env : HParEnv V D) (t i : Nat) : Nat := min (env.rnd t i).level 10

namespace HPar
variable {V M D : Type}

/-- `self.levels[l][n]`, `none` for an IndexError or KeyError. -/
def nodeOf (s : HPar V M D) (l : Nat) (n : Id) : Option (List Id) := (s.levels[l]?).bind (·.get? n)

/-- The levels after `self.levels[l][n] = ns`, or after a change of that list to `ns`. -/
def setNode (levels : List Level) (l : Nat) (n : Id) (ns : List Id) : List Level :=
  levels.modify l fun d => d.set n ns

/-- One statement of an insertion, hnsw.py:76-97 and 261-302.  `random.sample` returns elements of its
argument: choices that are not nodes of the level are dropped, as in `Hnsw.insertLevel`.  The test and the
assignment of lines 278-284 count as one step: no other thread adds a node under this id. -/
def stepIns (env : HParEnv V D) (rows : List (FRow V M)) (s : HPar V M D) (t i : Nat) (p : HIns) :
    HPar V M D :=
  let go (a : HAt M D) := Function.update s.thr t a
  let fail : HPar V M D := { s with thr := go (.done .raised) }
  match rows[i]? with
  | none => { s with thr := go (.done (.ids (rows.map FRow.id))) }
  | some r =>
    match p with
    | .store => { s with store := s.store.set r.id (r.v, r.m), thr := go (.ins i .vec) }
    | .vec => { s with vectors := s.vectors.set r.id r.v, thr := go (.ins i .len) }
    | .len => { s with thr := go (.ins i (.count s.vectors.length)) }
    | .count n => { s with count := n, thr := go (.ins i .test) }
    | .test => { s with thr := go (.ins i (if s.levels.length ≤ env.level t i then .grow else .node 0)) }
    | .grow => { s with levels := s.levels ++ [[]], thr := go (.ins i .test) }
    | .node l =>
      if env.level t i < l then { s with thr := go (.ins i .readMax) }
      else match s.levels[l]? with
        | none => fail
        | some d => { s with levels := s.levels.set l (Hnsw.addNode d r.id), thr := go (.ins i (.node (l + 1))) }
    | .readMax => { s with thr := go (.ins i (.setMax (max s.maxLevel (env.level t i)))) }
    | .setMax n => { s with maxLevel := n, thr := go (.ins i (.sample 0)) }
    | .sample l =>
      if env.level t i < l then { s with thr := go (.ins (i + 1) .store) }
      else match s.levels[l]? with
        | none => fail
        | some d => { s with thr := go (.ins i (.has l (((env.rnd t i).pick l d.keys).filter (· ∈ d.keys)))) }
    | .has l [] => { s with thr := go (.ins i (.sample (l + 1))) }
    | .has l (nb :: todo) =>
      if nb = r.id then { s with thr := go (.ins i (.has l todo)) }
      else match s.nodeOf l nb with
        | none => fail
        | some ns => { s with thr := go (.ins i (if r.id ∈ ns then .backHas l nb todo else .push l nb todo)) }
    | .push l nb todo =>
      match s.nodeOf l nb with
      | none => fail
      | some ns => { s with levels := setNode s.levels l nb (ns ++ [r.id]), thr := go (.ins i (.backHas l nb todo)) }
    | .backHas l nb todo =>
      match s.nodeOf l r.id with
      | none => fail
      | some ns => { s with thr := go (.ins i (if nb ∈ ns then .has l todo else .backPush l nb todo)) }
    | .backPush l nb todo =>
      match s.nodeOf l r.id with
      | none => fail
      | some ns => { s with levels := setNode s.levels l r.id (ns ++ [nb]), thr := go (.ins i (.has l todo)) }

variable [LinearOrder D]

/-- The end of a round through all candidates: the sort and the cut of hnsw.py:144-145 or the extension and
the sort of lines 160-164; both touch only local variables. -/
def roundEnd (env : HParEnv V D) (k : Int) (cl : Nat) (cands found : List (Id × D)) : HSr M D :=
  match cl with
  | 0 => .info (sliceTo (pySortBy Prod.snd (cands ++ found)) k) []
  | cl + 1 => let c := sliceTo (pySortBy Prod.snd found) env.efSearch; .walk k cl c c []

/-- One statement of a search, hnsw.py:101-184.  A `for` loop over a list looks at position `j` of the list
as it is then; `next` on an iterator of a dictionary whose size has changed raises RuntimeError.  Looking
whether an id has a vector and reading it count as one step, since nobody removes vectors. -/
def stepSr (env : HParEnv V D) (q : V) (k₀ : Int) (s : HPar V M D) : HSr M D → HAt M D
  | .limit => .srch (.topMax (min k₀ (s.vectors.length : Int)))
  | .topMax k => .srch (.topLen k s.maxLevel)
  | .topLen k mx => .srch (.top k (min mx (s.levels.length - 1)))
  | .top k cl =>
    match s.levels[cl]? with
    | none => .done .raised
    | some d => if d.isEmpty then .srch (.walk k cl [] [] []) else .srch (.iter k cl)
  | .iter k cl =>
    match s.levels[cl]? with
    | none => .done .raised
    | some d => .srch (.next k cl d.length)
  | .next k cl n =>
    match s.levels[cl]? with
    | none => .done .raised
    | some d =>
      if d.length ≠ n then .done .raised
      else match d with
        | [] => .done .raised
        | (e, _) :: _ => .srch (.entry k cl e)
  | .entry k cl e =>
    match s.vectors.get? e with
    | none => .done .raised
    | some v =>
      match env.dist q v with
      | .error _ => .done .raised
      | .ok d => .srch (.walk k cl [(e, d)] [(e, d)] [])
  | .walk k cl cands [] found => .srch (roundEnd env k cl cands found)
  | .walk k cl cands ((n, _) :: todo) found =>
    match s.levels[cl]? with
    | none => .done .raised
    | some d => if d.mem n then .srch (.nbr k cl cands todo found n 0) else .srch (.walk k cl cands todo found)
  | .nbr k cl cands todo found n j =>
    match s.nodeOf cl n with
    | none => .done .raised
    | some ns =>
      match ns[j]? with
      | none => .srch (.walk k cl cands todo found)
      | some nb =>
        match s.vectors.get? nb with
        | none => .srch (.nbr k cl cands todo found n (j + 1))
        | some v =>
          match env.dist q v with
          | .error _ => .done .raised
          | .ok d => .srch (.nbr k cl cands todo (found ++ [(nb, d)]) n (j + 1))
  | .info [] acc => .done (.hits acc)
  | .info ((id, d) :: todo) acc =>
    match s.store.get? id with
    | none => .done .raised
    | some (_, m) => .srch (.info todo (acc ++ [⟨id, d, m⟩]))

/-- One statement of thread `t`; the first one of a search is the test of hnsw.py:110. -/
def step (env : HParEnv V D) (ops : Nat → HOp V M) (s : HPar V M D) (t : Nat) : HPar V M D :=
  match ops t, s.thr t with
  | .insert _, .start => { s with thr := Function.update s.thr t (.ins 0 .store) }
  | .insert rows, .ins i p => stepIns env rows s t i p
  | .search _ _, .start =>
    { s with thr := Function.update s.thr t (if s.vectors.isEmpty then .done (.hits []) else .srch .limit) }
  | .search q k, .srch p => { s with thr := Function.update s.thr t (stepSr env q k s p) }
  | _, _ => s

/-- A whole execution. -/
def run (env : HParEnv V D) (ops : Nat → HOp V M) (s : HPar V M D) (sched : List Nat) : HPar V M D :=
  sched.foldl (step env ops) s

end HPar
end Valori
