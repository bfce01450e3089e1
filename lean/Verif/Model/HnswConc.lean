import Verif.Model.FlatConc
import Verif.Model.HnswPar

/-!
# Several threads inserting, searching, updating and deleting on one HNSW index: indices/hnsw.py:65-234 and 261-318

As `Model/HnswPar`, with updates and deletions, and with the lists of neighbours as objects: who walks through
a list keeps walking through it when its node has been deleted.  Every thread makes one call on an initialised
index with arrays of the right shape; nobody closes it.
-/

namespace Valori
open Spec (Hit)

/-- Next statement of a search, as in `HSr`.  Reading is separate from testing here: `nbrs` takes the list object
of a node (hnsw.py:136 and 153); `nbr` tests whether the id at position `j` of list object `r` has a vector
(lines 137 and 154); `vec` reads it (lines 138-141 and 155-158). -/
inductive GSr (M D : Type) where
  | limit
  | topMax (k : Int)
  | topLen (k : Int) (mx : Nat)
  | top (k : Int) (cl : Nat)
  | iter (k : Int) (cl : Nat)
  | next (k : Int) (cl n : Nat)
  | entry (k : Int) (cl : Nat) (e : Id)
  | walk (k : Int) (cl : Nat) (cands todo found : List (Id × D))
  | nbrs (k : Int) (cl : Nat) (cands todo found : List (Id × D)) (node : Id)
  | nbr (k : Int) (cl : Nat) (cands todo found : List (Id × D)) (r j : Nat)
  | vec (k : Int) (cl : Nat) (cands todo found : List (Id × D)) (r j : Nat) (nb : Id)
  | info (todo : List (Id × D)) (acc : List (Hit D M))
deriving DecidableEq

/-- Next statement of the deletion of one id.  `stor`: hnsw.py:200; `test`, `del`, `len`, `count`: lines 306-308;
`level`: the next level `l` and the test of line 312; `take`: `level[vector_id]` in line 314, `nbr`: position `j` of
that list; `nbTest`, `nbHas`: the two tests of line 315; `nbDel`: line 316; `drop`: line 318. -/
inductive GDel where
  | stor
  | test
  | del
  | len
  | count (n : Nat)
  | level (l : Nat)
  | take (l : Nat)
  | nbr (l r j : Nat)
  | nbTest (l r j : Nat) (nb : Id)
  | nbHas (l r j : Nat) (nb : Id)
  | nbDel (l r j : Nat) (nb : Id)
  | drop (l : Nat)
deriving DecidableEq

/-- Where a thread is: `del i ok p` in the deletion of id number `i`, where `ok` is `success`; `updTest` and
`updSet` are lines 228 and 229; the rest as in `HAt`. -/
inductive GAt (M D : Type) where
  | start
  | ins (i : Nat) (p : HIns)
  | srch (p : GSr M D)
  | del (i : Nat) (ok : Bool) (p : GDel)
  | updTest
  | updSet
  | done (r : FRes M D)
deriving DecidableEq

/-- The index, the storage behind it, and the place of each thread.  `lists` are the list objects made so far,
`levels` names one for each node of each level. -/
structure GConc (V M D : Type) where
  store : Dict Id (V × Option M)
  vectors : Dict Id V
  count : Nat
  lists : List (List Id)
  levels : List (Dict Id Nat)
  maxLevel : Nat
  thr : Nat → GAt M D

namespace GConc
variable {V M D : Type}

/-- `self.levels[l][n]`: the list object; `none` for an IndexError or KeyError. -/
def nodeRef (s : GConc V M D) (l : Nat) (n : Id) : Option Nat := (s.levels[l]?).bind (·.get? n)

/-- The content of a list object. -/
def content (s : GConc V M D) (r : Nat) : List Id := (s.lists[r]?).getD []

/-- One statement of an insertion, hnsw.py:76-97 and 261-302, as `HPar.stepIns`.  Taking the list of a node and
appending to it count as one step: if the node is deleted in between, the list is no longer looked at by anyone who
takes it later. -/
def stepIns (env : HParEnv V D) (rows : List (FRow V M)) (s : GConc V M D) (t i : Nat) (p : HIns) :
    GConc V M D :=
  let go (a : GAt M D) := Function.update s.thr t a
  let fail : GConc V M D := { s with thr := go (.done .raised) }
  match rows[i]? with
  | none => { s with thr := go (.done (.ids (rows.map FRow.id))) }
  | some r =>
    match p with
    | .store => { s with store := s.store.set r.id (r.v, r.m), thr := go (.ins i .vec) }
    | .vec => { s with vectors := s.vectors.set r.id r.v, thr := go (.ins i .len) }
    | .len => { s with thr := go (.ins i (.count s.vectors.length)) }
    | .count n => { s with count := n, thr := go (.ins i .test) }
    | .test => { s with thr := go (.ins i (if s.levels.length ≤ env.level t i then .grow else .node 0)) }
    | .grow => { s with levels := s.levels ++ [[]], thr := go (.ins i .test) }
    | .node l =>
      if env.level t i < l then { s with thr := go (.ins i .readMax) }
      else match s.levels[l]? with
        | none => fail
        | some d =>
          if d.mem r.id then { s with thr := go (.ins i (.node (l + 1))) }
          else { s with lists := s.lists ++ [[]], levels := s.levels.set l (d.set r.id s.lists.length)
                        thr := go (.ins i (.node (l + 1))) }
    | .readMax => { s with thr := go (.ins i (.setMax (max s.maxLevel (env.level t i)))) }
    | .setMax n => { s with maxLevel := n, thr := go (.ins i (.sample 0)) }
    | .sample l =>
      if env.level t i < l then { s with thr := go (.ins (i + 1) .store) }
      else match s.levels[l]? with
        | none => fail
        | some d => { s with thr := go (.ins i (.has l (((env.rnd t i).pick l d.keys).filter (· ∈ d.keys)))) }
    | .has l [] => { s with thr := go (.ins i (.sample (l + 1))) }
    | .has l (nb :: todo) =>
      if nb = r.id then { s with thr := go (.ins i (.has l todo)) }
      else match s.nodeRef l nb with
        | none => fail
        | some o =>
          { s with thr := go (.ins i (if r.id ∈ s.content o then .backHas l nb todo else .push l nb todo)) }
    | .push l nb todo =>
      match s.nodeRef l nb with
      | none => fail
      | some o => { s with lists := s.lists.modify o (· ++ [r.id]), thr := go (.ins i (.backHas l nb todo)) }
    | .backHas l nb todo =>
      match s.nodeRef l r.id with
      | none => fail
      | some o => { s with thr := go (.ins i (if nb ∈ s.content o then .has l todo else .backPush l nb todo)) }
    | .backPush l nb todo =>
      match s.nodeRef l r.id with
      | none => fail
      | some o => { s with lists := s.lists.modify o (· ++ [nb]), thr := go (.ins i (.has l todo)) }

/-- One statement of a deletion, hnsw.py:196-206 and 304-318, for id number `i`.  `list.remove` raises ValueError
for an id that is not in the list; taking the list and removing from it count as one step. -/
def stepDel (dels : List Id) (s : GConc V M D) (t i : Nat) (ok : Bool) (p : GDel) : GConc V M D :=
  let go (a : GAt M D) := Function.update s.thr t a
  let fail : GConc V M D := { s with thr := go (.done .raised) }
  match dels[i]? with
  | none => { s with thr := go (.done (.flag ok)) }
  | some id =>
    match p with
    | .stor => { s with store := s.store.pop id, thr := go (.del i (ok && s.store.mem id) .test) }
    | .test => { s with thr := go (.del i ok (if s.vectors.mem id then .del else .level 0)) }
    | .del =>
      if s.vectors.mem id then { s with vectors := s.vectors.pop id, thr := go (.del i ok .len) } else fail
    | .len => { s with thr := go (.del i ok (.count s.vectors.length)) }
    | .count n => { s with count := n, thr := go (.del i ok (.level 0)) }
    | .level l =>
      match s.levels[l]? with
      | none => { s with thr := go (.del (i + 1) ok .stor) }
      | some d => { s with thr := go (.del i ok (if d.mem id then .take l else .level (l + 1))) }
    | .take l =>
      match s.nodeRef l id with
      | none => fail
      | some r => { s with thr := go (.del i ok (.nbr l r 0)) }
    | .nbr l r j =>
      match (s.content r)[j]? with
      | none => { s with thr := go (.del i ok (.drop l)) }
      | some nb => { s with thr := go (.del i ok (.nbTest l r j nb)) }
    | .nbTest l r j nb =>
      { s with thr := go (.del i ok (if (s.nodeRef l nb).isSome then .nbHas l r j nb else .nbr l r (j + 1))) }
    | .nbHas l r j nb =>
      match s.nodeRef l nb with
      | none => fail
      | some o => { s with thr := go (.del i ok (if id ∈ s.content o then .nbDel l r j nb else .nbr l r (j + 1))) }
    | .nbDel l r j nb =>
      match s.nodeRef l nb with
      | none => fail
      | some o =>
        if id ∈ s.content o then
          { s with lists := s.lists.modify o (fun x => removeFirst x id), thr := go (.del i ok (.nbr l r (j + 1))) }
        else fail
    | .drop l =>
      match s.levels[l]? with
      | none => fail
      | some d =>
        if d.mem id then { s with levels := s.levels.set l (d.pop id), thr := go (.del i ok (.level (l + 1))) }
        else fail

variable [LinearOrder D]

/-- The end of a round through all candidates, as `HPar.roundEnd`. -/
def roundEnd (env : HParEnv V D) (k : Int) (cl : Nat) (cands found : List (Id × D)) : GSr M D :=
  match cl with
  | 0 => .info (sliceTo (pySortBy Prod.snd (cands ++ found)) k) []
  | cl + 1 => let c := sliceTo (pySortBy Prod.snd found) env.efSearch; .walk k cl c c []

/-- One statement of a search, hnsw.py:101-184, as `HPar.stepSr`; `self.vectors[id]` raises KeyError for an id that
has just been deleted. -/
def stepSr (env : HParEnv V D) (q : V) (k₀ : Int) (s : GConc V M D) : GSr M D → GAt M D
  | .limit => .srch (.topMax (min k₀ (s.vectors.length : Int)))
  | .topMax k => .srch (.topLen k s.maxLevel)
  | .topLen k mx => .srch (.top k (min mx (s.levels.length - 1)))
  | .top k cl =>
    match s.levels[cl]? with
    | none => .done .raised
    | some d => if d.isEmpty then .srch (.walk k cl [] [] []) else .srch (.iter k cl)
  | .iter k cl =>
    match s.levels[cl]? with
    | none => .done .raised
    | some d => .srch (.next k cl d.length)
  | .next k cl n =>
    match s.levels[cl]? with
    | none => .done .raised
    | some d =>
      if d.length ≠ n then .done .raised
      else match d with
        | [] => .done .raised
        | (e, _) :: _ => .srch (.entry k cl e)
  | .entry k cl e =>
    match s.vectors.get? e with
    | none => .done .raised
    | some v =>
      match env.dist q v with
      | .error _ => .done .raised
      | .ok d => .srch (.walk k cl [(e, d)] [(e, d)] [])
  | .walk k cl cands [] found => .srch (roundEnd env k cl cands found)
  | .walk k cl cands ((n, _) :: todo) found =>
    match s.levels[cl]? with
    | none => .done .raised
    | some d => if d.mem n then .srch (.nbrs k cl cands todo found n) else .srch (.walk k cl cands todo found)
  | .nbrs k cl cands todo found n =>
    match s.nodeRef cl n with
    | none => .done .raised
    | some r => .srch (.nbr k cl cands todo found r 0)
  | .nbr k cl cands todo found r j =>
    match (s.content r)[j]? with
    | none => .srch (.walk k cl cands todo found)
    | some nb =>
      if s.vectors.mem nb then .srch (.vec k cl cands todo found r j nb)
      else .srch (.nbr k cl cands todo found r (j + 1))
  | .vec k cl cands todo found r j nb =>
    match s.vectors.get? nb with
    | none => .done .raised
    | some v =>
      match env.dist q v with
      | .error _ => .done .raised
      | .ok d => .srch (.nbr k cl cands todo (found ++ [(nb, d)]) r (j + 1))
  | .info [] acc => .done (.hits acc)
  | .info ((id, d) :: todo) acc =>
    match s.store.get? id with
    | none => .done .raised
    | some (_, m) => .srch (.info todo (acc ++ [⟨id, d, m⟩]))

/-- One statement of thread `t`; the first one of a search is the test of hnsw.py:110, the first one of an update the
storage call of line 224. -/
def step (env : HParEnv V D) (ops : Nat → FOp V M) (s : GConc V M D) (t : Nat) : GConc V M D :=
  let go (a : GAt M D) := Function.update s.thr t a
  match ops t, s.thr t with
  | .insert _, .start => { s with thr := go (.ins 0 .store) }
  | .insert rows, .ins i p => stepIns env rows s t i p
  | .search _ _, .start => { s with thr := go (if s.vectors.isEmpty then .done (.hits []) else .srch .limit) }
  | .search q k, .srch p => { s with thr := go (stepSr env q k s p) }
  | .update id v m, .start =>
    if s.store.mem id then { s with store := s.store.set id (v, m), thr := go .updTest }
    else { s with thr := go (.done (.flag false)) }
  | .update id _ _, .updTest => { s with thr := go (if s.vectors.mem id then .updSet else .done (.flag true)) }
  | .update id v _, .updSet => { s with vectors := s.vectors.set id v, thr := go (.done (.flag true)) }
  | .delete _, .start => { s with thr := go (.del 0 true .stor) }
  | .delete dels, .del i ok p => stepDel dels s t i ok p
  | _, _ => s

/-- A whole execution. -/
def run (env : HParEnv V D) (ops : Nat → FOp V M) (s : GConc V M D) (sched : List Nat) : GConc V M D :=
  sched.foldl (step env ops) s

end GConc
end Valori
