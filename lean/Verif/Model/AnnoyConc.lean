import Mathlib.Logic.Function.Basic
import Verif.Model.Annoy

/-!
# Several threads on one Annoy index: indices/annoy.py:81-115, 152-200, 227-297

Every thread makes one call, `insert`, `search` or `delete`, on an initialised and built index that has its dimension and
its library object, with arrays and queries that pass the validation; nobody builds, loads, clears or closes it.  A
statement that reads or writes a field of the index is one step; what touches only local variables is part of the step
before.  A call of the annoy library is one step: the library is a C extension that holds the interpreter lock.

Simplified: the ids of deletions are natural numbers; every row of an insertion has metadata.  `update` is left out: it
does not do what it says for a single caller either (C38).
-/

namespace Valori
open Spec (AnHit)

/-- What is outside: `addItem` is the library's `add_item`, annoy.py:196 (`none`: it raises), `nns` its
`get_nns_by_vector` given query, `k` and `search_k`, annoy.py:260-262, `sim` is `_distance_to_similarity`,
annoy.py:336-359, `searchK` and `numTrees` are those of the configuration, annoy.py:31, 35. -/
structure AConcEnv (L V F : Type) where
  searchK : Int
  numTrees : Nat
  addItem : L → Nat → V → Option L
  nns : L → V → Int → Int → Option (List (Nat × F))
  sim : F → F

/-- The call of a thread; `insert` is given its rows with their metadata. -/
inductive AOp (V M : Type) where
  | insert (rows : List (V × M))
  | search (q : V) (k : Int)
  | delete (ids : List Nat)

/-- What a call returns. -/
inductive ARes (F M : Type) where
  | ids (l : List Nat)
  | hits (l : List (AnHit F M))
  | flag (b : Bool)
  | raised
deriving DecidableEq

/-- Where an insertion is, for the current row.  `read`: line 188; `load`, `put`: line 189 reads and writes; `vec`: line
192; `md`: line 193; `add`: line 196. -/
inductive AIns where
  | read
  | load (id : Nat)
  | put (id n : Nat)
  | vec (id : Nat)
  | md (id : Nat)
  | add (id : Nat)

/-- Where a deletion is, for the first of the remaining ids.  `test`: line 294; `vec`: line 296; `md`: line 297. -/
inductive ADel where
  | test
  | vec
  | md

/-- Where a search is.  `nns`: line 260 with the `search_k` of lines 255-257; `test`: line 267 for the next neighbour;
`md`: line 275 for a neighbour with its distance. -/
inductive ASr (F M : Type) where
  | nns (sk : Int)
  | test (todo : List (Nat × F)) (acc : List (AnHit F M))
  | md (n : Nat) (d : F) (todo : List (Nat × F)) (acc : List (AnHit F M))

/-- Where a thread is. -/
inductive AAt (F M : Type) where
  | start
  | ins (i : Nat) (ids : List Nat) (p : AIns)
  | del (todo : List Nat) (p : ADel)
  | srch (p : ASr F M)
  | done (r : ARes F M)

/-- The fields of the index that calls touch, annoy.py:46-53, and the places of the threads. -/
structure AConc (L V F M : Type) where
  vectors : List (Option V)
  metas : List (Option M)
  nextId : Nat
  lib : L
  thr : Nat → AAt F M

namespace AConc
variable {L V F M : Type}

/-- The next row of an insertion, or its end, annoy.py:187, 200. -/
def nextRow (rows : List (V × M)) (i : Nat) (ids : List Nat) : AAt F M :=
  if i < rows.length then .ins i ids .read else .done (.ids ids)

/-- One statement of an insertion, annoy.py:185-200. -/
def stepIns (env : AConcEnv L V F) (rows : List (V × M)) (s : AConc L V F M) (i : Nat) (ids : List Nat) :
    AIns → AAt F M × AConc L V F M
  | .read => (.ins i ids (.load s.nextId), s)
  | .load id => (.ins i ids (.put id s.nextId), s)
  | .put id n => (.ins i ids (.vec id), { s with nextId := n + 1 })
  | .vec id =>
    match rows[i]? with
    | none => (.done .raised, s)
    | some (v, _) => (.ins i ids (.md id), { s with vectors := s.vectors ++ [some v] })
  | .md id =>
    match rows[i]? with
    | none => (.done .raised, s)
    | some (_, m) => (.ins i ids (.add id), { s with metas := s.metas ++ [some m] })
  | .add id =>
    match rows[i]? with
    | none => (.done .raised, s)
    | some (v, _) =>
      match env.addItem s.lib id v with
      | none => (.done .raised, s)
      | some l => (nextRow rows (i + 1) (ids ++ [id]), { s with lib := l })

/-- The next id of a deletion, or its end, annoy.py:112-113, 293. -/
def nextDel : List Nat → AAt F M
  | [] => .done (.flag true)
  | l => .del l .test

/-- One statement of a deletion, annoy.py:293-297; a list assignment out of range raises, which `delete` turns into its
own exception, annoy.py:114-115. -/
def stepDel (s : AConc L V F M) (todo : List Nat) : ADel → AAt F M × AConc L V F M
  | .test =>
    match todo with
    | [] => (.done (.flag true), s)
    | id :: rest => (if id < s.vectors.length then .del todo .vec else nextDel rest, s)
  | .vec =>
    match todo with
    | [] => (.done (.flag true), s)
    | id :: _ =>
      if id < s.vectors.length then (.del todo .md, { s with vectors := s.vectors.set id none })
      else (.done .raised, s)
  | .md =>
    match todo with
    | [] => (.done (.flag true), s)
    | id :: rest =>
      if id < s.metas.length then (nextDel rest, { s with metas := s.metas.set id none })
      else (.done .raised, s)

/-- The next neighbour of a search, or its end, annoy.py:266, 279. -/
def nextHit (acc : List (AnHit F M)) : List (Nat × F) → AAt F M
  | [] => .done (.hits acc)
  | l => .srch (.test l acc)

/-- One statement of a search after the first, annoy.py:260-279. -/
def stepSrch (env : AConcEnv L V F) (q : V) (k : Int) (s : AConc L V F M) : ASr F M → AAt F M
  | .nns sk =>
    match env.nns s.lib q k sk with
    | none => .done .raised
    | some ns => nextHit [] ns
  | .test todo acc =>
    match todo with
    | [] => .done (.hits acc)
    | (n, d) :: rest => if n < s.vectors.length then .srch (.md n d rest acc) else nextHit acc rest
  | .md n d rest acc =>
    match s.metas[n]? with
    | none => .done .raised
    | some m => nextHit (acc ++ [⟨n, env.sim d, m⟩]) rest

/-- Thread `t` does one statement. -/
def step (env : AConcEnv L V F) (ops : Nat → AOp V M) (s : AConc L V F M) (t : Nat) : AConc L V F M :=
  match ops t, s.thr t with
  | .insert rows, .start => { s with thr := Function.update s.thr t (nextRow rows 0 []) }
  | .insert rows, .ins i ids p =>
    let r := stepIns env rows s i ids p
    { r.2 with thr := Function.update s.thr t r.1 }
  | .delete ids, .start => { s with thr := Function.update s.thr t (nextDel ids) }
  | .delete _, .del todo p =>
    let r := stepDel s todo p
    { r.2 with thr := Function.update s.thr t r.1 }
  | .search _ _, .start =>
    let sk := if 0 < env.searchK then env.searchK else (env.numTrees : Int) * s.vectors.length
    { s with thr := Function.update s.thr t (.srch (.nns sk)) }
  | .search q k, .srch p => { s with thr := Function.update s.thr t (stepSrch env q k s p) }
  | _, _ => s

/-- The threads do statements in the order of the schedule. -/
def run (env : AConcEnv L V F) (ops : Nat → AOp V M) (s : AConc L V F M) (sched : List Nat) : AConc L V F M :=
  sched.foldl (step env ops) s

end AConc
end Valori
