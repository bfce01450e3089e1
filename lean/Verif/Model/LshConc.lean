import Mathlib.Logic.Function.Basic
import Verif.Model.Lsh

/-!
# Several threads on one LSH index: indices/lsh.py:65-266, 313-375

Every thread makes one call, `insert`, `search`, `update` or `delete`, on an initialised index that has its dimension and
its projections, with arrays and queries that pass the validation; nobody clears or closes it.  A statement that reads
or writes a field of the index is one step; what touches only local variables is part of the step before.

Simplified: the ids of updates and deletions are natural numbers (negative ones are those of C222, others are skipped or
refused before anything is touched); every row of an insertion has metadata.  Buckets are values and no list objects: the
list of a bucket is never replaced by another one and no bucket is taken out of its table, so that a list object and
the bucket under its code are the same.  For the same reason `if hash_code in table:` and the statement below it
are one step: a bucket that is there stays there.
-/

namespace Valori
open Spec (NHit)

/-- What is outside: `hash v` is `_hash_vector(v)`, lsh.py:313-349 (`none`: it raises, as for a vector of another
dimension), `sim` is `_compute_distance`, lsh.py:377-395, `setOrder` the order of a set built from the
listed ids, `threshold` that of the search, lsh.py:151-152. -/
structure LConcEnv (V S : Type) where
  hash : V → Option (List Code)
  sim : V → V → Except Err S
  setOrder : List Nat → List Nat
  threshold : S

/-- The call of a thread; `insert` is given its rows with their metadata. -/
inductive LOp (V M : Type) where
  | insert (rows : List (V × M))
  | search (q : V) (k : Int)
  | update (id : Nat) (v : V) (m : Option M)
  | delete (ids : List Nat)

/-- What a call returns. -/
inductive LRes (M S : Type) where
  | ids (l : List Nat)
  | hits (l : List (NHit S M))
  | flag (b : Bool)
  | raised

/-- Where an insertion is, for the current row.  `read`: line 101; `load`, `put`: line 102 reads and writes; `vec`: line
105; `md`: line 106; `add`: line 114 for table `j`, the codes being those of line 110. -/
inductive LIns where
  | read
  | load (id : Nat)
  | put (id n : Nat)
  | vec (id : Nat)
  | md (id : Nat)
  | add (id j : Nat) (codes : List Code)

/-- Where an update is.  The first statement is the test of the length, line 242; `live`: the test for `None` of line
242; `old`: line 246 and the codes of line 247; `drop`: lines 249-253 for table `j`; `vec`: line 256; `md`: line 258;
`again`: line 261; `add`: line 263 for table `j`. -/
inductive LUpd where
  | live
  | old
  | drop (j : Nat) (codes : List Code)
  | vec
  | md
  | again
  | add (j : Nat) (codes : List Code)

/-- Where a deletion is, for the first of the remaining ids.  `test`: line 202; `old`: line 204 and the codes of line
207; `drop`: lines 210-214 for table `j`; `vec`: line 217; `md`: line 218. -/
inductive LDel where
  | test
  | old
  | drop (j : Nat) (codes : List Code)
  | vec
  | md

/-- Where a search is.  `exact`: lines 161-162 for table `j`; `iter`: the iterator of line 365 is made for table `j`;
`next`: its item number `p`, for a table that had `n` buckets; `take`: line 373 for bucket `c`; `score`:
lines 171-178 for the next candidate; `md`: line 183 for a candidate with similarity `d`. -/
inductive LSr (M S : Type) where
  | exact (j : Nat) (codes : List Code) (got : List Nat)
  | iter (j : Nat) (codes : List Code) (got : List Nat)
  | next (j n p : Nat) (codes : List Code) (got : List Nat)
  | take (j n p : Nat) (codes : List Code) (got : List Nat) (c : Code)
  | score (todo : List Nat) (acc : List (NHit S M))
  | md (id : Nat) (d : S) (todo : List Nat) (acc : List (NHit S M))

/-- Where a thread is. -/
inductive LAt (M S : Type) where
  | start
  | ins (i : Nat) (ids : List Nat) (p : LIns)
  | upd (p : LUpd)
  | del (todo : List Nat) (p : LDel)
  | srch (p : LSr M S)
  | done (r : LRes M S)

/-- The fields of the index that calls touch, lsh.py:50-57, and the places of the threads. -/
structure LConc (V M S : Type) where
  vectors : List (Option V)
  metas : List (Option M)
  tables : List (Dict Code (List Nat))
  nextId : Nat
  thr : Nat → LAt M S

namespace LConc
variable {V M S : Type}

/-- The list of a bucket; empty when the table has none. -/
def bucket (s : LConc V M S) (j : Nat) (c : Code) : List Nat := ((s.tables[j]?.getD []).get? c).getD []

/-- `self.hash_tables[j][c].append(id)` on a `defaultdict`, lsh.py:114, 263. -/
def push (s : LConc V M S) (j : Nat) (c : Code) (id : Nat) : LConc V M S :=
  { s with tables := s.tables.modify j fun d => d.set c ((d.get? c).getD [] ++ [id]) }

/-- `if c in table: table[c].remove(id)`, a missing id being ignored, lsh.py:210-214, 249-253. -/
def pull (s : LConc V M S) (j : Nat) (c : Code) (id : Nat) : LConc V M S :=
  { s with tables := s.tables.modify j fun d =>
      match d.get? c with
      | none => d
      | some l => d.set c (removeFirst l id) }

/-- The next row of an insertion, or its end, lsh.py:100, 116-118. -/
def nextRow (rows : List (V × M)) (i : Nat) (ids : List Nat) : LAt M S :=
  if i < rows.length then .ins i ids .read else .done (.ids ids)

/-- One statement of an insertion, lsh.py:100-118. -/
def stepIns (env : LConcEnv V S) (rows : List (V × M)) (s : LConc V M S) (i : Nat) (ids : List Nat) :
    LIns → LAt M S × LConc V M S
  | .read => (.ins i ids (.load s.nextId), s)
  | .load id => (.ins i ids (.put id s.nextId), s)
  | .put id n => (.ins i ids (.vec id), { s with nextId := n + 1 })
  | .vec id =>
    match rows[i]? with
    | none => (.done .raised, s)
    | some (v, _) => (.ins i ids (.md id), { s with vectors := s.vectors ++ [some v] })
  | .md id =>
    match rows[i]? with
    | none => (.done .raised, s)
    | some (v, m) =>
      (match env.hash v with
        | none => .done .raised
        | some codes => .ins i ids (.add id 0 codes), { s with metas := s.metas ++ [some m] })
  | .add id j codes =>
    match codes[j]? with
    | some c => (.ins i ids (.add id (j + 1) codes), s.push j c id)
    | none => (nextRow rows (i + 1) (ids ++ [id]), s)

/-- One statement of an update, lsh.py:240-267; whatever raises makes it return `False`. -/
def stepUpd (env : LConcEnv V S) (id : Nat) (v : V) (m : Option M) (s : LConc V M S) : LUpd → LAt M S × LConc V M S
  | .live =>
    match s.vectors[id]? with
    | some (some _) => (.upd .old, s)
    | _ => (.done (.flag false), s)
  | .old =>
    match s.vectors[id]? with
    | some (some w) =>
      match env.hash w with
      | none => (.done (.flag false), s)
      | some codes => (.upd (.drop 0 codes), s)
    | _ => (.done (.flag false), s)
  | .drop j codes =>
    match codes[j]? with
    | some c => (.upd (.drop (j + 1) codes), s.pull j c id)
    | none => (.upd .vec, s)
  | .vec =>
    (match m with
      | none => .upd .again
      | some _ => .upd .md, { s with vectors := s.vectors.set id (some v) })
  | .md =>
    if id < s.metas.length then (.upd .again, { s with metas := s.metas.set id m }) else (.done (.flag false), s)
  | .again =>
    match s.vectors[id]? with
    | some (some w) =>
      match env.hash w with
      | none => (.done (.flag false), s)
      | some codes => (.upd (.add 0 codes), s)
    | _ => (.done (.flag false), s)
  | .add j codes =>
    match codes[j]? with
    | some c => (.upd (.add (j + 1) codes), s.push j c id)
    | none => (.done (.flag true), s)

/-- The next id of a deletion, or its end, lsh.py:201, 229-230. -/
def nextDel : List Nat → LAt M S
  | [] => .done (.flag true)
  | id :: todo => .del (id :: todo) .test

/-- One statement of a deletion, lsh.py:201-218, 220-232; whatever raises makes it return `False`. -/
def stepDel (env : LConcEnv V S) (s : LConc V M S) (id : Nat) (todo : List Nat) : LDel → LAt M S × LConc V M S
  | .test => if id < s.vectors.length then (.del (id :: todo) .old, s) else (nextDel todo, s)
  | .old =>
    match s.vectors[id]? with
    | some (some w) =>
      match env.hash w with
      | none => (.done (.flag false), s)
      | some codes => (.del (id :: todo) (.drop 0 codes), s)
    | _ => (nextDel todo, s)
  | .drop j codes =>
    match codes[j]? with
    | some c => (.del (id :: todo) (.drop (j + 1) codes), s.pull j c id)
    | none => (.del (id :: todo) .vec, s)
  | .vec => (.del (id :: todo) .md, { s with vectors := s.vectors.set id none })
  | .md =>
    if id < s.metas.length then (nextDel todo, { s with metas := s.metas.set id none }) else (.done (.flag false), s)

section
variable [LinearOrder S]

/-- The end of a search: sorted by similarity, the largest first, and cut off, lsh.py:188-189. -/
def finish (k : Int) (acc : List (NHit S M)) : LAt M S := .done (.hits (sliceTo (Lsh.sortDesc acc) k))

/-- One statement of a search, lsh.py:155-189, 351-375. -/
def stepSr (env : LConcEnv V S) (q : V) (k : Int) (s : LConc V M S) : LSr M S → LAt M S
  | .exact j codes got =>
    match codes[j]? with
    | some c => .srch (.exact (j + 1) codes (got ++ s.bucket j c))
    | none => if got = [] then .srch (.iter 0 codes []) else .srch (.score (env.setOrder got) [])
  | .iter j codes got =>
    match codes[j]? with
    | some _ => .srch (.next j (s.tables[j]?.getD []).length 0 codes got)
    | none => .srch (.score (env.setOrder got) [])
  | .next j n p codes got =>
    if (s.tables[j]?.getD []).length ≠ n then .done .raised
    else
      match (s.tables[j]?.getD [])[p]?, codes[j]? with
      | some (c, _), some qc =>
        if Lsh.hamming qc c ≤ 2 then .srch (.take j n p codes got c) else .srch (.next j n (p + 1) codes got)
      | _, _ => .srch (.iter (j + 1) codes got)
  | .take j n p codes got c => .srch (.next j n (p + 1) codes (got ++ s.bucket j c))
  | .score todo acc =>
    match todo with
    | [] => finish k acc
    | id :: todo =>
      match s.vectors[id]? with
      | some (some v) =>
        match env.sim q v with
        | .error _ => .done .raised
        | .ok d => if env.threshold ≤ d then .srch (.md id d todo acc) else .srch (.score todo acc)
      | _ => .srch (.score todo acc)
  | .md id d todo acc =>
    match s.metas[id]? with
    | none => .done .raised
    | some m => .srch (.score todo (acc ++ [⟨id, d, m⟩]))

/-- One statement of thread `t`.  The first statement of an update is the test of the length, lsh.py:242; a search
computes the codes of its query, lsh.py:156. -/
def step (env : LConcEnv V S) (ops : Nat → LOp V M) (s : LConc V M S) (t : Nat) : LConc V M S :=
  let go (x : LAt M S × LConc V M S) : LConc V M S := { x.2 with thr := Function.update s.thr t x.1 }
  match ops t, s.thr t with
  | .insert rows, .start => go (nextRow rows 0 [], s)
  | .insert rows, .ins i ids p => go (stepIns env rows s i ids p)
  | .update id _ _, .start => go (if id < s.vectors.length then .upd .live else .done (.flag false), s)
  | .update id v m, .upd p => go (stepUpd env id v m s p)
  | .delete l, .start => go (nextDel l, s)
  | .delete _, .del (id :: todo) p => go (stepDel env s id todo p)
  | .search q _, .start =>
    go (match env.hash q with
      | none => .done .raised
      | some codes => .srch (.exact 0 codes []), s)
  | .search q k, .srch p => go (stepSr env q k s p, s)
  | _, _ => s

/-- The threads make their statements in the order of the schedule. -/
def run (env : LConcEnv V S) (ops : Nat → LOp V M) (s : LConc V M S) (sched : List Nat) : LConc V M S :=
  sched.foldl (step env ops) s
end

end LConc
end Valori
