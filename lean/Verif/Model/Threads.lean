import Verif.Model.Memory

/-!
# Several threads calling one `MemoryStorage`: storage/memory.py

`parallel_batch_insert` (batch_manager.py:221) calls one client from several threads.  The methods of
`MemoryStorage` look at `_initialized` first and do the rest `with self.lock`.  Here every read or write
of an attribute is a step of its own and the scheduler may switch threads between any two steps.  An
exception inside a locked body is not modelled: with immutable values none occurs.
-/

namespace Valori

/-- An object whose methods check something, then take a lock and run a body of small steps.  `check` is
`some r` if the call is answered without the lock; a step of the body works on the object and on a local
value, which is the reply in the end. -/
structure LockObj (σ C R : Type) where
  check : σ → C → Option R
  body : C → List (σ × R → σ × R)
  zero : R

/-- Where a thread is in its current call: not begun, waiting for the lock, or inside the body. -/
inductive Pc (R : Type) where
  | out
  | wait
  | inside (k : Nat) (reg : R)
deriving DecidableEq

/-- A thread: calls still to make, where it is in the first of them, replies so far. -/
structure Thr (C R : Type) where
  todo : List C
  pc : Pc R
  got : List R

/-- The object, its lock, the threads, and for reference the calls in the order they were completed. -/
structure Sys (σ C R : Type) where
  obj : σ
  lock : Option Nat
  thr : Nat → Thr C R
  log : List (Nat × C × R)

variable {σ C R : Type}

/-- The first call of thread `t` returns `r`. -/
def Sys.finish (s : Sys σ C R) (t : Nat) (c : C) (rest : List C) (r : R) : Sys σ C R :=
  { s with thr := Function.update s.thr t ⟨rest, .out, (s.thr t).got ++ [r]⟩
           log := s.log ++ [(t, c, r)] }

/-- One step of thread `t`; nothing happens if it has nothing to do or waits for the lock. -/
def Sys.step (O : LockObj σ C R) (s : Sys σ C R) (t : Nat) : Sys σ C R :=
  match (s.thr t).todo with
  | [] => s
  | c :: rest =>
    match (s.thr t).pc with
    | .out =>
      match O.check s.obj c with
      | some r => s.finish t c rest r
      | none => { s with thr := Function.update s.thr t { s.thr t with pc := .wait } }
    | .wait =>
      match s.lock with
      | some _ => s
      | none => { s with lock := some t
                         thr := Function.update s.thr t { s.thr t with pc := .inside 0 O.zero } }
    | .inside k reg =>
      match (O.body c)[k]? with
      | some f =>
        let p := f (s.obj, reg)
        { s with obj := p.1, thr := Function.update s.thr t { s.thr t with pc := .inside (k + 1) p.2 } }
      | none => ({ s with lock := none }).finish t c rest reg

/-- A schedule says which thread moves next. -/
def Sys.run (O : LockObj σ C R) (s : Sys σ C R) (sched : List Nat) : Sys σ C R := sched.foldl (Sys.step O) s

/-- Threads about to run their programs. -/
def Sys.begin (x : σ) (progs : Nat → List C) : Sys σ C R := ⟨x, none, fun t => ⟨progs t, .out, []⟩, []⟩

/-! ## The methods of `MemoryStorage` -/

/-- A call. -/
inductive MCall (V M : Type) where
  | store (id : Id) (v : V) (m : Option M)
  | retrieve (id : Id)
  | delete (id : Id)
  | update (id : Id) (v : V) (m : Option M)
  | list (limit : Option Int)
  | stats
  | setup
  | close
deriving DecidableEq

/-- A reply. -/
inductive MReply (V M : Type) where
  | done
  | bool (b : Bool)
  | found (r : Option (V × Option M))
  | ids (l : List Id)
  | stats (r : Option (Nat × Nat))
  | raised (e : Err)
deriving DecidableEq

variable {V M : Type} [ByteSize V] [ByteSize M]

/-- What precedes `with self.lock`: memory.py:43-47, 74-75, 87-88, 114-115, 144-145, 155-156. -/
def memCheck (s : Mem V M) : MCall V M → Option (MReply V M)
  | .store id _ _ => if id = "" then some (.bool false) else if !s.inited then some (.raised .storage) else none
  | .retrieve _ => if !s.inited then some (.raised .storage) else none
  | .delete _ => if !s.inited then some (.raised .storage) else none
  | .update _ _ _ => if !s.inited then some (.raised .storage) else none
  | .list _ => if !s.inited then some (.raised .storage) else none
  | .stats => if !s.inited then some (.stats none) else none
  | .setup => none
  | .close => none

/-- A step that is skipped once the local value says `False`. -/
def whenTrue (f : Mem V M → Mem V M) (p : Mem V M × MReply V M) : Mem V M × MReply V M :=
  match p.2 with
  | .bool true => (f p.1, p.2)
  | _ => p

/-- The bodies: memory.py:32-38, 51-68, 77-83, 91-106, 118-138, 147-151, 158-165, 169-174. -/
def memBody : MCall V M → List (Mem V M × MReply V M → Mem V M × MReply V M)
  | .store id v m => [
      fun p => ({ p.1 with vectors := p.1.vectors.set id v }, p.2),
      fun p => ({ p.1 with metadata := Mem.putMeta p.1.metadata id m }, p.2),
      fun p => ({ p.1 with count := p.1.vectors.length }, p.2),
      fun p => ({ p.1 with usage := Mem.usageOf p.1.vectors p.1.metadata }, p.2),
      fun p => (p.1, .bool true)]
  | .retrieve id => [
      fun p => (p.1, .found ((p.1.vectors.get? id).map fun v => (v, none))),
      fun p => match p.2 with
        | .found (some (v, _)) => (p.1, .found (some (v, p.1.metadata.get? id)))
        | _ => p]
  | .delete id => [
      fun p => (p.1, .bool (p.1.vectors.mem id)),
      whenTrue fun s => { s with vectors := s.vectors.pop id },
      whenTrue fun s => { s with metadata := s.metadata.pop id },
      whenTrue fun s => { s with count := s.vectors.length },
      whenTrue fun s => { s with usage := Mem.usageOf s.vectors s.metadata }]
  | .update id v m => [
      fun p => (p.1, .bool (p.1.vectors.mem id)),
      whenTrue fun s => { s with vectors := s.vectors.set id v },
      whenTrue fun s => { s with metadata := Mem.putMeta s.metadata id m },
      whenTrue fun s => { s with usage := Mem.usageOf s.vectors s.metadata }]
  | .list limit => [
      fun p => (p.1, .ids p.1.vectors.keys),
      fun p => match limit, p.2 with
        | some k, .ids l => (p.1, .ids (sliceTo l k))
        | _, _ => p]
  | .stats => [
      fun p => (p.1, .stats (some (p.1.count, 0))),
      fun p => match p.2 with
        | .stats (some (n, _)) => (p.1, .stats (some (n, p.1.usage)))
        | _ => p]
  | .setup => [
      fun p => ({ p.1 with vectors := [] }, p.2),
      fun p => ({ p.1 with metadata := [] }, p.2),
      fun p => ({ p.1 with count := 0 }, p.2),
      fun p => ({ p.1 with usage := 0 }, p.2),
      fun p => ({ p.1 with inited := true }, p.2)]
  | .close => [
      fun p => ({ p.1 with vectors := [] }, p.2),
      fun p => ({ p.1 with metadata := [] }, p.2),
      fun p => ({ p.1 with count := 0 }, p.2),
      fun p => ({ p.1 with usage := 0 }, p.2),
      fun p => ({ p.1 with inited := false }, p.2)]

/-- `MemoryStorage` as used by threads. -/
def memLock : LockObj (Mem V M) (MCall V M) (MReply V M) :=
  ⟨memCheck, memBody, .done⟩

/-- The reply of a modelled method as a value. -/
def asReply {α : Type} (f : α → MReply V M) (r : Res (Mem V M) α) : MReply V M × Mem V M :=
  (match r.1 with
    | .ok a => f a
    | .error e => .raised e, r.2)

/-- The same calls made by a single caller, in the model of `Verif.Model.Memory`. -/
def memSeq (s : Mem V M) : MCall V M → MReply V M × Mem V M
  | .store id v m => asReply .bool (s.store id v m)
  | .retrieve id => asReply .found (s.retrieve id)
  | .delete id => asReply .bool (s.delete id)
  | .update id v m => asReply .bool (s.update id v m)
  | .list l => asReply .ids (s.list l)
  | .stats => (.stats (s.statCount.bind fun n => s.statUsage.map fun u => (n, u)), s)
  | .setup => (.done, s.init)
  | .close => (.done, s.close)

end Valori
