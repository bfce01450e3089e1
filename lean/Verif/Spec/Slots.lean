import Mathlib.Order.Defs.LinearOrder

/-!
# What an index with consecutive integer ids should do

The abstract state is the list of slots: position `n` belongs to id `n` for ever and holds the
current vector and metadata, or nothing after a delete.  Nothing here mentions the
implementation.
-/

namespace Valori.Spec

/-- One search result of an integer-id index. -/
structure NHit (S M : Type) where
  id : Int
  score : S
  md : Option M
deriving DecidableEq, Repr

/-- Calls.  `insert` is given the shape of the array and its rows; ids come as strings. -/
inductive SCall (V M S : Type) where
  | insert (ndim cols : Nat) (rows : List V) (mds : Option (List (Option M)))
  | delete (ids : List String)
  | update (id : String) (v : V) (m : Option M)
  | search (q : V) (k : Int) (threshold : Option S)
  | clear
deriving Repr

/-- Slots and the dimension fixed by the first batch. -/
structure Slots (V M : Type) where
  dim : Option Nat
  slots : List (Option (V × M))
deriving DecidableEq, Repr

namespace Slots
variable {V M S E : Type}

/-- Live content of id `n`. -/
def at? (a : Slots V M) (n : Nat) : Option (V × M) := (a.slots[n]?).join

/-- Number of live ids. -/
def count (a : Slots V M) : Nat := (a.slots.filter Option.isSome).length

/-- Forget id `n`. -/
def erase (a : Slots V M) (n : Nat) : Slots V M :=
  if n < a.slots.length then { a with slots := a.slots.set n none } else a

/-- Forget the ids that the strings denote; a string that denotes no natural number is skipped. -/
def eraseAll (parse : String → Option Int) (a : Slots V M) : List String → Slots V M
  | [] => a
  | s :: l =>
    match parse s with
    | some (.ofNat n) => eraseAll parse (a.erase n) l
    | _ => eraseAll parse a l

/-- Rows paired with their metadata (`empty` when none is given at all). -/
def fill (empty : M) (rows : List V) (mds : Option (List (Option M))) : List (Option (V × M)) :=
  match mds with
  | none => rows.map fun v => some (v, empty)
  | some l => (rows.zip l).map fun p => p.2.map fun m => (p.1, m)

/-- As many metadata entries as rows (or no metadata at all). -/
def aligned (rows : List V) (mds : Option (List (Option M))) : Bool :=
  match mds with
  | none => true
  | some l => rows.length == l.length

/-- Is the batch accepted?  `ok d v`: vector `v` may be stored at dimension `d`. -/
def accepts (ok : Nat → V → Bool) (a : Slots V M) (ndim cols : Nat) (rows : List V)
    (mds : Option (List (Option M))) : Bool :=
  aligned rows mds && ndim == 2 && (a.dim.getD cols == cols) && rows.all (ok cols)

/-- The dimension after a batch was offered: a first batch with as many metadata entries as rows
fixes it, accepted or not. -/
def offer (a : Slots V M) (ndim cols : Nat) (rows : List V) (mds : Option (List (Option M))) :
    Option Nat :=
  if aligned rows mds && decide (2 ≤ ndim) then
    some (a.dim.getD cols) else a.dim

/-- Effect of a call. -/
def next (parse : String → Option Int) (ok : Nat → V → Bool) (empty : M) (a : Slots V M) :
    SCall V M S → Slots V M
  | .insert nd cols rows mds =>
    if a.accepts ok nd cols rows mds
    then ⟨a.offer nd cols rows mds, a.slots ++ fill empty rows mds⟩
    else ⟨a.offer nd cols rows mds, a.slots⟩
  | .delete ids => a.eraseAll parse ids
  | .update id v m =>
    match parse id with
    | some (.ofNat n) =>
      match a.at? n with
      | none => a
      | some (_, old) => { a with slots := a.slots.set n (some (v, m.getD old)) }
    | _ => a
  | .search .. => a
  | .clear => ⟨a.dim, []⟩

/-- State after a history. -/
def after (parse : String → Option Int) (ok : Nat → V → Bool) (empty : M) (a : Slots V M)
    (h : List (SCall V M S)) : Slots V M := h.foldl (next parse ok empty) a

/-- Assumptions on a call: metadata entries are dictionaries (no `None`), id strings do not denote
negative numbers, updates have the right dimension. -/
def CallOk (parse : String → Option Int) (dim : V → Nat) (a : Slots V M) : SCall V M S → Prop
  | .insert _ _ _ mds => ∀ l, mds = some l → none ∉ l
  | .delete ids => ∀ s ∈ ids, ∀ i, parse s = some i → 0 ≤ i
  | .update id v _ => (∀ i, parse id = some i → 0 ≤ i) ∧ ∀ d, a.dim = some d → dim v = d
  | .search .. => True
  | .clear => True

/-- Assumptions on a history. -/
def HistOk (parse : String → Option Int) (ok : Nat → V → Bool) (empty : M) (dim : V → Nat)
    (a : Slots V M) : List (SCall V M S) → Prop
  | [] => True
  | c :: cs => CallOk parse dim a c ∧ HistOk parse ok empty dim (next parse ok empty a c) cs

/-- A sound and, among the `near` vectors, complete answer: at most `k` hits with distinct ids, each
live with its true similarity and current metadata, passing the threshold, in non-increasing order;
a near vector that passes the threshold is left out only when the answer is full of hits at least as
similar. -/
structure IsAnswer [LE S] (sim : V → Except E S) (near : V → Prop) (thr : S) (k : Nat)
    (a : Slots V M) (hits : List (NHit S M)) : Prop where
  length : hits.length ≤ k
  nodup : (hits.map NHit.id).Nodup
  sorted : hits.Pairwise fun x y => y.score ≤ x.score
  sound : ∀ h ∈ hits, ∃ (n : Nat) (v : V) (m : M), h.id = n ∧ a.at? n = some (v, m) ∧
    sim v = .ok h.score ∧ thr ≤ h.score ∧ h.md = some m
  best : ∀ (n : Nat) (v : V) (m : M) (s : S), a.at? n = some (v, m) → near v → sim v = .ok s →
    thr ≤ s → (⟨n, s, some m⟩ ∈ hits) ∨ (hits.length = k ∧ ∀ h ∈ hits, s ≤ h.score)

end Slots
end Valori.Spec
