import Mathlib.Order.Defs.LinearOrder

/-!
# What an exact index should do

The abstract state of an index is the list of live items in order of insertion.  Nothing here
mentions the implementation.
-/

namespace Valori.Spec

/-- A live vector with its metadata. -/
structure Item (V M : Type) where
  id : String
  vec : V
  md : Option M
deriving DecidableEq, Repr

/-- One search result. -/
structure Hit (D M : Type) where
  id : String
  dist : D
  md : Option M
deriving DecidableEq, Repr

/-- Calls on an index.  `insert` carries the ids that the call will generate. -/
inductive IxCall (V M : Type) where
  | insert (ndim : Nat) (rows : List (String × V)) (mds : Option (List (Option M)))
  | delete (ids : List String)
  | update (id : String) (v : V) (m : Option M)
  | search (ndim : Nat) (q : V) (k : Int)
deriving DecidableEq, Repr

/-- Replies, without the content of search answers. -/
inductive IxReply where
  | ids (l : List String)
  | flag (b : Bool)
  | raised
  | answered
deriving DecidableEq, Repr

namespace Live
variable {V M : Type}

/-- The metadata entry of row `i`: missing list or short list means none. -/
def mdAt (mds : Option (List (Option M))) (i : Nat) : Option M :=
  match mds with
  | none => none
  | some l => (l[i]?).join

/-- Rows paired with their metadata, starting at row number `i`. -/
def items (mds : Option (List (Option M))) : Nat → List (String × V) → List (Item V M)
  | _, [] => []
  | i, (id, v) :: rows => ⟨id, v, mdAt mds i⟩ :: items mds (i + 1) rows

/-- Is `id` live? -/
def has (l : List (Item V M)) (id : String) : Bool := l.any (fun x => x.id = id)

/-- Remove `id`. -/
def remove (l : List (Item V M)) (id : String) : List (Item V M) :=
  l.filter (fun x => x.id ≠ id)

/-- Remove several ids; says whether each was live when its turn came. -/
def removeAll (l : List (Item V M)) : List String → Bool × List (Item V M)
  | [] => (true, l)
  | id :: ids =>
    let r := removeAll (remove l id) ids
    (has l id && r.1, r.2)

/-- Replace vector and metadata of `id`. -/
def replace (l : List (Item V M)) (id : String) (v : V) (m : Option M) : List (Item V M) :=
  l.map (fun x => if x.id = id then ⟨id, v, m⟩ else x)

/-- The item with a given id. -/
def find (l : List (Item V M)) (id : String) : Option (V × Option M) :=
  (l.find? (fun x => x.id = id)).map (fun x => (x.vec, x.md))

/-- Effect of a call on the live items. -/
def next (l : List (Item V M)) : IxCall V M → List (Item V M)
  | .insert nd rows mds => if nd = 2 then l ++ items mds 0 rows else l
  | .delete ids => (removeAll l ids).2
  | .update id v m => replace l id v m
  | .search .. => l

/-- Reply to a call; whether a search raises depends on `fails`. -/
def reply (fails : List (Item V M) → V → Bool) (l : List (Item V M)) : IxCall V M → IxReply
  | .insert nd rows _ => if nd = 2 then .ids (rows.map Prod.fst) else .raised
  | .delete ids => .flag (removeAll l ids).1
  | .update id _ _ => .flag (has l id)
  | .search nd q _ => if nd = 1 && !fails l q then .answered else .raised

/-- Live items after a history. -/
def after (l : List (Item V M)) (h : List (IxCall V M)) : List (Item V M) := h.foldl next l

/-- Replies to a history. -/
def replies (fails : List (Item V M) → V → Bool) (l : List (Item V M)) :
    List (IxCall V M) → List IxReply
  | [] => []
  | c :: cs => reply fails l c :: replies fails (next l c) cs

/-- The assumptions on a call: ids generated by an insert are fresh, distinct and usable, and
metadata can be stored; ids named by the user are usable. -/
def CallOk (okId : String → Prop) (okM : M → Prop) (l : List (Item V M)) : IxCall V M → Prop
  | .insert _ rows mds =>
    (rows.map Prod.fst).Nodup ∧
    (∀ r ∈ rows, r.1 ≠ "" ∧ okId r.1 ∧ has l r.1 = false) ∧
    (∀ x : List (Option M), mds = some x → ∀ m, some m ∈ x → okM m)
  | .delete ids => ∀ id ∈ ids, okId id
  | .update id _ m => okId id ∧ ∀ x, m = some x → okM x
  | .search .. => True

/-- The assumptions on a history. -/
def HistOk (okId : String → Prop) (okM : M → Prop) (l : List (Item V M)) :
    List (IxCall V M) → Prop
  | [] => True
  | c :: cs => CallOk okId okM l c ∧ HistOk okId okM (next l c) cs

end Live

/-- `hits` is an exact `k`-nearest-neighbour answer: right number, distinct ids, sorted, true
distances and metadata, and nothing left out is closer. -/
structure IsTopK {V M D : Type} [LinearOrder D] (dist : V → D) (live : List (Item V M)) (k : Nat)
    (hits : List (Hit D M)) : Prop where
  length : hits.length = min k live.length
  nodup : (hits.map Hit.id).Nodup
  sorted : hits.Pairwise (fun a b => a.dist ≤ b.dist)
  sound : ∀ h ∈ hits, ∃ x ∈ live, x.id = h.id ∧ h.dist = dist x.vec ∧ h.md = x.md
  best : ∀ x ∈ live, x.id ∉ hits.map Hit.id → ∀ h ∈ hits, h.dist ≤ dist x.vec

end Valori.Spec
