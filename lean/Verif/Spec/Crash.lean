import Verif.Spec.Database

/-!
# What a process that dies may leave behind

A request is carried out as a sequence of edits of single items.  Nothing here mentions files.
-/

namespace Valori.Spec

/-- One change of one item. -/
inductive Edit (V M : Type) where
  | put (id : String) (v : V) (m : Option M)
  | drop (id : String)

namespace Edit
variable {V M : Type}

/-- Set vector and metadata of an item, which may be new. -/
def write (l : List (Item V M)) (id : String) (v : V) (m : Option M) : List (Item V M) :=
  if Live.has l id then Live.replace l id v m else l ++ [⟨id, v, m⟩]

/-- The items after an edit. -/
def apply (l : List (Item V M)) : Edit V M → List (Item V M)
  | .put id v m => write l id v m
  | .drop id => Live.remove l id

/-- The metadata an id has, if any. -/
def metaAt (l : List (Item V M)) (id : String) : Option M := (Live.find l id).bind Prod.snd

/-- The edits of a call. -/
def ofCall (db : Db V M) : ClCall (IxCall V M) → List (Edit V M)
  | .init => []
  | .close => []
  | .request c =>
    if db.isOpen then
      match c with
      | .insert nd rows mds => if nd = 2 then (Live.items mds 0 rows).map fun x => .put x.id x.vec x.md else []
      | .delete ids => ids.map .drop
      | .update id v m => if Live.has db.live id then [.put id v m] else []
      | .search .. => []
    else []

/-- What may be left of some edits: `out` are the items that can be read, `bad` is an id whose item is
half written.  The edits are done in order up to some point.  A drop is done or not; of a put only the
vector may have been written, or the item may be unreadable. -/
def Interrupted : List (Item V M) → List (Edit V M) → List (Item V M) → Option String → Prop
  | l, [], out, bad => out = l ∧ bad = none
  | l, e :: es, out, bad =>
    (out = l ∧ bad = none) ∨
    (∃ id v m, e = .put id v m ∧
      ((out = write l id v (metaAt l id) ∧ bad = none) ∨ (out = Live.remove l id ∧ bad = some id))) ∨
    Interrupted (apply l e) es out bad

end Edit

/-- The database after a history. -/
def Db.after {V M : Type} (vol : Bool) (db : Db V M) (h : List (ClCall (IxCall V M))) : Db V M :=
  h.foldl (Db.next vol) db

end Valori.Spec
