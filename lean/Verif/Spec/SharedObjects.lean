import Verif.Spec.Crash

/-!
# The abstract database under a change of metadata (C232)

The database does not look into metadata, so a function on metadata can be applied to everything in it.
-/

namespace Valori.Spec
variable {V M N D : Type}

def Item.withMd (g : Option M → Option N) (x : Item V M) : Item V N := ⟨x.id, x.vec, g x.md⟩

def Hit.withMd (g : Option M → Option N) (h : Hit D M) : Hit D N := ⟨h.id, h.dist, g h.md⟩

def IxCall.withMd (g : Option M → Option N) : IxCall V M → IxCall V N
  | .insert nd rows ms => .insert nd rows (ms.map (List.map g))
  | .delete ids => .delete ids
  | .update id v m => .update id v (g m)
  | .search nd q k => .search nd q k

def ClCall.withMd (g : Option M → Option N) : ClCall (IxCall V M) → ClCall (IxCall V N)
  | .init => .init
  | .close => .close
  | .request c => .request (c.withMd g)

def DbAns.withMd (g : Option M → Option N) : DbAns D M → DbAns D N
  | .done => .done
  | .ids l => .ids l
  | .flag b => .flag b
  | .hits l => .hits (l.map (Hit.withMd g))
  | .refused => .refused
  | .raised => .raised
  | .other => .other

def Db.withMd (g : Option M → Option N) (db : Db V M) : Db V N := ⟨db.isOpen, db.live.map (Item.withMd g)⟩

/-- A call that leaves the item `id` and its metadata alone. -/
def LeavesItem (id : String) : ClCall (IxCall V M) → Prop
  | .init => False
  | .close => False
  | .request (.delete ids) => id ∉ ids
  | .request (.update i _ _) => i ≠ id
  | .request _ => True

end Valori.Spec
