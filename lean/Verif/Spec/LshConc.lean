import Verif.Model.LshConc

/-!
# What threads on an LSH index should leave
-/

namespace Valori
namespace LConc
variable {V M S : Type}

/-- The index has the vector and the metadata under the id, and the id is exactly once in the bucket of its code in every
table and in no other bucket. -/
def Lives (env : LConcEnv V S) (s : LConc V M S) (id : Nat) (v : V) (m : M) : Prop :=
  s.vectors[id]? = some (some v) ∧ s.metas[id]? = some (some m) ∧
  ∃ codes, env.hash v = some codes ∧ codes.length = s.tables.length ∧
    ∀ j c, (s.bucket j c).count id = if codes[j]? = some c then 1 else 0

/-- The id has been deleted: no vector, no metadata, in no bucket. -/
def Gone (s : LConc V M S) (id : Nat) : Prop :=
  s.vectors[id]? = some none ∧ s.metas[id]? = some none ∧ ∀ j c, id ∉ s.bucket j c

/-- An index at rest: as many vectors as metadata as ids given, every id lives or is gone, and the buckets have no
other ids. -/
structure AtRest (env : LConcEnv V S) (s : LConc V M S) : Prop where
  vec : s.vectors.length = s.nextId
  md : s.metas.length = s.nextId
  old : ∀ id, id < s.nextId → (∃ v m, Lives env s id v m) ∨ Gone s id
  new : ∀ id, s.nextId ≤ id → ∀ j c, id ∉ s.bucket j c

/-- The call names the id. -/
def Names : LOp V M → Nat → Prop
  | .update id _ _, x => x = id
  | .delete l, x => x ∈ l
  | _, _ => False

/-- At most one thread inserts, no id is named by two threads, and the named ids have been given before. -/
structure Apart (ops : Nat → LOp V M) (s : LConc V M S) : Prop where
  one : ∀ t u rows rows', ops t = .insert rows → ops u = .insert rows' → t = u
  ids : ∀ t u id, Names (ops t) id → Names (ops u) id → t = u
  old : ∀ t id, Names (ops t) id → id < s.nextId

/-- The vector can be hashed. -/
def Fits (env : LConcEnv V S) (s : LConc V M S) (v : V) : Prop :=
  ∃ codes, env.hash v = some codes ∧ codes.length = s.tables.length

/-- The vectors of insertions and updates can be hashed. -/
def OpFits (env : LConcEnv V S) (s : LConc V M S) : LOp V M → Prop
  | .insert rows => ∀ x ∈ rows, Fits env s x.1
  | .update _ v _ => Fits env s v
  | _ => True

end LConc
end Valori
