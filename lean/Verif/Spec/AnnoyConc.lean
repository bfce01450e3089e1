import Verif.Model.AnnoyConc

/-!
# What several threads on one Annoy index should leave and get
-/

namespace Valori.AConc
variable {L V F M : Type}

/-- What is assumed of the annoy library: it takes every item and answers every query, and names only ids that it was
given. `held l n`: the library in state `l` was given id `n`. -/
structure LibOk (env : AConcEnv L V F) (held : L → Nat → Prop) : Prop where
  add : ∀ l id v, ∃ l', env.addItem l id v = some l'
  grows : ∀ l id v l' n, env.addItem l id v = some l' → held l' n → held l n ∨ n = id
  answers : ∀ l q k sk, ∃ ns, env.nns l q k sk = some ns
  named : ∀ l q k sk ns, env.nns l q k sk = some ns → ∀ x ∈ ns, held l x.1

/-- An index nobody works on: as many vectors as metadata as ids given, and the library has no other ids. -/
structure AtRest (held : L → Nat → Prop) (s : AConc L V F M) : Prop where
  vec : s.vectors.length = s.nextId
  md : s.metas.length = s.nextId
  lib : ∀ n, held s.lib n → n < s.nextId

/-- One thread inserts at most, and deletions name ids given before. -/
structure Apart (ops : Nat → AOp V M) (s : AConc L V F M) : Prop where
  one : ∀ t u rows rows', ops t = .insert rows → ops u = .insert rows' → t = u
  old : ∀ t ids, ops t = .delete ids → ∀ id ∈ ids, id < s.nextId

/-- The id is deleted. -/
def Gone (s : AConc L V F M) (id : Nat) : Prop := s.vectors[id]? = some none ∧ s.metas[id]? = some none

/-- Some thread deletes the id. -/
def Named (ops : Nat → AOp V M) (id : Nat) : Prop := ∃ t ids, ops t = .delete ids ∧ id ∈ ids

/-- `m` is the metadata of the id: that of the index before, or that of its row, or none if some thread deletes it. -/
def MetaOk (ops : Nat → AOp V M) (s : AConc L V F M) (id : Nat) (m : Option M) : Prop :=
  s.metas[id]? = some m ∨ (m = none ∧ Named ops id) ∨
    ∃ t rows v x, ops t = .insert rows ∧ s.nextId ≤ id ∧ rows[id - s.nextId]? = some (v, x) ∧ m = some x

end Valori.AConc
