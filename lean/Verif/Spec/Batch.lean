import Verif.Model.Py

/-!
# Specification vocabulary for batch operations
-/

namespace Valori.Spec

variable {σ α β V M I : Type}

/-- A sequence of calls of `f`, one after the other on one state: arguments and replies. -/
inductive Calls (f : σ → α → Except Err β × σ) : σ → List α → List (Except Err β) → σ → Prop
  | nil (s : σ) : Calls f s [] [] s
  | cons {s s' s'' : σ} {a : α} {r : Except Err β} {as : List α} {rs : List (Except Err β)}
      (h : f s a = (r, s')) (t : Calls f s' as rs s'') : Calls f s (a :: as) (r :: rs) s''

/-- Consecutive batches of at most `b` rows: together they are all rows in order, none is empty, all
but the last are full, and each row has the metadata entry of its own position. -/
structure IsSplit (b : Nat) (vectors : List V) (metadata : List M)
    (bs : List (List V × List M)) : Prop where
  all : (bs.map Prod.fst).flatten = vectors
  size : ∀ p ∈ bs, 0 < p.1.length ∧ p.1.length ≤ b ∧ p.2.length ≤ b
  full : ∀ p ∈ bs.dropLast, p.1.length = b
  same : ∀ pre p post, bs = pre ++ p :: post → ∀ j, j < p.1.length →
    p.2[j]? = metadata[(pre.map fun q => q.1.length).sum + j]?

/-- What a reply adds to the answer. -/
def okPart : Except Err (List I) → List I
  | .ok l => l
  | .error _ => []

/-- Whether a call failed. -/
def isErr : Except Err α → Bool
  | .ok _ => false
  | .error _ => true

/-- Rows of the batches whose call failed (`bad = true`) or succeeded. -/
def rowsOf (bad : Bool) (bs : List (List V × List M)) (rs : List (Except Err β)) : Nat :=
  ((bs.zip rs).map fun p => if isErr p.2 = bad then p.1.1.length else 0).sum

end Valori.Spec
