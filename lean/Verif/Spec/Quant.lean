import Mathlib.Order.Bounds.Basic
import Mathlib.Algebra.Order.Field.Basic
import Mathlib.Algebra.BigOperators.Group.List.Basic

/-!
# Vocabulary for the quantiser properties

Tables are lists of rows.  Nothing here mentions the model.
-/

namespace Valori.Spec

/-- Every row has `d` entries. -/
def Rect {α : Type} (d : Nat) (rows : List (List α)) : Prop := ∀ r ∈ rows, r.length = d

/-- Entry `(i, j)`. -/
def at2 {α : Type} (rows : List (List α)) (i j : Nat) : Option α := rows[i]?.bind (·[j]?)

/-- The values in column `j`. -/
def column {α : Type} (rows : List (List α)) (j : Nat) : Set α := {x | ∃ r ∈ rows, r[j]? = some x}

/-- Squared Euclidean distance of two vectors of equal length. -/
def sqDist {F : Type} [Field F] (a b : List F) : F :=
  (List.zipWith (fun x y => (x - y) ^ 2) a b).sum

/-- `z` is what a product codebook can decode to: one codeword of every book, in order. -/
def Decodable {F : Type} (books : List (List (List F))) (z : List F) : Prop :=
  ∃ parts, List.Forall₂ (fun part book => part ∈ book) parts books ∧ z = parts.flatten

/-- `m` books of `k` codewords of `sub` numbers each. -/
def BookShape {F : Type} (m k sub : Nat) (books : List (List (List F))) : Prop :=
  books.length = m ∧ ∀ b ∈ books, b.length = k ∧ ∀ c ∈ b, c.length = sub

/-- A vector cut or padded with zeros to `d` numbers. -/
def fit {F : Type} [Zero F] (d : Nat) (v : List F) : List F :=
  (List.range d).map fun i => v.getD i 0

end Valori.Spec
