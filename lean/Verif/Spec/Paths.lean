/-!
# Where a file lies

Locations are lists of names from the root.  Nothing here mentions the implementation.
-/

namespace Valori.Spec

/-- A name of a file or directory. -/
abbrev FName := List Char

/-- A name that an entry of a directory can have. -/
def FName.plain (n : FName) : Prop := n ≠ [] ∧ n ≠ ['.'] ∧ n ≠ ['.', '.'] ∧ '/' ∉ n

/-- The location is the directory itself or lies below it. -/
def Below (dir loc : List FName) : Prop := ∃ rest, loc = dir ++ rest

/-- Steps that never go above where they start: `n` is how deep one is. -/
def Stays : Nat → List FName → Prop
  | _, [] => True
  | n, x :: l => if x = ['.', '.'] then ∃ k, n = k + 1 ∧ Stays k l else Stays (n + 1) l

end Valori.Spec
