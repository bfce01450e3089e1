import Verif.Spec.Annoy

/-!
# What an Annoy index that builds on disk should leave in the temporary directory

The program opens the index, uses it and closes it, as often as it likes; meanwhile others may remove
files.  Nothing here mentions the implementation.
-/

namespace Valori.Spec

/-- What happens to an index, and to the files beside it. -/
inductive TmpCall (V M D : Type) where
  | init
  | close
  | plain (c : AnCall V M)
  | load (file : D)
  /-- Somebody else removes a file. -/
  | removed (p : String)
deriving Repr

/-- `initialize` is called only on an index that is new or closed.  The flag says whether it is in use. -/
def TmpCall.InTurn {V M D : Type} : Bool → List (TmpCall V M D) → Prop
  | _, [] => True
  | opened, .init :: cs => opened = false ∧ InTurn true cs
  | _, .close :: cs => InTurn false cs
  | opened, _ :: cs => InTurn opened cs

/-- The files others have removed. -/
def TmpCall.gone {V M D : Type} : List (TmpCall V M D) → List String
  | [] => []
  | .removed p :: cs => p :: gone cs
  | _ :: cs => gone cs

/-- The files that are left when nothing happens but the removals. -/
def without {C : Type} (files : String → Option C) (ps : List String) (p : String) : Option C :=
  if p ∈ ps then none else files p

end Valori.Spec
