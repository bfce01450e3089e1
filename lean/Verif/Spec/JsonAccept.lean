import Verif.Model.JsonMeta

/-!
# Metadata that can be written as JSON
-/

namespace Valori.Spec

/-- Nothing in the value, however deep, is an object JSON has no form for; dictionary keys are texts, numbers, truth
values or None. -/
inductive Writable : PyObj → Prop where
  | null : Writable .null
  | bool (b : Bool) : Writable (.bool b)
  | int (i : Int) : Writable (.int i)
  | float (x : PyFloat) : Writable (.float x)
  | str (s : String) : Writable (.str s)
  | list (xs : List PyObj) (h : ∀ x ∈ xs, Writable x) : Writable (.list xs)
  | tuple (xs : List PyObj) (h : ∀ x ∈ xs, Writable x) : Writable (.tuple xs)
  | dict (items : List (PyVal × PyObj)) (hv : ∀ e ∈ items, Writable e.2) (hk : ∀ e ∈ items, ∀ t, e.1 ≠ .other t) :
      Writable (.dict items)

end Valori.Spec
