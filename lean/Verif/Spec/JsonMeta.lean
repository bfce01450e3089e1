import Verif.Model.JsonMeta

/-!
# Metadata that JSON has a word for
-/

namespace Valori.Spec

/-- Lists, and dictionaries with distinct string keys, of numbers, texts, truth values and None, nested at will. -/
inductive Plain : PyObj → Prop where
  | null : Plain .null
  | bool (b : Bool) : Plain (.bool b)
  | int (i : Int) : Plain (.int i)
  | float (x : PyFloat) : Plain (.float x)
  | str (s : String) : Plain (.str s)
  | list (xs : List PyObj) (h : ∀ x ∈ xs, Plain x) : Plain (.list xs)
  | dict (items : List (PyVal × PyObj)) (hv : ∀ e ∈ items, Plain e.2) (hk : ∀ e ∈ items, ∃ s, e.1 = .str s)
      (hd : (items.map Prod.fst).Nodup) : Plain (.dict items)

end Valori.Spec
