import Mathlib.Data.List.Basic

/-!
# Vocabulary for the cleaning properties
-/

namespace Valori.Spec

/-- `ws` are the words of `t`: `t` is the words with white space between, before and after. -/
inductive IsWords (sp : Char → Bool) : List Char → List (List Char) → Prop
  | blank (t : List Char) (h : ∀ c ∈ t, sp c = true) : IsWords sp t []
  | word (a w t : List Char) (ws : List (List Char)) (ha : ∀ c ∈ a, sp c = true) (hw : w ≠ [])
      (hc : ∀ c ∈ w, sp c = false) (hb : ∀ c, t.head? = some c → sp c = true) (ht : IsWords sp t ws) :
      IsWords sp (a ++ w ++ t) (w :: ws)

/-- No white space at the ends, only single spaces inside. -/
structure Tidy (sp : Char → Bool) (t : List Char) : Prop where
  head : ∀ c, t.head? = some c → sp c = false
  last : ∀ c, t.getLast? = some c → sp c = false
  only : ∀ c ∈ t, sp c = true → c = ' '
  single : ∀ (i : Nat) c d, t[i]? = some c → t[i + 1]? = some d → ¬ (sp c = true ∧ sp d = true)

/-- A part of the text of the form `<…>` with something other than `>` between. -/
def HasTag (t : List Char) : Prop :=
  ∃ pre mid post, t = pre ++ '<' :: (mid ++ '>' :: post) ∧ mid ≠ [] ∧ '>' ∉ mid

/-- `r` is `t` with some tags cut out and nothing else changed. -/
inductive TagsOut : List Char → List Char → Prop
  | nil : TagsOut [] []
  | keep (c : Char) {t r : List Char} (h : TagsOut t r) : TagsOut (c :: t) (c :: r)
  | cut (mid : List Char) {t r : List Char} (hm : mid ≠ []) (hg : '>' ∉ mid) (h : TagsOut t r) :
      TagsOut ('<' :: (mid ++ '>' :: t)) r

end Valori.Spec
