import Mathlib.Data.List.Basic

/-!
# Vocabulary for the chunking properties
-/

namespace Valori.Spec

/-- `s` is `t` without the white space at both ends. -/
def IsTrim (ws : Char → Bool) (t s : List Char) : Prop :=
  ∃ a b, t = a ++ s ++ b ∧ (∀ c ∈ a, ws c = true) ∧ (∀ c ∈ b, ws c = true) ∧
    (∀ c, s.head? = some c → ws c = false) ∧ ∀ c, s.getLast? = some c → ws c = false

/-- A chunk as the user sees it: number, start, end, text. -/
structure Piece where
  id : Nat
  start : Int
  stop : Int
  text : List Char

/-- The span `start ... stop` is a non-empty part of the text and `p.text` is its trimmed, non-blank
content. -/
def Located (ws : Char → Bool) (text : List Char) (p : Piece) : Prop :=
  ∃ s e : Nat, p.start = s ∧ p.stop = e ∧ s < e ∧ e ≤ text.length ∧
    IsTrim ws ((text.drop s).take (e - s)) p.text ∧ p.text ≠ []

/-- A correct cutting of `text` into pieces of at most `size` characters. -/
structure Cuts (ws : Char → Bool) (text : List Char) (size : Int) (ps : List Piece) : Prop where
  ids : ps.map Piece.id = List.range ps.length
  increasing : ps.Pairwise fun p q => p.start < q.start
  located : ∀ p ∈ ps, Located ws text p
  short : ∀ p ∈ ps, p.stop - p.start ≤ size
  covers : ∀ (i : Nat) c, text[i]? = some c → ws c = false →
    ∃ p ∈ ps, p.start ≤ i ∧ (i : Int) < p.stop

/-- Every item of the first list lies inside an item of the second, in order. -/
inductive HeldIn : List (List Char) → List (List Char) → Prop
  | nil (cs) : HeldIn [] cs
  | here {p ps c cs} : p <:+: c → HeldIn ps (c :: cs) → HeldIn (p :: ps) (c :: cs)
  | skip {ps c cs} : HeldIn ps cs → HeldIn ps (c :: cs)

/-- `ps` are the paragraphs of `text`: cut at the separator, trimmed, blank ones left out. -/
def Paragraphs (ws : Char → Bool) (sep text : List Char) (ps : List (List Char)) : Prop :=
  ∃ parts trimmed, sep.intercalate parts = text ∧ (∀ q ∈ parts, ¬ sep <:+: q) ∧
    List.Forall₂ (IsTrim ws) parts trimmed ∧ ps = trimmed.filter (· ≠ [])

end Valori.Spec
