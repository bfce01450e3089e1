import Verif.Spec.Index

/-!
# Levels drawn by an HNSW index (C26, C27, C231)

Which vectors stand on which level follows from the calls and the random levels alone.
-/

namespace Valori.Spec

/-- The live ids with their levels, oldest first, the highest level ever drawn, and the number of draws. -/
structure Drawn where
  nodes : List (String × Nat)
  top : Nat
  draws : Nat

/-- One insertion; `lvl i` is the level of the `i`-th draw. -/
def Drawn.add (lvl : Nat → Nat) (g : Drawn) (id : String) : Drawn :=
  ⟨g.nodes ++ [(id, lvl g.draws)], max g.top (lvl g.draws), g.draws + 1⟩

/-- One call of the index. -/
def Drawn.next {V M : Type} (lvl : Nat → Nat) (g : Drawn) : IxCall V M → Drawn
  | .insert nd rows _ => if nd = 2 then rows.foldl (fun g r => g.add lvl r.1) g else g
  | .delete ids => { g with nodes := g.nodes.filter fun p => p.1 ∉ ids }
  | _ => g

/-- An index opened on the items `live`, then a history. -/
def Drawn.after {V M : Type} (lvl : Nat → Nat) (live : List (Item V M)) (h : List (IxCall V M)) : Drawn :=
  h.foldl (Drawn.next lvl) (live.foldl (fun g x => g.add lvl x.id) ⟨[], 0, 0⟩)

/-- The ids on level `l`. -/
def Drawn.on (g : Drawn) (l : Nat) : List String := (g.nodes.filter fun p => l ≤ p.2).map Prod.fst

/-- How many candidates a walk from level `l` with `c` candidates brings to level 0, if on every level all
nodes are linked and `ef` candidates are kept. -/
def Drawn.walk (ef : Nat) (g : Drawn) : Nat → Nat → Nat
  | 0, c => c
  | l + 1, c => Drawn.walk ef g l (min ef (c * ((g.on (l + 1)).length - 1)))

/-- The number of times a search sees every vector. -/
def Drawn.copies (ef : Nat) (g : Drawn) : Nat := g.walk ef g.top (min 1 (g.on g.top).length)

/-- The nearest items when each item counts `n` times and at most as many results as items are returned.
For `n = 1` this is `IsTopK`. -/
structure IsTopCopies {V M D : Type} [LinearOrder D] (dist : V → D) (live : List (Item V M)) (n k : Nat)
    (hits : List (Hit D M)) : Prop where
  length : hits.length = if n = 0 then 0 else min k live.length
  atMost : ∀ id, (hits.map Hit.id).count id ≤ n
  sorted : hits.Pairwise (fun a b => a.dist ≤ b.dist)
  sound : ∀ h ∈ hits, ∃ x ∈ live, x.id = h.id ∧ h.dist = dist x.vec ∧ h.md = x.md
  best : ∀ x ∈ live, (hits.map Hit.id).count x.id < n → ∀ h ∈ hits, h.dist ≤ dist x.vec

end Valori.Spec
