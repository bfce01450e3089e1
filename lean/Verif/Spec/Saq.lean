import Verif.Spec.Quant
import Mathlib.Order.Defs.LinearOrder

/-!
# Vocabulary for the SAQ properties
-/

namespace Valori.Spec

/-- The intervals are non-empty, in order, and cover `a ... b` without gap or overlap. -/
def Tiles (a b : Nat) : List (Nat × Nat) → Prop
  | [] => a = b
  | (s, e) :: rest => s = a ∧ s < e ∧ Tiles e b rest

/-- The vector a code stands for: the named codeword of every book, one after the other. -/
def decodeRow {F : Type} (books : List (List (List F))) (code : List Nat) : List F :=
  (List.zipWith (fun b c => b.getD c []) books code).flatten

/-- Total squared error of a batch of codes. -/
def totalErr {F : Type} [Field F] (books : List (List (List F))) (rows : List (List F))
    (codes : List (List Nat)) : F :=
  (List.zipWith (fun r c => sqDist r (decodeRow books c)) rows codes).sum

/-- `hits` is an exact answer for `k` nearest among the candidate numbers, where `dist i` is the
distance of vector number `i`: as many as asked for or available, distinct, nearest first, and
no candidate left out is nearer. -/
structure IsTopIdx {D : Type} [LinearOrder D] (dist : Nat → Option D) (cands : List Nat) (k : Nat)
    (hits : List (Nat × D)) : Prop where
  length : hits.length = min k cands.length
  nodup : (hits.map Prod.fst).Nodup
  sorted : hits.Pairwise fun a b => a.2 ≤ b.2
  sound : ∀ h ∈ hits, h.1 ∈ cands ∧ dist h.1 = some h.2
  best : ∀ i ∈ cands, i ∉ hits.map Prod.fst → ∀ d, dist i = some d → ∀ h ∈ hits, h.2 ≤ d

end Valori.Spec
