import Verif.Model.PrintAnalysis
import Verif.Props.Debugging

/-!
# C254: what `print_analysis` prints
-/

namespace Valori.Props
open Valori

variable {F : Type} [Field F] [LinearOrder F] [IsStrictOrderedRing F]

omit [IsStrictOrderedRing F] in
theorem analysis_sparsity (sim : List (Cell F) → List (Cell F) → Cell F) (choice : Nat → List Nat) (cols : Nat)
    (rows : List (List (Cell F))) (a : Analysis F) (h : analyzeVectors sim choice (.mat cols rows) = .ok (some a)) :
    a.sparsity = ((rows.flatten.countP fun c => decide (c ≠ .fin 0) : Nat) : F) / (rows.length * cols : Nat) := by
  have e : (fun c : Cell F => !c.eqv (.fin 0)) = fun c => decide (c ≠ .fin 0) := by
    funext c
    cases c <;> simp [Cell.eqv]
  unfold analyzeVectors at h
  dsimp only at h
  split at h
  · cases h
  split at h
  · cases h
  · cases h
    simp only [e, List.countP_eq_length_filter]

/-- **C254**, the data sets that are printed: with at least two rows and one column the whole report is printed, with the number of rows
and columns, the share of entries that differ from zero under the name "Sparsity", and the counts of the quality section. -/
theorem C254_report_partial (sim : List (Cell F) → List (Cell F) → Cell F)
    (choice : Nat → List Nat) (hch : ∀ n, 1000 < n → (choice n).length = 1000 ∧ ∀ i ∈ choice n, i < n)
    (cols : Nat) (rows : List (List (Cell F))) (hc : 0 < cols) (hr : 2 ≤ rows.length) :
    printAnalysis sim choice (.mat cols rows) = (.ok (),
      [.heading,
        .basic rows.length cols ((rows.flatten.countP fun c => decide (c ≠ .fin 0) : Nat) / (rows.length * cols : Nat)),
        .distribution,
        .quality (qualityScore rows (rows.length * cols)) (rows.flatten.count .nan) (rows.flatten.count (.inf false) + rows.flatten.count (.inf true))
          (rows.countP OneValue) (rows.countP AllZero)]) := by
  obtain ⟨a, ha, h1, h2, h3, h4, h5, h6, h7⟩ := (C128_analysis_total_partial sim choice hch cols rows).2 hc hr
  have hs := analysis_sparsity sim choice cols rows a ha
  unfold printAnalysis
  rw [ha]
  simp only [h1, h2, h3, h4, h5, h6, h7, hs]

/-- **C254 (refuted)**: an array without entries, which `analyze_vectors` answers for, makes `print_analysis` raise KeyError after the heading;
a single vector raises ValueError and a one-dimensional array IndexError before anything is printed. -/
theorem C254_report_refuted (sim : List (Cell F) → List (Cell F) → Cell F) (choice : Nat → List Nat) (cols : Nat)
    (rows : List (List (Cell F))) (row v : List (Cell F)) :
    (rows.length * cols = 0 → (∃ answer, analyzeVectors sim choice (.mat cols rows) = .ok answer) ∧
      printAnalysis sim choice (.mat cols rows) = (.error .key, [.heading])) ∧
    printAnalysis sim choice (.vec []) = (.error .key, [.heading]) ∧
    (0 < cols → printAnalysis sim choice (.mat cols [row]) = (.error .value, [])) ∧
    (v ≠ [] → printAnalysis sim choice (.vec v) = (.error .indexRange, [])) := by
  refine ⟨?_, rfl, ?_, ?_⟩
  · intro h
    have : analyzeVectors sim choice (.mat cols rows) = .ok none := by
      unfold analyzeVectors
      simp only
      rw [if_pos h]
    exact ⟨⟨_, this⟩, by unfold printAnalysis; rw [this]⟩
  · intro hc
    unfold printAnalysis
    rw [(C128_analysis_total_refuted sim choice cols row [.nan] hc (by simp)).1]
  · intro hv
    unfold printAnalysis
    rw [(C128_analysis_total_refuted sim choice 1 row v (by decide) hv).2]

example : printAnalysis (F := ℚ) (fun _ _ => .fin 1) (fun _ => List.range 1000) (.mat 2 [[.fin 1, .fin 1], [.nan, .fin 0]])
    = (.ok (), [.heading, .basic 2 2 (3 / 4), .distribution, .quality (29 / 40) 1 0 1 0]) := by decide +kernel

example : ∀ n, 1000 < n → (List.range 1000).length = 1000 ∧ ∀ i ∈ List.range 1000, i < n :=
  fun n hn => ⟨by simp, fun i hi => by have := List.mem_range.1 hi; omega⟩

end Valori.Props
