import Verif.Model.PrintProfile
import Verif.Props.Debugging

/-!
# C255: what `print_summary` prints
-/

namespace Valori.Props
open Valori
open Valori.Spec

variable {F σ : Type} [Field F] [LinearOrder F] [IsStrictOrderedRing F]

/-- The block shown for a name and its records: their number, and the mean, least and greatest duration and memory difference. -/
def ShownAs (e : String × List (Meas F)) (blk : ProfileBlock F) : Prop :=
  ∃ da dn dx ma mn mx, blk = .op e.1 e.2.length da dn dx ma mn mx ∧
    IsSummary (e.2.map Meas.duration) ⟨dn, dx, da, (e.2.map Meas.duration).sum⟩ ∧
    IsSummary (e.2.map Meas.memory) ⟨mn, mx, ma, (e.2.map Meas.memory).sum⟩ ∧ dn ≤ da ∧ da ≤ dx ∧ mn ≤ ma ∧ ma ≤ mx

/-- **C255.**  After any program run under a new profiler, finished or ended by an exception, `print_summary` prints the heading and one
block for every name of a measured block that was left, no name twice, with as many measurements as such blocks were left. -/
theorem C255_profile (env : ProfEnv F) (b : Body σ) (q : σ) (t : Nat) :
    ∃ ops, (b.run env ⟨[], t, q⟩).2.prof.printSummary = (.ok (), .heading :: ops) ∧
      List.Forall₂ ShownAs (b.run env ⟨[], t, q⟩).2.prof ops ∧
      (b.run env ⟨[], t, q⟩).2.prof.keys.Nodup ∧
      (∀ op, op ∈ (b.run env ⟨[], t, q⟩).2.prof.keys ↔ op ∈ finished b q) ∧
      ∀ e ∈ (b.run env ⟨[], t, q⟩).2.prof, e.2.length = (finished b q).count e.1 := by
  have hn := Body.run_nonempty env b ⟨[], t, q⟩ (by intro e he; cases he)
  have hnd := Body.run_nodup env b ⟨[], t, q⟩ (by simp [Dict.keys])
  have hrec : ∀ op, (((b.run env ⟨[], t, q⟩).2.prof.get? op).getD []).length = (finished b q).count op := by
    intro op
    obtain ⟨new, h1, h2, -⟩ := C123_every_block_recorded env b ⟨[], t, q⟩ op
    rw [h1, ← h2]
    simp [Dict.get?]
  obtain ⟨out, ho, hf⟩ := C124_summary_exact env b q t
  refine ⟨_, by unfold Prof.printSummary; rw [ho], ?_, hnd, ?_, ?_⟩
  · rw [List.forall₂_map_right_iff]
    refine hf.imp ?_
    rintro ⟨n, l⟩ ⟨n', o⟩ ⟨h1, h2, h3, h4, h5, h6⟩
    dsimp only at h1 h2 h3 h4
    subst h1
    refine ⟨_, _, _, _, _, _, by dsimp only; rw [h2], ?_, ?_, h5, h6, h4.avg_between.1, h4.avg_between.2⟩
    · rw [← h3.total_eq]; exact h3
    · rw [← h4.total_eq]; exact h4
  · intro op
    rw [Dict.mem_keys, ← List.count_pos_iff, ← hrec op]
    cases hg : (b.run env ⟨[], t, q⟩).2.prof.get? op with
    | none => simp
    | some l =>
      have := hn _ (Dict.mem_of_get? hg)
      simpa [List.length_pos_iff] using this
  · rintro ⟨op, l⟩ he
    have := hrec op
    rw [Dict.get?_of_mem hnd he] at this
    exact this

example : (dbProg.run dbEnv (dbStart 3)).2.prof.printSummary.1 = .ok () ∧
    (dbProg.run dbEnv (dbStart 3)).2.prof.printSummary.2.length = 3 ∧ finished dbProg 3 = ["a", "a", "b"] := by
  refine ⟨?_, ?_, rfl⟩ <;> decide +kernel

end Valori.Props
