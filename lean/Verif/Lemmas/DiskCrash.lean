import Verif.Lemmas.Disk

/-! Primitive file steps only touch their own stem. -/

namespace Valori

variable {V M : Type}

/-- The stem a step touches. -/
def FsStep.stem : FsStep V M → String
  | .vecTorn s => s
  | .vecDone s _ => s
  | .pklTorn s => s
  | .pklDone s _ => s
  | .vecUnlink s => s
  | .pklUnlink s => s

/-- The two files of a stem, as seen by a reader. -/
def Dir.files (d : Dir V M) (x : String) : Option (File V) × Option (File M) :=
  (d.vec.get? x, d.pkl.get? x)

theorem FsStep.run_other (d : Dir V M) (st : FsStep V M) {x : String} (h : x ≠ st.stem) :
    (st.run d).files x = d.files x := by
  cases st <;> simp only [FsStep.stem] at h <;>
    simp [FsStep.run, Dir.files, Dict.get?_set, Dict.get?_pop_ne _ h, h]

theorem runSteps_other (d : Dir V M) (l : List (FsStep V M)) {x : String}
    (h : ∀ st ∈ l, x ≠ st.stem) : (runSteps d l).files x = d.files x := by
  induction l generalizing d with
  | nil => rfl
  | cons st l ih =>
    have := ih (st.run d) (fun s hs => h s (by simp [hs]))
    rw [FsStep.run_other d st (h st (by simp))] at this
    exact this

namespace Disk
variable {env : DiskEnv M}

theorem writeSteps_stem (d : Dir V M) (stem : String) (v : V) (m : Option M) :
    ∀ st ∈ (writeSteps env d stem v m).1, st.stem = stem := by
  intro st hst
  simp only [writeSteps] at hst
  cases m with
  | some m =>
    simp only at hst
    split at hst
    · simp at hst; rcases hst with rfl | rfl | rfl | rfl <;> rfl
    · simp at hst; rcases hst with rfl | rfl | rfl <;> rfl
  | none =>
    simp only at hst
    split at hst
    · simp at hst; rcases hst with rfl | rfl | rfl <;> rfl
    · simp at hst; rcases hst with rfl | rfl <;> rfl

theorem deleteSteps_stem (d : Dir V M) (stem : String) :
    ∀ st ∈ deleteSteps d stem, st.stem = stem := by
  intro st hst
  simp only [deleteSteps, List.mem_append] at hst
  rcases hst with hst | hst <;> split at hst <;> simp at hst <;> subst hst <;> rfl

theorem Write.steps_stem (d : Dir V M) (w : Write V M) :
    ∀ st ∈ w.steps env d, st.stem = sanitize env w.id := by
  cases w with
  | store id v m =>
    intro st hst
    simp only [Write.steps] at hst
    split at hst
    · simp at hst
    · exact writeSteps_stem _ _ _ _ st hst
  | update id v m =>
    intro st hst
    simp only [Write.steps] at hst
    split at hst
    · exact writeSteps_stem _ _ _ _ st hst
    · simp at hst
  | delete id => exact deleteSteps_stem _ _

/-- The file effect of a call that is not interrupted is that of all its steps. -/
theorem Write.exec_dir (s : Disk V M) (w : Write V M) (hi : s.inited = true) :
    (w.exec env s).2.dir = runSteps s.dir (w.steps env s.dir) ∧
      (w.exec env s).2.inited = true := by
  cases w with
  | store id v m =>
    simp only [Write.exec, Disk.store, Write.steps, hi]
    by_cases hid : id = ""
    · simp [hid, runSteps, hi]
    · simp only [hid, if_false, Bool.not_true, Bool.false_eq_true]
      split <;> exact ⟨rfl, by simp [hi]⟩
  | update id v m =>
    simp only [Write.exec, Disk.update, Write.steps, hi]
    cases hm : s.dir.vec.mem (sanitize env id)
    · simp [runSteps, hi]
    · simp only [if_true, Bool.not_true, Bool.false_eq_true, if_false]
      split <;> exact ⟨rfl, by simp [hi]⟩
  | delete id =>
    simp only [Write.exec, Disk.delete, Write.steps, hi]
    simp only [Bool.not_true, Bool.false_eq_true, if_false]
    split <;> exact ⟨rfl, by simp [hi]⟩

/-- Retrieve depends only on the two files of the stem. -/
theorem retrieve_congr {s s' : Disk V M} (hi : s.inited = s'.inited) {id : Id}
    (h : s.dir.files (sanitize env id) = s'.dir.files (sanitize env id)) :
    (s.retrieve env id).1 = (s'.retrieve env id).1 := by
  simp only [Dir.files, Prod.mk.injEq] at h
  simp only [retrieve, hi, h.1, h.2]
  split
  · rfl
  · split
    · rfl
    · rfl
    · split <;> rfl

theorem exec_not_open (s : Disk V M) (w : Write V M) (hi : s.inited = false) :
    (w.exec env s).2 = s := by
  cases w <;> simp [Write.exec, store, update, delete, hi]
  split <;> rfl

end Disk
end Valori
