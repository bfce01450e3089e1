import Verif.Model.Tensor
import Verif.Lemmas.Dict

/-!
# Properties C41 - C43: tensor persistence
-/

namespace Valori.Props
open Valori Valori.Spec

variable {S V I A : Type}

/-- A file holds what was saved. -/
def Holding (env : TpEnv S I A) : Option (TFile S V A) → Option (Stored S V I) → Prop
  | none, none => True
  | some (.pickle s), some (.obj s') => s = s'
  | some (.npz v a), some (.arrays v' ids) => v = v' ∧ env.idsArr ids = some a
  | _, _ => False

/-- Objects are strings, ids lists of numbers; the empty string does not pickle, and lists of more
than two numbers do not convert. -/
def exTp : TpEnv String (List Nat) (List Nat) where
  picklable s := s != ""
  idsArr l := if l.length ≤ 2 then some l else none
  idsList a := some a

/-- A history, newest first. -/
def exTpHist : List (TpCall String Nat (List Nat)) :=
  [.reopen, .close, .loadState "b", .saveIndex "z" "b" true, .loadState "a",
   .saveVecs 5 [1, 2] "a.npz" true, .saveState "y" "a" true, .saveState "x" "a" true, .init]

variable {env : TpEnv S I A}

theorem tp_opened (h : List (TpCall S V I)) (f : Tensor S V A) (hf : f.inited = false) :
    (Tensor.run env f h).2.inited = opened (Tensor.run env f h).1 := by
  induction h with
  | nil => simpa [Tensor.run, opened] using hf
  | cons c h ih =>
    simp only [Tensor.run]
    cases c <;> simp only [Tensor.call, opened, Tensor.init, Tensor.close] <;>
      (try rw [← ih]) <;>
      simp only [Tensor.saveState, Tensor.saveIndex, Tensor.saveVecs, Tensor.loadState,
        Tensor.loadIndex, Tensor.loadVecs] <;>
      (repeat' split) <;> rfl

theorem tp_counts (h : List (TpCall S V I)) (f : Tensor S V A) (h1 : f.saves = 0) (h2 : f.loads = 0) :
    (Tensor.run env f h).2.saves =
      ((sinceReopen (Tensor.run env f h).1).filter fun x => x.2.isSaved).length ∧
    (Tensor.run env f h).2.loads =
      ((sinceReopen (Tensor.run env f h).1).filter fun x => x.2.isLoaded).length := by
  induction h with
  | nil => simp [Tensor.run, sinceReopen, h1, h2]
  | cons c h ih =>
    obtain ⟨i1, i2⟩ := ih
    simp only [Tensor.run]
    cases c <;> simp only [Tensor.call, sinceReopen, Tensor.init, Tensor.close, Tensor.new] <;>
      (try simp only [Tensor.saveState, Tensor.saveIndex, Tensor.saveVecs, Tensor.loadState,
        Tensor.loadIndex, Tensor.loadVecs]) <;>
      (repeat' split) <;>
      simp_all [Tensor.repSave, Tensor.repObj, Tensor.repVecs, TpReply.isSaved, TpReply.isLoaded]

theorem tp_step (p : String) (c : TpCall S V I) (g : Tensor S V A) (x : Option (Stored S V I))
    (hx : Holding env (g.files.get? p) x)
    (hc : ∀ y, c.target = some (p, y) → (Tensor.call env g c).1 = .saved) :
    Holding env ((Tensor.call env g c).2.files.get? p)
      (match c.target with
        | some (p', y) => if p' = p then some y else x
        | none => x) := by
  cases c with
  | init => exact hx
  | close => exact hx
  | reopen => exact hx
  | loadState q => simp only [Tensor.call, Tensor.loadState]; (repeat' split) <;> simp_all [TpCall.target]
  | loadIndex q => simp only [Tensor.call, Tensor.loadIndex]; (repeat' split) <;> simp_all [TpCall.target]
  | loadVecs q => simp only [Tensor.call, Tensor.loadVecs]; (repeat' split) <;> simp_all [TpCall.target]
  | saveState s q io =>
    simp only [Tensor.call, TpCall.target, Tensor.saveState, Option.some.injEq, Prod.mk.injEq] at hc ⊢
    by_cases hq : q = p
    · subst hq
      have := hc _ ⟨rfl, rfl⟩
      revert this
      (repeat' split) <;> simp_all [Tensor.repSave, Dict.get?_set_self, Holding]
    · (repeat' split) <;> simp_all [Dict.get?_set, Ne.symm hq]
  | saveIndex s q io =>
    simp only [Tensor.call, TpCall.target, Tensor.saveIndex, Option.some.injEq, Prod.mk.injEq] at hc ⊢
    by_cases hq : q = p
    · subst hq
      have := hc _ ⟨rfl, rfl⟩
      revert this
      (repeat' split) <;> simp_all [Tensor.repSave, Dict.get?_set_self, Holding]
    · (repeat' split) <;> simp_all [Dict.get?_set, Ne.symm hq]
  | saveVecs v ids q io =>
    simp only [Tensor.call, TpCall.target, Tensor.saveVecs, Option.some.injEq, Prod.mk.injEq] at hc ⊢
    by_cases hq : npzName q = p
    · have := hc _ ⟨hq, rfl⟩
      revert this
      (repeat' split) <;> simp_all [Tensor.repSave, Dict.get?_set_self, Holding]
    · (repeat' split) <;> simp_all [Dict.get?_set, Ne.symm hq]

theorem tp_files (p : String) (h : List (TpCall S V I)) (f : Tensor S V A) (hf : f.files = [])
    (hs : ∀ x ∈ (Tensor.run env f h).1, ∀ y, x.1.target = some (p, y) → x.2 = .saved) :
    Holding env ((Tensor.run env f h).2.files.get? p) (lastSaved p (Tensor.run env f h).1) := by
  induction h with
  | nil => simp [Tensor.run, hf, Dict.get?, lastSaved, Holding]
  | cons c h ih =>
    have hi := ih fun x hx => hs x (by simp [Tensor.run, hx])
    have hc := hs _ (by simp only [Tensor.run]; exact List.mem_cons_self)
    have := tp_step p c _ _ hi hc
    simp only [Tensor.run, lastSaved]
    cases ht : c.target with
    | none => rw [ht] at this; exact this
    | some y => rw [ht] at this; exact this

/-! ## C41 -/

/-- **C41** On an empty directory, after any history (newest first, with any failing calls, closes
and reopens) whose saves to `p` all succeeded: if the manager is open, `load_state` and `load_index`
of `p` give the last object saved there, nothing when nothing was saved, and raise when the last save
was of vectors; `load_vectors` likewise.  The counters of the current manager object count the
acknowledged saves and the loads that handed out something. -/
theorem C41_tensor_roundtrip (env : TpEnv S I A) (h : List (TpCall S V I)) (p : String) :
    let tr := (Tensor.run (V := V) env (Tensor.new []) h).1
    let f := (Tensor.run (V := V) env (Tensor.new []) h).2
    (f.saves = ((sinceReopen tr).filter fun x => x.2.isSaved).length ∧
     f.loads = ((sinceReopen tr).filter fun x => x.2.isLoaded).length) ∧
    (opened tr = false → (Tensor.loadState p f).1 = .error .persistence ∧
      (Tensor.loadIndex p f).1 = .error .persistence ∧
      (Tensor.loadVecs env p f).1 = .error .persistence) ∧
    (opened tr = true → (∀ x ∈ tr, ∀ y, x.1.target = some (p, y) → x.2 = .saved) →
      match lastSaved p tr with
      | none => (Tensor.loadState p f).1 = .ok none ∧ (Tensor.loadIndex p f).1 = .ok none ∧
          (Tensor.loadVecs env p f).1 = .ok none
      | some (.obj s) => (Tensor.loadState p f).1 = .ok (some s) ∧
          (Tensor.loadIndex p f).1 = .ok (some s) ∧
          (Tensor.loadVecs env p f).1 = .error .persistence
      | some (.arrays v ids) => (Tensor.loadState p f).1 = .error .persistence ∧
          (Tensor.loadIndex p f).1 = .error .persistence ∧
          ((∀ a, env.idsArr ids = some a → env.idsList a = some ids) →
            (Tensor.loadVecs env p f).1 = .ok (some (v, ids)))) := by
  intro tr f
  have ho : f.inited = opened tr := tp_opened h _ rfl
  refine ⟨tp_counts h _ rfl rfl, ?_, ?_⟩
  · intro hc
    rw [hc] at ho
    simp [Tensor.loadState, Tensor.loadIndex, Tensor.loadVecs, ho]
  · intro hc hs
    rw [hc] at ho
    have := tp_files p h (Tensor.new []) rfl hs
    change Holding env (f.files.get? p) (lastSaved p tr) at this
    simp only [Tensor.loadState, Tensor.loadIndex, Tensor.loadVecs, ho]
    cases hl : lastSaved p tr with
    | none =>
      rw [hl] at this
      cases hg : f.files.get? p with
      | none => simp
      | some t => rw [hg] at this; cases t <;> exact this.elim
    | some x =>
      rw [hl] at this
      cases hg : f.files.get? p with
      | none => rw [hg] at this; exact this.elim
      | some t =>
        rw [hg] at this
        cases t <;> cases x <;> simp only [Holding] at this
        · subst this; simp
        · obtain ⟨rfl, ha⟩ := this
          refine ⟨by simp, by simp, ?_⟩
          intro hr
          simp [hr _ ha]

/-- Two saves of one path, one of another, a close and a reopen. -/
example :
    let R := Tensor.run exTp (Tensor.new []) exTpHist
    (∀ x ∈ R.1, ∀ y, x.1.target = some ("a", y) → x.2 = .saved) ∧
    opened R.1 = true ∧ lastSaved "a" R.1 = some (.obj "y") ∧
    lastSaved "b" R.1 = some (.obj "z") ∧ lastSaved "a.npz" R.1 = some (.arrays 5 [1, 2]) ∧
    lastSaved "c" R.1 = none ∧
    ((Tensor.run exTp (Tensor.new []) (exTpHist.drop 2)).2.saves = 4) := by
  refine ⟨?_, by decide, by decide +kernel, by decide +kernel, by decide +kernel, by decide +kernel,
    by decide +kernel⟩
  have hr : (Tensor.run exTp (Tensor.new []) exTpHist).1.all
      (fun x => x.2 = .saved ∨ x.1.target = none) = true := by decide +kernel
  intro x hx y hy
  have := List.all_eq_true.1 hr x hx
  simp only [decide_eq_true_eq] at this
  rcases this with h | h
  · exact h
  · rw [h] at hy; cases hy

/-! ## C42 -/

theorem npzName_eq_iff (p : String) : npzName p = p ↔ ".npz".toList.isSuffixOf p.toList = true := by
  simp only [npzName]
  split
  · simp_all
  · simp_all only [iff_false, Bool.not_eq_true, Bool.false_eq_true]
    intro h
    have := congrArg String.length h
    simp at this

/-- **C42** A successful `save_vectors` to a path followed by `load_vectors` of the path: gives back
the vectors and ids (when the id list survives `np.array(ids).tolist()`) if the path ends in ".npz",
and otherwise exactly what a load gave before the save.  So for a path that held nothing, the round
trip works if and only if the path ends in ".npz". -/
theorem C42_vectors_roundtrip (env : TpEnv S I A) (v : V) (ids : I) (p : String) (io : Bool)
    {f f' : Tensor S V A} (hs : Tensor.saveVecs env v ids p io f = (.ok true, f'))
    (hr : ∀ a, env.idsArr ids = some a → env.idsList a = some ids) :
    (".npz".toList <:+ p.toList → (Tensor.loadVecs env p f').1 = .ok (some (v, ids))) ∧
    (¬ ".npz".toList <:+ p.toList → (Tensor.loadVecs env p f').1 = (Tensor.loadVecs env p f).1) ∧
    ((Tensor.loadVecs env p f).1 = .ok none →
      ((Tensor.loadVecs env p f').1 = .ok (some (v, ids)) ↔ ".npz".toList <:+ p.toList)) := by
  have hn := npzName_eq_iff p
  rw [List.isSuffixOf_iff_suffix] at hn
  simp only [Tensor.saveVecs] at hs
  split at hs
  · simp at hs
  rename_i hi
  split at hs
  · simp at hs
  cases ha : env.idsArr ids with
  | none => rw [ha] at hs; simp at hs
  | some a =>
    rw [ha] at hs
    simp only [Prod.mk.injEq, true_and] at hs
    subst hs
    have h1 : ".npz".toList <:+ p.toList → (Tensor.loadVecs env p
        { f with files := f.files.set (npzName p) (.npz v a), saves := f.saves + 1 }).1 =
        .ok (some (v, ids)) := by
      intro hp
      rw [hn.2 hp]
      simp only [Tensor.loadVecs, Dict.get?_set_self, hr a ha]
      rw [if_neg hi]
    have h2 : ¬ ".npz".toList <:+ p.toList → (Tensor.loadVecs env p
        { f with files := f.files.set (npzName p) (.npz v a), saves := f.saves + 1 }).1 =
        (Tensor.loadVecs env p f).1 := by
      intro hp
      have hne : p ≠ npzName p := fun h => hp (hn.1 h.symm)
      simp only [Tensor.loadVecs, Dict.get?_set, if_neg hne]
      rw [if_neg hi, if_neg hi]
      (repeat' split) <;> rfl
    refine ⟨h1, h2, ?_⟩
    intro hnone
    refine ⟨?_, h1⟩
    intro he
    by_contra hp
    rw [h2 hp, hnone] at he
    simp at he

example :
    let f : Tensor String Nat (List Nat) := Tensor.init (Tensor.new [])
    (Tensor.saveVecs exTp 5 [1, 2] "v.npz" true f).1 = .ok true ∧
    (Tensor.loadVecs exTp "v.npz" (Tensor.saveVecs exTp 5 [1, 2] "v.npz" true f).2).1 =
      .ok (some (5, [1, 2])) ∧
    (Tensor.saveVecs exTp 5 [1, 2] "v" true f).1 = .ok true ∧
    (Tensor.loadVecs exTp "v" (Tensor.saveVecs exTp 5 [1, 2] "v" true f).2).1 = .ok none := by
  decide +kernel

/-! ## C43 -/

/-- **C43** is false whatever was saved before: when `save_state` is asked to store an object that
does not pickle, it raises and the path can no longer be loaded; the same after a crash while the file
is being written. -/
theorem C43_failed_save_refuted (env : TpEnv S I A) (s : S) (p : String) (f : Tensor S V A)
    (hi : f.inited = true) (hs : env.picklable s = false) :
    (∃ f', Tensor.saveState env s p true f = (.error .persistence, f') ∧
      (Tensor.loadState p f').1 = .error .persistence) ∧
    (Tensor.loadState p (Tensor.init (Tensor.new (Tensor.crashSave s p .writing f.files)))).1 =
      .error .persistence := by
  constructor
  · refine ⟨{ f with files := f.files.set p .torn }, by simp [Tensor.saveState, hi, hs], ?_⟩
    simp [Tensor.loadState, hi, Dict.get?_set_self]
  · simp [Tensor.loadState, Tensor.init, Tensor.new, Tensor.crashSave, Dict.get?_set_self]

/-- **C43**, weaker form: a failed or crashed save never changes what other paths load; a save the
operating system refused changes nothing; a crash outside the writing of the file leaves the old or
the new object.  Missing: failures while the file is written, see `C43_failed_save_refuted`. -/
theorem C43_failed_save_partial (env : TpEnv S I A) (s : S) (p : String) (io : Bool)
    (f : Tensor S V A) (hi : f.inited = true) :
    (∀ q, q ≠ p → (Tensor.loadState q (Tensor.saveState env s p io f).2).1 = (Tensor.loadState q f).1) ∧
    ((Tensor.saveState env s p false f) = (.error .persistence, f)) ∧
    (∀ a q, q ≠ p →
      (Tensor.loadState q (Tensor.init (Tensor.new (Tensor.crashSave s p a f.files)))).1 =
        (Tensor.loadState q f).1) ∧
    (Tensor.loadState p (Tensor.init (Tensor.new (Tensor.crashSave s p .beforeOpen f.files)))).1 =
        (Tensor.loadState p f).1 ∧
    (Tensor.loadState p (Tensor.init (Tensor.new (Tensor.crashSave s p .written f.files)))).1 =
        .ok (some s) := by
  have hfile : ∀ (g g' : Tensor S V A) q, g.inited = true → g'.inited = true →
      g.files.get? q = g'.files.get? q → (Tensor.loadState q g).1 = (Tensor.loadState q g').1 := by
    intro g g' q h1 h2 h3
    simp only [Tensor.loadState, h1, h2, h3]
    (repeat' split) <;> simp_all
  refine ⟨?_, by simp [Tensor.saveState, hi], ?_, ?_, ?_⟩
  · intro q hq
    apply hfile _ _ _ _ hi
    · simp only [Tensor.saveState]; (repeat' split) <;> simp_all [Dict.get?_set]
    · simp only [Tensor.saveState]; (repeat' split) <;> simp_all
  · intro a q hq
    apply hfile _ _ _ rfl hi
    cases a <;> simp [Tensor.init, Tensor.new, Tensor.crashSave, Dict.get?_set, hq]
  · exact hfile _ _ _ rfl hi rfl
  · simp [Tensor.loadState, Tensor.init, Tensor.new, Tensor.crashSave, Dict.get?_set_self]

example :
    let f : Tensor String Nat (List Nat) :=
      (Tensor.saveState exTp "x" "a" true (Tensor.init (Tensor.new []))).2
    f.inited = true ∧ exTp.picklable "" = false ∧ (Tensor.loadState "a" f).1 = .ok (some "x") ∧
    (Tensor.loadState "a" (Tensor.saveState exTp "" "a" true f).2).1 = .error .persistence := by
  decide +kernel

end Valori.Props
