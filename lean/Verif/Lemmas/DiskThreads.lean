import Verif.Model.DiskThreads
import Verif.Lemmas.Dict
import Verif.Spec.Threads
import Mathlib.Data.List.Induction

/-!
# Threads that touch different files do not disturb each other
-/

namespace Valori
open Spec

variable {V M R : Type}

/-- The two storages look alike as far as the files in `T` are concerned. -/
def Same (T : String → Prop) (s s' : Disk V M) : Prop :=
  s.inited = s'.inited ∧
    ∀ f, T f → s.dir.vec.get? f = s'.dir.vec.get? f ∧ s.dir.pkl.get? f = s'.dir.pkl.get? f

/-- No file occurs twice in a directory. -/
abbrev Neat (s : Disk V M) : Prop := s.dir.vec.keys.Nodup ∧ s.dir.pkl.keys.Nodup

theorem Same.refl (T : String → Prop) (s : Disk V M) : Same T s s := ⟨rfl, fun _ _ => ⟨rfl, rfl⟩⟩

theorem Same.trans {T : String → Prop} {a b c : Disk V M} (h : Same T a b) (h' : Same T b c) : Same T a c :=
  ⟨h.1.trans h'.1, fun f hf => ⟨(h.2 f hf).1.trans (h'.2 f hf).1, (h.2 f hf).2.trans (h'.2 f hf).2⟩⟩

theorem Same.symm {T : String → Prop} {a b : Disk V M} (h : Same T a b) : Same T b a :=
  ⟨h.1.symm, fun f hf => ⟨(h.2 f hf).1.symm, (h.2 f hf).2.symm⟩⟩

namespace DProg

/-- All files the computation may touch are in `T`. -/
def Own (T : String → Prop) : DProg V M R → Prop
  | .ret _ => True
  | .isOpen k => ∀ b, Own T (k b)
  | .hasVec f k => T f ∧ ∀ b, Own T (k b)
  | .loadVec f k => T f ∧ ∀ b, Own T (k b)
  | .hasPkl f k => T f ∧ ∀ b, Own T (k b)
  | .loadPkl f k => T f ∧ ∀ b, Own T (k b)
  | .vecTorn f k => T f ∧ Own T k
  | .vecDone f _ k => T f ∧ Own T k
  | .pklTorn f k => T f ∧ Own T k
  | .pklDone f _ k => T f ∧ Own T k
  | .rmVec f k => T f ∧ ∀ b, Own T (k b)
  | .rmPkl f k => T f ∧ ∀ b, Own T (k b)
  | .glob k => Own T k
  | .setCount k => Own T k

theorem step_own {T : String → Prop} (s : Disk V M) (n : Nat) (p : DProg V M R) (h : Own T p) :
    Own T (step s n p).2.2 := by
  cases p <;> simp only [Own, step] at h ⊢
  all_goals first
    | exact h
    | exact h _
    | exact h.2
    | exact h.2 _

theorem step_neat (s : Disk V M) (n : Nat) (p : DProg V M R) (h : Neat s) : Neat (step s n p).1 := by
  cases p <;> simp only [step, FsStep.run]
  all_goals first
    | exact h
    | exact ⟨Dict.nodup_set h.1 _ _, h.2⟩
    | exact ⟨h.1, Dict.nodup_set h.2 _ _⟩
    | exact ⟨Dict.nodup_pop h.1 _, h.2⟩
    | exact ⟨h.1, Dict.nodup_pop h.2 _⟩

theorem step_same {T : String → Prop} {s s' : Disk V M} (n n' : Nat) (p : DProg V M R) (h : Own T p)
    (hs : Neat s) (hs' : Neat s') (hh : Same T s s') :
    Same T (step s n p).1 (step s' n' p).1 ∧ (step s n p).2.2 = (step s' n' p).2.2 := by
  obtain ⟨h1, h2⟩ := hh
  cases p <;> simp only [Own, step, FsStep.run] at h ⊢
  case ret => exact ⟨⟨h1, h2⟩, trivial⟩
  case isOpen => exact ⟨⟨h1, h2⟩, by rw [h1]⟩
  case hasVec => exact ⟨⟨h1, h2⟩, by rw [Dict.mem_eq, Dict.mem_eq, (h2 _ h.1).1]⟩
  case loadVec => exact ⟨⟨h1, h2⟩, by rw [(h2 _ h.1).1]⟩
  case hasPkl => exact ⟨⟨h1, h2⟩, by rw [Dict.mem_eq, Dict.mem_eq, (h2 _ h.1).2]⟩
  case loadPkl => exact ⟨⟨h1, h2⟩, by rw [(h2 _ h.1).2]⟩
  case vecTorn =>
    exact ⟨⟨h1, fun f hf => ⟨by simp only [Dict.get?_set]; rw [(h2 f hf).1], (h2 f hf).2⟩⟩, trivial⟩
  case vecDone =>
    exact ⟨⟨h1, fun f hf => ⟨by simp only [Dict.get?_set]; rw [(h2 f hf).1], (h2 f hf).2⟩⟩, trivial⟩
  case pklTorn =>
    exact ⟨⟨h1, fun f hf => ⟨(h2 f hf).1, by simp only [Dict.get?_set]; rw [(h2 f hf).2]⟩⟩, trivial⟩
  case pklDone =>
    exact ⟨⟨h1, fun f hf => ⟨(h2 f hf).1, by simp only [Dict.get?_set]; rw [(h2 f hf).2]⟩⟩, trivial⟩
  case rmVec =>
    exact ⟨⟨h1, fun f hf => ⟨by simp only [Dict.get?_pop hs.1, Dict.get?_pop hs'.1]; rw [(h2 f hf).1],
      (h2 f hf).2⟩⟩, by rw [Dict.mem_eq, Dict.mem_eq, (h2 _ h.1).1]⟩
  case rmPkl =>
    exact ⟨⟨h1, fun f hf => ⟨(h2 f hf).1,
      by simp only [Dict.get?_pop hs.2, Dict.get?_pop hs'.2]; rw [(h2 f hf).2]⟩⟩,
      by rw [Dict.mem_eq, Dict.mem_eq, (h2 _ h.1).2]⟩
  case glob => exact ⟨⟨h1, h2⟩, trivial⟩
  case setCount => exact ⟨⟨h1, h2⟩, trivial⟩

theorem step_frame {T T' : String → Prop} (s : Disk V M) (n : Nat) (p : DProg V M R) (h : Own T p)
    (hd : ∀ f, T' f → ¬ T f) : Same T' s (step s n p).1 := by
  cases p <;> simp only [Own, step, FsStep.run] at h ⊢
  case vecTorn | vecDone =>
    refine ⟨rfl, fun f hf => ⟨?_, rfl⟩⟩
    simp only [Dict.get?_set]
    rw [if_neg (fun e => hd f hf (by rw [e]; exact h.1))]
  case pklTorn | pklDone =>
    refine ⟨rfl, fun f hf => ⟨rfl, ?_⟩⟩
    simp only [Dict.get?_set]
    rw [if_neg (fun e => hd f hf (by rw [e]; exact h.1))]
  case rmVec =>
    exact ⟨rfl, fun f hf => ⟨(Dict.get?_pop_ne _ (fun e => hd f hf (by rw [e]; exact h.1))).symm, rfl⟩⟩
  case rmPkl =>
    exact ⟨rfl, fun f hf => ⟨rfl, (Dict.get?_pop_ne _ (fun e => hd f hf (by rw [e]; exact h.1))).symm⟩⟩
  all_goals exact ⟨rfl, fun _ _ => ⟨rfl, rfl⟩⟩

/-- `k` accesses without interruption. -/
def solo : Nat → Disk V M → Nat → DProg V M R → Disk V M × Nat × DProg V M R
  | 0, s, n, p => (s, n, p)
  | k + 1, s, n, p => let r := solo k s n p; step r.1 r.2.1 r.2.2

/-- The whole computation without interruption. -/
def alone (s : Disk V M) (n : Nat) : DProg V M R → R × Disk V M
  | .ret r => (r, s)
  | .isOpen k => alone s n (k s.inited)
  | .hasVec f k => alone s n (k (s.dir.vec.mem f))
  | .loadVec f k => alone s n (k (s.dir.vec.get? f))
  | .hasPkl f k => alone s n (k (s.dir.pkl.mem f))
  | .loadPkl f k => alone s n (k (s.dir.pkl.get? f))
  | .vecTorn f k => alone { s with dir := FsStep.run s.dir (.vecTorn f) } n k
  | .vecDone f v k => alone { s with dir := FsStep.run s.dir (.vecDone f v) } n k
  | .pklTorn f k => alone { s with dir := FsStep.run s.dir (.pklTorn f) } n k
  | .pklDone f m k => alone { s with dir := FsStep.run s.dir (.pklDone f m) } n k
  | .rmVec f k => alone { s with dir := FsStep.run s.dir (.vecUnlink f) } n (k (s.dir.vec.mem f))
  | .rmPkl f k => alone { s with dir := FsStep.run s.dir (.pklUnlink f) } n (k (s.dir.pkl.mem f))
  | .glob k => alone s s.dir.vec.length k
  | .setCount k => alone { s with count := n } n k

theorem alone_step (s : Disk V M) (n : Nat) (p : DProg V M R) :
    alone (step s n p).1 (step s n p).2.1 (step s n p).2.2 = alone s n p := by
  cases p <;> rfl

theorem alone_solo (k : Nat) (s : Disk V M) (n : Nat) (p : DProg V M R) :
    alone (solo k s n p).1 (solo k s n p).2.1 (solo k s n p).2.2 = alone s n p := by
  induction k with
  | zero => rfl
  | succ k ih => rw [← ih]; exact alone_step _ _ _

theorem solo_succ (k : Nat) (s : Disk V M) (n : Nat) (p : DProg V M R) :
    solo (k + 1) s n p = solo k (step s n p).1 (step s n p).2.1 (step s n p).2.2 := by
  induction k with
  | zero => rfl
  | succ k ih => rw [solo, ih]; rfl

theorem solo_ret (k : Nat) (s : Disk V M) (n : Nat) (r : R) :
    solo k s n (.ret r : DProg V M R) = (s, n, .ret r) := by
  induction k with
  | zero => rfl
  | succ k ih => rw [solo, ih]; rfl

theorem solo_add (j k : Nat) (s : Disk V M) (n : Nat) (p : DProg V M R) :
    solo (j + k) s n p = solo k (solo j s n p).1 (solo j s n p).2.1 (solo j s n p).2.2 := by
  induction k with
  | zero => rfl
  | succ k ih => rw [← Nat.add_assoc, solo, ih]; rfl

theorem alone_same {T : String → Prop} (p : DProg V M R) : ∀ {s s' : Disk V M} (n n' : Nat), Own T p →
    Neat s → Neat s' → Same T s s' →
    (alone s n p).1 = (alone s' n' p).1 ∧ Same T (alone s n p).2 (alone s' n' p).2 ∧ Neat (alone s n p).2 := by
  induction p with
  | ret r => intro s s' n n' _ h1 _ h3; exact ⟨rfl, h3, h1⟩
  | isOpen k ih | hasVec f k ih | loadVec f k ih | hasPkl f k ih | loadPkl f k ih | rmVec f k ih
  | rmPkl f k ih =>
    intro s s' n n' h h1 h2 h3
    obtain ⟨a1, a2⟩ := step_same n n' _ h h1 h2 h3
    have a3 := step_own s n _ h
    rw [← alone_step s n, ← alone_step s' n', ← a2]
    exact ih _ _ _ a3 (step_neat _ _ _ h1) (step_neat _ _ _ h2) a1
  | vecTorn f k ih | vecDone f v k ih | pklTorn f k ih | pklDone f m k ih | glob k ih | setCount k ih =>
    intro s s' n n' h h1 h2 h3
    obtain ⟨a1, a2⟩ := step_same n n' _ h h1 h2 h3
    have a3 := step_own s n _ h
    rw [← alone_step s n, ← alone_step s' n', ← a2]
    exact ih _ _ a3 (step_neat _ _ _ h1) (step_neat _ _ _ h2) a1

theorem alone_frame {T T' : String → Prop} (p : DProg V M R) (hd : ∀ f, T' f → ¬ T f) :
    ∀ (s : Disk V M) (n : Nat), Own T p → Same T' s (alone s n p).2 := by
  induction p with
  | ret r => intro s n _; exact .refl _ _
  | isOpen k ih | hasVec f k ih | loadVec f k ih | hasPkl f k ih | loadPkl f k ih | rmVec f k ih
  | rmPkl f k ih =>
    intro s n h
    rw [← alone_step s n]
    exact (step_frame s n _ h hd).trans (ih _ _ _ (step_own s n _ h))
  | vecTorn f k ih | vecDone f v k ih | pklTorn f k ih | pklDone f m k ih | glob k ih | setCount k ih =>
    intro s n h
    rw [← alone_step s n]
    exact (step_frame s n _ h hd).trans (ih _ _ (step_own s n _ h))

/-- Every computation comes to an end. -/
theorem solo_ends (p : DProg V M R) : ∀ (s : Disk V M) (n : Nat), ∃ k r, (solo k s n p).2.2 = .ret r := by
  induction p with
  | ret r => intro s n; exact ⟨0, r, rfl⟩
  | isOpen k ih | hasVec f k ih | loadVec f k ih | hasPkl f k ih | loadPkl f k ih | rmVec f k ih
  | rmPkl f k ih =>
    intro s n
    obtain ⟨j, r, h⟩ := ih _ _ _
    exact ⟨j + 1, r, by rw [solo_succ]; exact h⟩
  | vecTorn f k ih | vecDone f v k ih | pklTorn f k ih | pklDone f m k ih | glob k ih | setCount k ih =>
    intro s n
    obtain ⟨j, r, h⟩ := ih _ _
    exact ⟨j + 1, r, by rw [solo_succ]; exact h⟩

end DProg

open DProg

theorem alone_write (env : DiskEnv M) (s : Disk V M) (n : Nat) (f : String) (v : V) (m : Option M)
    (done raise : DProg V M R) :
    alone s n (writeProg env f v m done raise) =
      alone { s with dir := runSteps s.dir (Disk.writeSteps env s.dir f v m).1 } n
        (if (Disk.writeSteps env s.dir f v m).2 then done else raise) := by
  cases m with
  | some m =>
    by_cases h : env.picklable m = true <;> simp [writeProg, alone, Disk.writeSteps, h, runSteps]
  | none =>
    by_cases h : s.dir.pkl.mem f = true <;>
      simp [writeProg, alone, Disk.writeSteps, h, runSteps, FsStep.run]

/-- A call without interruption does what the sequential model says. -/
theorem alone_call (env : DiskEnv M) (c : DCall V M) (k : MReply V M → DProg V M R) (s : Disk V M) (n : Nat) :
    ∃ n', alone s n (callProg env c k) = alone (diskSeq env s c).2 n' (k (diskSeq env s c).1) := by
  cases c with
  | store id v m =>
    by_cases h : id = ""
    · exact ⟨n, by simp [callProg, diskSeq, Disk.store, h]⟩
    · by_cases hi : s.inited = true
      · rcases hw : Disk.writeSteps env s.dir (sanitize env id) v m with ⟨st, fin⟩
        cases fin
        · exact ⟨n, by simp [callProg, diskSeq, Disk.store, h, hi, alone, alone_write, hw]⟩
        · exact ⟨(runSteps s.dir st).vec.length,
            by simp [callProg, diskSeq, Disk.store, h, hi, alone, alone_write, hw]⟩
      · exact ⟨n, by simp [callProg, diskSeq, Disk.store, h, hi, alone]⟩
  | retrieve id =>
    by_cases hi : s.inited = true
    · refine ⟨n, ?_⟩
      rcases hg : s.dir.vec.get? (sanitize env id) with _ | ⟨v⟩ | _
      · simp [callProg, diskSeq, Disk.retrieve, hi, alone, hg, Dict.mem_eq]
      · rcases hp : s.dir.pkl.get? (sanitize env id) with _ | ⟨m⟩ | _ <;>
          simp [callProg, diskSeq, Disk.retrieve, hi, alone, hg, hp, Dict.mem_eq]
      · simp [callProg, diskSeq, Disk.retrieve, hi, alone, hg, Dict.mem_eq]
    · exact ⟨n, by simp [callProg, diskSeq, Disk.retrieve, hi, alone]⟩
  | delete id =>
    by_cases hi : s.inited = true
    · by_cases hv : s.dir.vec.mem (sanitize env id) = true
      · refine ⟨(runSteps s.dir (Disk.deleteSteps s.dir (sanitize env id))).vec.length, ?_⟩
        by_cases hp : s.dir.pkl.mem (sanitize env id) = true <;>
          simp [callProg, diskSeq, Disk.delete, hi, alone, hv, hp, Disk.deleteSteps, runSteps, FsStep.run]
      · refine ⟨n, ?_⟩
        obtain ⟨dir, cnt, i⟩ := s
        simp only at hi hv
        subst hi
        by_cases hp : dir.pkl.mem (sanitize env id) = true <;>
          simp [callProg, diskSeq, Disk.delete, alone, hv, hp, Disk.deleteSteps, runSteps, FsStep.run]
    · exact ⟨n, by simp [callProg, diskSeq, Disk.delete, hi, alone]⟩
  | update id v m =>
    by_cases hi : s.inited = true
    · refine ⟨n, ?_⟩
      by_cases hv : s.dir.vec.mem (sanitize env id) = true
      · rcases hw : Disk.writeSteps env s.dir (sanitize env id) v m with ⟨st, fin⟩
        cases fin <;> simp [callProg, diskSeq, Disk.update, hi, alone, alone_write, hw, hv]
      · simp [callProg, diskSeq, Disk.update, hi, alone, hv]
    · exact ⟨n, by simp [callProg, diskSeq, Disk.update, hi, alone]⟩

theorem alone_session (env : DiskEnv M) (cs : List (DCall V M)) :
    ∀ (got : List (MReply V M)) (s : Disk V M) (n : Nat), alone s n (sessionProg env cs got) =
      (got ++ (oneByOne (diskSeq env) s cs).1, (oneByOne (diskSeq env) s cs).2) := by
  induction cs with
  | nil => intro got s n; simp [sessionProg, alone, oneByOne]
  | cons c cs ih =>
    intro got s n
    obtain ⟨n', h⟩ := alone_call env c (fun r => sessionProg env cs (got ++ [r])) s n
    rw [sessionProg, h, ih]
    simp [oneByOne]

theorem own_write (env : DiskEnv M) {T : String → Prop} {f : String} (hf : T f) (v : V) (m : Option M)
    (done raise : DProg V M R) (hd : Own T done) (hr : Own T raise) :
    Own T (writeProg env f v m done raise) := by
  cases m with
  | some m =>
    refine ⟨hf, hf, hf, ?_⟩
    by_cases h : env.picklable m = true
    · rw [if_pos h]; exact ⟨hf, hd⟩
    · rw [if_neg h]; exact hr
  | none =>
    refine ⟨hf, hf, hf, fun b => ?_⟩
    cases b
    · exact hd
    · refine ⟨hf, fun b => ?_⟩
      cases b
      · exact hr
      · exact hd

theorem own_call (env : DiskEnv M) {T : String → Prop} (c : DCall V M) (hc : T (sanitize env c.id))
    (k : MReply V M → DProg V M R) (hk : ∀ r, Own T (k r)) : Own T (callProg env c k) := by
  cases c with
  | store id v m =>
    simp only [callProg]
    by_cases h : id = ""
    · rw [if_pos h]; exact hk _
    · rw [if_neg h]
      intro o
      cases o
      · exact hk _
      · exact own_write env hc _ _ _ _ (hk _) (hk _)
  | retrieve id =>
    intro o
    cases o
    · exact hk _
    · refine ⟨hc, fun b => ?_⟩
      cases b
      · exact hk _
      · refine ⟨hc, fun x => ?_⟩
        rcases x with _ | ⟨v⟩ | _
        · exact hk _
        · refine ⟨hc, fun b => ?_⟩
          cases b
          · exact hk _
          · refine ⟨hc, fun x => ?_⟩
            rcases x with _ | ⟨v⟩ | _ <;> exact hk _
        · exact hk _
  | delete id =>
    intro o
    cases o
    · exact hk _
    · refine ⟨hc, fun b => ?_⟩
      cases b
      · refine ⟨hc, fun b => ?_⟩
        cases b
        · exact hk _
        · refine ⟨hc, fun b => ?_⟩
          cases b <;> exact hk _
      · refine ⟨hc, fun b => ?_⟩
        cases b
        · exact hk _
        · refine ⟨hc, fun b => ?_⟩
          cases b
          · exact hk _
          · refine ⟨hc, fun b => ?_⟩
            cases b <;> exact hk _
  | update id v m =>
    intro o
    cases o
    · exact hk _
    · refine ⟨hc, fun b => ?_⟩
      cases b
      · exact hk _
      · exact own_write env hc _ _ _ _ (hk _) (hk _)

theorem own_session (env : DiskEnv M) {T : String → Prop} (cs : List (DCall V M))
    (h : ∀ c ∈ cs, T (sanitize env c.id)) :
    ∀ got, Own T (sessionProg env cs got) := by
  induction cs with
  | nil => intro got; trivial
  | cons c cs ih =>
    intro got
    exact own_call env c (h c List.mem_cons_self) _ fun r => ih (fun c hc => h c (List.mem_cons_of_mem _ hc)) _

/-- After any schedule every thread is where it would be after as many accesses on its own, and its files
look the same; files that belong to no thread are unchanged. -/
theorem threads_apart (s : Disk V M) (hs : Neat s) (T : Nat → String → Prop) (p : Nat → DProg V M R)
    (hp : ∀ t, Own (T t) (p t)) (hT : ∀ t u f, T t f → T u f → t = u) (sched : List Nat) :
    let e := (DSys.mk s fun t => (0, p t)).run sched
    Neat e.disk ∧
    (∀ t, (e.thr t).2 = (solo (sched.count t) s 0 (p t)).2.2 ∧
      Same (T t) e.disk (solo (sched.count t) s 0 (p t)).1 ∧
      Neat (solo (sched.count t) s 0 (p t)).1 ∧ Own (T t) (e.thr t).2) ∧
    ∀ U : String → Prop, (∀ t f, U f → ¬ T t f) → Same U s e.disk := by
  induction sched using List.reverseRecOn with
  | nil =>
    exact ⟨hs, fun t => ⟨rfl, .refl _ _, hs, hp t⟩, fun U _ => .refl _ _⟩
  | append_singleton l u ih =>
    obtain ⟨h1, h2, h3⟩ := ih
    intro e
    have he : e = ((DSys.mk s fun t => (0, p t)).run l).step u := by simp [e, DSys.run]
    set d := (DSys.mk s fun t => (0, p t)).run l with hd
    obtain ⟨a1, a2, a3, a4⟩ := h2 u
    rw [he]
    refine ⟨step_neat _ _ _ h1, fun t => ?_, fun U hU => ?_⟩
    · by_cases htu : t = u
      · subst htu
        have hc : (l ++ [t]).count t = l.count t + 1 := by simp
        obtain ⟨b1, b2⟩ := step_same (d.thr t).1 (solo (l.count t) s 0 (p t)).2.1 _ a4 h1 a3 a2
        rw [hc]
        simp only [DSys.step, solo, Function.update_self, ← a1]
        exact ⟨b2, b1, step_neat _ _ _ a3, step_own _ _ _ a4⟩
      · have hc : (l ++ [u]).count t = l.count t := by
          rw [List.count_append, List.count_eq_zero_of_not_mem (l := [u]) (by simpa using htu)]; rfl
        obtain ⟨c1, c2, c3, c4⟩ := h2 t
        rw [hc]
        simp only [DSys.step, Function.update_of_ne htu]
        refine ⟨c1, .trans (.symm ?_) c2, c3, c4⟩
        exact step_frame _ _ _ a4 fun f hf hf' => htu (hT t u f hf hf')
    · exact (h3 U hU).trans (step_frame _ _ _ a4 fun f hf => hU u f hf)

/-- Calls on the files in `T` do the same on storages that look alike there, and leave other files alone. -/
theorem seq_same (env : DiskEnv M) {T : String → Prop} (cs : List (DCall V M))
    (hT : ∀ c ∈ cs, T (sanitize env c.id)) {s s' : Disk V M} (h1 : Neat s) (h2 : Neat s') (h : Same T s s') :
    (oneByOne (diskSeq env) s cs).1 = (oneByOne (diskSeq env) s' cs).1 ∧
      Same T (oneByOne (diskSeq env) s cs).2 (oneByOne (diskSeq env) s' cs).2 ∧
      Neat (oneByOne (diskSeq env) s cs).2 := by
  have := alone_same _ 0 0 (own_session env cs hT []) h1 h2 h
  rw [alone_session, alone_session] at this
  exact this

theorem seq_frame (env : DiskEnv M) {T T' : String → Prop} (cs : List (DCall V M))
    (hT : ∀ c ∈ cs, T (sanitize env c.id)) (hd : ∀ f, T' f → ¬ T f) (s : Disk V M) :
    Same T' s (oneByOne (diskSeq env) s cs).2 := by
  have := alone_frame _ hd s 0 (own_session env cs hT [])
  rw [alone_session] at this
  exact this

end Valori
