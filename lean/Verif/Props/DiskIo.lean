import Verif.Model.DiskIo
import Verif.Spec.LastWord
import Verif.Props.StoreContract

/-!
# Properties C184, C185: storage after refused writes
-/

namespace Valori.Props
open Valori Valori.Spec

variable {V M : Type}

/-- The files of a stem hold exactly `w`. -/
def HoldsAt (d : Dir V M) (stem : String) : Option (V × Option M) → Prop
  | none => d.vec.get? stem = none
  | some (v, m) => d.vec.get? stem = some (.good v) ∧ d.pkl.get? stem = m.map .good

theorem retrieve_holds (env : DiskEnv M) {s : Disk V M} (hi : s.inited = true) (x : Id)
    (w : Option (V × Option M)) : (s.retrieve env x).1 = .ok w ↔ HoldsAt s.dir (sanitize env x) w := by
  simp only [Disk.retrieve, hi, Bool.not_true, Bool.false_eq_true, if_false]
  cases hv : s.dir.vec.get? (sanitize env x) with
  | none => rcases w with _ | ⟨v, m⟩ <;> simp [HoldsAt, hv]
  | some fl =>
    cases fl with
    | torn => rcases w with _ | ⟨v, m⟩ <;> simp [HoldsAt, hv]
    | good a =>
      simp only
      cases hp : s.dir.pkl.get? (sanitize env x) with
      | none =>
        rcases w with _ | ⟨v, m⟩
        · simp [HoldsAt, hv]
        · cases m <;> simp [HoldsAt, hv, hp]
      | some fl =>
        cases fl with
        | torn =>
          rcases w with _ | ⟨v, m⟩
          · simp [HoldsAt, hv]
          · cases m <;> simp [HoldsAt, hv, hp]
        | good b =>
          rcases w with _ | ⟨v, m⟩
          · simp [HoldsAt, hv]
          · cases m <;> simp [HoldsAt, hv, hp]

theorem holds_congr {d d' : Dir V M} {stem : String} (h : d'.files stem = d.files stem)
    {w : Option (V × Option M)} (hw : HoldsAt d stem w) : HoldsAt d' stem w := by
  simp only [Dir.files, Prod.mk.injEq] at h
  rcases w with _ | ⟨v, m⟩ <;> simp only [HoldsAt, h.1, h.2] at hw ⊢ <;> exact hw

/-- Names are unique in both directories. -/
def Dir.Named (d : Dir V M) : Prop := d.vec.keys.Nodup ∧ d.pkl.keys.Nodup

theorem run_named {d : Dir V M} (h : Dir.Named d) (st : FsStep V M) : Dir.Named (st.run d) := by
  cases st <;> simp only [FsStep.run, Dir.Named] <;>
    first
    | exact ⟨Dict.nodup_set h.1 _ _, h.2⟩
    | exact ⟨h.1, Dict.nodup_set h.2 _ _⟩
    | exact ⟨Dict.nodup_pop h.1 _, h.2⟩
    | exact ⟨h.1, Dict.nodup_pop h.2 _⟩

theorem runSteps_named {d : Dir V M} (h : Dir.Named d) (l : List (FsStep V M)) :
    Dir.Named (runSteps d l) := by
  induction l generalizing d with
  | nil => exact h
  | cons st l ih => exact ih (run_named h st)

/-- A complete write leaves what it says. -/
theorem write_holds (env : DiskEnv M) {d : Dir V M} (h : Dir.Named d) (stem : String) (v : V) (m : Option M)
    (hf : (Disk.writeSteps env d stem v m).2 = true) :
    HoldsAt (runSteps d (Disk.writeSteps env d stem v m).1) stem (some (v, m)) := by
  cases m with
  | none =>
    cases hm : d.pkl.mem stem
    · have : d.pkl.get? stem = none := by simpa [Dict.mem] using hm
      simp [Disk.writeSteps, hm, runSteps, FsStep.run, HoldsAt, this]
    · simp [Disk.writeSteps, hm, runSteps, FsStep.run, HoldsAt, Dict.get?_pop h.2]
  | some m =>
    simp only [Disk.writeSteps] at hf ⊢
    split at hf
    · next hp => simp [hp, runSteps, FsStep.run, HoldsAt]
    · cases hf

/-- Any prefix of the steps of a write keeps an existing vector file. -/
theorem write_keeps (env : DiskEnv M) (d : Dir V M) (stem : String) (v : V) (m : Option M) (k : Nat)
    (h : d.vec.mem stem = true) :
    (runSteps d ((Disk.writeSteps env d stem v m).1.take k)).vec.mem stem = true := by
  have key : ∀ (l : List (FsStep V M)) (d : Dir V M), d.vec.mem stem = true →
      (∀ st ∈ l, ∀ x, st ≠ .vecUnlink x) → (runSteps d l).vec.mem stem = true := by
    intro l
    induction l with
    | nil => intro d h _; exact h
    | cons st l ih =>
      intro d h hl
      refine ih _ ?_ fun s hs => hl s (by simp [hs])
      have := hl st (by simp)
      cases st <;> simp_all [FsStep.run, Dict.mem, Dict.get?_set] <;> split <;> first | rfl | assumption | simp_all
  refine key _ _ h ?_
  intro st hst x
  have hst := List.mem_of_mem_take hst
  simp only [Disk.writeSteps] at hst
  cases m with
  | some m =>
    simp only at hst
    split at hst
    · simp at hst; rcases hst with rfl | rfl | rfl | rfl <;> simp
    · simp at hst; rcases hst with rfl | rfl | rfl <;> simp
  | none =>
    simp only at hst
    split at hst
    · simp at hst; rcases hst with rfl | rfl | rfl <;> simp
    · simp at hst; rcases hst with rfl | rfl <;> simp

theorem delete_holds {d : Dir V M} (h : Dir.Named d) (stem : String) :
    HoldsAt (runSteps d (Disk.deleteSteps d stem)) stem none := by
  cases hv : d.vec.mem stem <;> cases hp : d.pkl.mem stem
  · have : d.vec.get? stem = none := by simpa [Dict.mem] using hv
    simp [Disk.deleteSteps, hv, hp, runSteps, HoldsAt, this]
  · have : d.vec.get? stem = none := by simpa [Dict.mem] using hv
    simp [Disk.deleteSteps, hv, hp, runSteps, FsStep.run, HoldsAt, this]
  · simp [Disk.deleteSteps, hv, hp, runSteps, FsStep.run, HoldsAt, Dict.get?_pop h.1]
  · simp [Disk.deleteSteps, hv, hp, runSteps, FsStep.run, HoldsAt, Dict.get?_pop h.1]

/-- Whatever happens in a writing call: the directory is that of a prefix of its steps, and the backend
stays as open as it was. -/
theorem execIo_dir (env : DiskEnv M) (s : Disk V M) (k : Option Nat) (w : Disk.Write V M) :
    (w.execIo env s k).2.inited = s.inited ∧
    ∃ n, (w.execIo env s k).2.dir = runSteps s.dir ((w.steps env s.dir).take n) := by
  cases hi : s.inited with
  | false =>
    have h : w.execIo env s k = w.exec env s := by
      cases k <;> simp [Disk.Write.execIo, hi]
    rw [h, Disk.exec_not_open s w hi]
    exact ⟨hi, 0, rfl⟩
  | true =>
    obtain ⟨h1, h2⟩ := Disk.Write.exec_dir (env := env) s w hi
    cases k with
    | none => exact ⟨h2, (w.steps env s.dir).length, by simpa [Disk.Write.execIo] using h1⟩
    | some k =>
      by_cases hk : k < (w.steps env s.dir).length
      · exact ⟨by simp [Disk.Write.execIo, hi, hk], k, by simp [Disk.Write.execIo, hi, hk]⟩
      · refine ⟨by simpa [Disk.Write.execIo, hi, hk] using h2, (w.steps env s.dir).length, ?_⟩
        simpa [Disk.Write.execIo, hi, hk] using h1

/-- A call that answered did all its steps. -/
theorem execIo_ok (env : DiskEnv M) (s : Disk V M) (k : Option Nat) (w : Disk.Write V M) (b : Bool)
    (h : (w.execIo env s k).1 = .ok b) : w.execIo env s k = w.exec env s := by
  cases k with
  | none => rfl
  | some k =>
    simp only [Disk.Write.execIo] at h ⊢
    split
    · next hc => rw [if_pos hc] at h; cases h
    · rfl

/-- **C184.** A refused file step is reported as `StorageError`, and no other id is touched, in any state:
an id with another file name reads as before. -/
theorem C184_refused (env : DiskEnv M) (s : Disk V M) (k : Option Nat) (w : Disk.Write V M) :
    (s.inited = true → (∃ n, k = some n ∧ n < (w.steps env s.dir).length) →
      (w.execIo env s k).1 = .error .storage) ∧
    (∀ e, (w.execIo env s k).1 = .error e → e = .storage) ∧
    ∀ x, sanitize env x ≠ sanitize env w.id →
      ((w.execIo env s k).2.retrieve env x).1 = (s.retrieve env x).1 := by
  refine ⟨?_, ?_, fun x hx => ?_⟩
  · rintro hi ⟨n, rfl, hn⟩
    simp [Disk.Write.execIo, hi, hn]
  · intro e he
    have hx : ∀ e, (w.exec env s).1 = .error e → e = .storage := by
      intro e h
      obtain ⟨h1, h2, h3, h4, h5⟩ := C142_disk_errors (V := V) env
      cases w with
      | store id v m => exact h1 _ _ _ _ _ h
      | update id v m => exact h4 _ _ _ _ _ h
      | delete id => exact h3 _ _ _ h
    cases k with
    | none => exact hx e he
    | some k =>
      simp only [Disk.Write.execIo] at he
      split at he
      · cases he; rfl
      · exact hx e he
  · obtain ⟨h1, n, h2⟩ := execIo_dir env s k w
    refine Disk.retrieve_congr h1 ?_
    rw [h2]
    exact runSteps_other _ _ fun st hst => by
      rw [Disk.Write.steps_stem _ w st (List.mem_of_mem_take hst)]; exact hx

/-- The invariant for one id. -/
structure IoInv (env : DiskEnv M) (x : Id) (first : Option (Option (V × Option M))) (s : Disk V M)
    (h : List (Call V M × Reply V M)) : Prop where
  named : Dir.Named s.dir
  word : ∀ w, lastWord x first h = some w → HoldsAt s.dir (sanitize env x) w

theorem disk_step (env : DiskEnv M) (x : Id) (first : Option (Option (V × Option M))) (s : Disk V M)
    (h : List (Call V M × Reply V M)) (hs : IoInv env x first s h) (c : Call V M) (k : Option Nat)
    (hx : ∀ y ∈ c.ids, sanitize env y = sanitize env x → y = x) :
    IoInv env x first ((diskIo env k).call s c).2 ((c, ((diskIo env k).call s c).1) :: h) := by
  have named : ∀ w : Disk.Write V M, Dir.Named (w.execIo env s k).2.dir := by
    intro w
    obtain ⟨-, n, h2⟩ := execIo_dir env s k w
    rw [h2]
    exact runSteps_named hs.named _
  have other : ∀ w : Disk.Write V M, w.id ≠ x → w.id ∈ c.ids → ∀ u, HoldsAt s.dir (sanitize env x) u →
      HoldsAt (w.execIo env s k).2.dir (sanitize env x) u := by
    intro w hw hc u hu
    obtain ⟨-, n, h2⟩ := execIo_dir env s k w
    refine holds_congr ?_ hu
    rw [h2]
    exact runSteps_other _ _ fun st hst => by
      rw [Disk.Write.steps_stem _ w st (List.mem_of_mem_take hst)]
      exact fun e => hw (hx _ hc e.symm)
  have key : ∀ (w : Disk.Write V M) (r : Reply V M) (t : Disk V M),
      Backend.wrap Reply.flag (w.execIo env s k) = (r, t) →
      t = (w.execIo env s k).2 ∧ ((∃ b, r = .flag b ∧ w.exec env s = (.ok b, t)) ∨ r = .raised) := by
    intro w r t h
    rcases he : w.execIo env s k with ⟨e | b, t'⟩
    · rw [he] at h; simp only [Backend.wrap, Prod.mk.injEq] at h
      exact ⟨h.2.symm, .inr h.1.symm⟩
    · rw [he] at h; simp only [Backend.wrap, Prod.mk.injEq] at h
      refine ⟨h.2.symm, .inl ⟨b, h.1.symm, ?_⟩⟩
      rw [← h.2, ← he]
      exact (execIo_ok env s k w b (by rw [he])).symm
  cases c with
  | init => exact ⟨hs.named, hs.word⟩
  | close => exact ⟨hs.named, hs.word⟩
  | list n =>
    have : ((diskIo (V := V) env k).call s (.list n)).2 = s := by
      simp only [Backend.call, diskIo, Disk.list]
      cases s.inited <;> cases n <;> rfl
    rw [this]
    exact ⟨hs.named, hs.word⟩
  | count => exact ⟨hs.named, hs.word⟩
  | retrieve y =>
    have : ((diskIo (V := V) env k).call s (.retrieve y)).2 = s := by
      simp only [Backend.call, diskIo, Disk.retrieve]
      split
      · rfl
      · split
        · rfl
        · rfl
        · split <;> rfl
    rw [this]
    exact ⟨hs.named, hs.word⟩
  | store y v m =>
    rcases hc : Backend.wrap Reply.flag ((Disk.Write.store y v m).execIo env s k) with ⟨r, t⟩
    have hcall : (diskIo env k).call s (.store y v m) = (r, t) := hc
    rw [hcall]
    obtain ⟨rfl, hr⟩ := key _ _ _ hc
    refine ⟨named _, fun w hw => ?_⟩
    by_cases hy : y = x
    · subst hy
      simp only [lastWord, if_true] at hw
      rcases hr with ⟨b, rfl, he⟩ | rfl
      · simp only [Disk.Write.exec, Disk.store] at he
        by_cases hid : y = ""
        · simp only [hid, if_true, Prod.mk.injEq, Except.ok.injEq] at he
          rw [← he.1] at hw
          have he2 : (Disk.Write.execIo env s k (.store y v m)).2 = s := by rw [hid]; exact he.2.symm
          simp only [he2]
          exact hs.word w hw
        · simp only [hid, if_false] at he
          cases hi : s.inited
          · simp [hi] at he
          · simp only [hi, Bool.not_true, Bool.false_eq_true, if_false] at he
            split at he
            · next hf =>
              simp only [Prod.mk.injEq, Except.ok.injEq] at he
              rw [← he.1] at hw
              simp only [Option.some.injEq] at hw
              rw [← he.2, ← hw]
              exact write_holds env hs.named _ v m hf
            · simp at he
      · simp at hw
    · simp only [lastWord, if_neg hy] at hw
      exact other (.store y v m) hy (by simp [Call.ids, Disk.Write.id]) _ (hs.word w hw)
  | update y v m =>
    rcases hc : Backend.wrap Reply.flag ((Disk.Write.update y v m).execIo env s k) with ⟨r, t⟩
    have hcall : (diskIo env k).call s (.update y v m) = (r, t) := hc
    rw [hcall]
    obtain ⟨rfl, hr⟩ := key _ _ _ hc
    refine ⟨named _, fun w hw => ?_⟩
    by_cases hy : y = x
    · subst hy
      simp only [lastWord, if_true] at hw
      rcases hr with ⟨b, rfl, he⟩ | rfl
      · simp only [Disk.Write.exec, Disk.update] at he
        cases hi : s.inited
        · simp [hi] at he
        · simp only [hi, Bool.not_true, Bool.false_eq_true, if_false] at he
          cases hm : s.dir.vec.mem (sanitize env y)
          · simp only [hm, Bool.not_false, if_true, Prod.mk.injEq, Except.ok.injEq] at he
            rw [← he.1] at hw
            simp only [Option.some.injEq] at hw
            rw [← he.2, ← hw]
            simpa [HoldsAt, Dict.mem] using hm
          · simp only [hm, Bool.not_true, Bool.false_eq_true, if_false] at he
            split at he
            · next hf =>
              simp only [Prod.mk.injEq, Except.ok.injEq] at he
              rw [← he.1] at hw
              simp only [Option.some.injEq] at hw
              rw [← he.2, ← hw]
              exact write_holds env hs.named _ v m hf
            · simp at he
      · simp at hw
    · simp only [lastWord, if_neg hy] at hw
      exact other (.update y v m) hy (by simp [Call.ids, Disk.Write.id]) _ (hs.word w hw)
  | delete y =>
    rcases hc : Backend.wrap Reply.flag ((Disk.Write.delete y : Disk.Write V M).execIo env s k) with ⟨r, t⟩
    have hcall : (diskIo env k).call s (.delete y) = (r, t) := hc
    rw [hcall]
    obtain ⟨rfl, hr⟩ := key _ _ _ hc
    refine ⟨named _, fun w hw => ?_⟩
    by_cases hy : y = x
    · subst hy
      simp only [lastWord, if_true] at hw
      rcases hr with ⟨b, rfl, he⟩ | rfl
      · simp only [Option.some.injEq] at hw
        rw [← hw]
        simp only [Disk.Write.exec, Disk.delete] at he
        cases hi : s.inited
        · simp [hi] at he
        · simp only [hi, Bool.not_true, Bool.false_eq_true, if_false] at he
          have hd := delete_holds hs.named (sanitize env y)
          split at he <;>
            (simp only [Prod.mk.injEq, Except.ok.injEq] at he
             rw [← he.2]
             exact hd)
      · simp at hw
    · simp only [lastWord, if_neg hy] at hw
      exact other (.delete y) hy (by simp [Call.ids, Disk.Write.id]) _ (hs.word w hw)

theorem disk_run (env : DiskEnv M) (x : Id) (first : Option (Option (V × Option M)))
    (cs : List (Call V M × Option Nat))
    (hx : ∀ c ∈ cs, ∀ y ∈ c.1.ids, sanitize env y = sanitize env x → y = x) (s : Disk V M)
    (h : List (Call V M × Reply V M)) (hs : IoInv env x first s h) :
    IoInv env x first (ioEnd (diskIo env) s cs) (ioLog (diskIo env) s cs ++ h) := by
  induction cs generalizing s h with
  | nil => exact hs
  | cons c cs ih =>
    have := ih (fun c' hc' => hx c' (by simp [hc'])) _ _
      (disk_step env x first s h hs c.1 c.2 (hx c (by simp)))
    simp only [ioEnd, List.foldl_cons, ioLog, List.append_assoc, List.singleton_append] at this ⊢
    exact this

/-- **C184.** Whatever writes were refused before, and at whatever point: an id reads as the last write
about it that answered says, if no later write about it raised. -/
theorem C184_last_word (env : DiskEnv M) (d : Dir V M) (hd : Dir.Named d) (x : Id)
    (first : Option (Option (V × Option M)))
    (hfirst : ∀ w, first = some w → ((Disk.init (Disk.opened d)).retrieve env x).1 = .ok w)
    (cs : List (Call V M × Option Nat))
    (hx : ∀ c ∈ cs, ∀ y ∈ c.1.ids, sanitize env y = sanitize env x → y = x)
    (w : Option (V × Option M)) (hw : lastWord x first (ioLog (diskIo env) (Disk.opened d) cs) = some w)
    (hopen : (ioEnd (diskIo env) (Disk.opened d) cs).inited = true) :
    ((ioEnd (diskIo env) (Disk.opened d) cs).retrieve env x).1 = .ok w := by
  have h := disk_run env x first cs hx (Disk.opened d) []
    ⟨hd, fun w hw => (retrieve_holds (s := Disk.init (Disk.opened d)) env rfl x w).1 (hfirst w hw)⟩
  rw [List.append_nil] at h
  exact (retrieve_holds env hopen x w).2 (h.word w hw)

/-- An update refused after one step, a read that raises, and a store that repairs; "b" is not touched. -/
example :
    let cs : List (Call Nat Nat × Option Nat) := [(.init, none), (.store "a" 1 (some 5), none),
      (.store "b" 2 none, none), (.update "a" 7 none, some 1)]
    (ioLog (diskIo exEnv) (Disk.opened (emptyDir Nat Nat)) cs).map Prod.snd =
      [.raised, .flag true, .flag true, .done] ∧
    ((ioEnd (diskIo exEnv) (Disk.opened (emptyDir Nat Nat)) cs).retrieve exEnv "a").1 = .error .storage ∧
    ((ioEnd (diskIo exEnv) (Disk.opened (emptyDir Nat Nat)) cs).retrieve exEnv "b").1 = .ok (some (2, none)) ∧
    ((ioEnd (diskIo exEnv) (Disk.opened (emptyDir Nat Nat)) (cs ++ [(.store "a" 8 none, none)])).retrieve
      exEnv "a").1 = .ok (some (8, none)) := by decide

/-- **C184** (vector_count of the statistics is the number of vectors): false after a refused write.  A
store of a new id that is refused once the vector file was opened leaves a listed vector that is not
counted. -/
theorem C184_count_refuted (env : DiskEnv M) (hg : ∀ l, (env.glob l).Perm l) (s : Disk V M)
    (hi : s.inited = true) (hc : s.count = s.dir.vec.length) (id : Id) (hid : id ≠ "")
    (hn : s.dir.vec.mem (sanitize env id) = false) (v : V) (m : Option M) :
    let r := (Disk.Write.store id v m).execIo env s (some 1)
    r.1 = .error .storage ∧ ∃ l, (r.2.list env none).1 = .ok l ∧ r.2.statCount = some (l.length - 1) ∧
      l.length = s.dir.vec.length + 1 := by
  have hlen : 1 < ((Disk.Write.store id v m).steps env s.dir).length := by
    simp only [Disk.Write.steps, hid, if_false, Disk.writeSteps]
    cases m with
    | none => simp
    | some m => simp only; split <;> simp
  have htake : ((Disk.Write.store id v m).steps env s.dir).take 1 = [.vecTorn (sanitize env id)] := by
    simp only [Disk.Write.steps, hid, if_false, Disk.writeSteps]
    cases m with
    | none => simp
    | some m => simp only; split <;> simp
  simp only [Disk.Write.execIo, hi, Bool.true_and, decide_eq_true_eq, hlen, if_true, htake]
  have hk : (s.dir.vec.set (sanitize env id) .torn).length = s.dir.vec.length + 1 := by
    rw [← Dict.length_keys, Dict.keys_set, if_neg]
    · simp [Dict.length_keys]
    · rw [Dict.mem_keys]; simpa [Dict.mem] using hn
  have hl : (env.glob (s.dir.vec.set (sanitize env id) .torn).keys).length = s.dir.vec.length + 1 := by
    rw [(hg _).length_eq, Dict.length_keys, hk]
  refine ⟨trivial, env.glob (s.dir.vec.set (sanitize env id) .torn).keys, ?_, ?_, ?_⟩
  · simp [Disk.list, runSteps, FsStep.run, hi]
  · rw [hl]; simp [Disk.statCount, hi, hc]
  · exact hl

/-- **C184.** The next store or delete that answers `True` counts again.  Missing: the time between. -/
theorem C184_count_partial (env : DiskEnv M) (hg : ∀ l, (env.glob l).Perm l) (s : Disk V M)
    (hi : s.inited = true) (k : Option Nat) (w : Disk.Write V M)
    (hw : ∀ id v m, w ≠ .update id v m) (h : (w.execIo env s k).1 = .ok true) :
    ∃ l, ((w.execIo env s k).2.list env none).1 = .ok l ∧
      (w.execIo env s k).2.statCount = some l.length := by
  have he := execIo_ok env s k w true h
  rw [he] at h ⊢
  have hin : (w.exec env s).2.inited = true := (Disk.Write.exec_dir s w hi).2
  refine ⟨env.glob (w.exec env s).2.dir.vec.keys, by simp [Disk.list, hin], ?_⟩
  rw [(hg _).length_eq, Dict.length_keys]
  simp only [Disk.statCount, hin, if_true, Option.some.injEq]
  cases w with
  | update id v m => exact absurd rfl (hw id v m)
  | store id v m =>
    simp only [Disk.Write.exec, Disk.store, hi, Bool.not_true, Bool.false_eq_true, if_false] at h ⊢
    split at h
    · simp at h
    · next hid =>
      simp only [hid, if_false]
      split at h
      · next hf => simp only [hf, if_true]
      · simp at h
  | delete id =>
    simp only [Disk.Write.exec, Disk.delete, hi, Bool.not_true, Bool.false_eq_true, if_false] at h ⊢
    split at h
    · next hm => simp only [hm, if_true]
    · simp at h

example : ∃ s : Disk Nat Nat, s.inited = true ∧ s.count = s.dir.vec.length ∧
    s.dir.vec.mem (sanitize exEnv "n") = false := ⟨⟨⟨[("a", .good 1)], []⟩, 1, true⟩, rfl, rfl, by decide⟩

/-! ## The hybrid backend -/

theorem lastWord_cons (x : String) (first : Option (Option (V × Option M))) (c : Call V M) (r : Reply V M)
    (h : List (Call V M × Reply V M)) :
    lastWord x first ((c, r) :: h) = lastWord x (lastWord x first h) [(c, r)] := by
  cases c <;> rfl

section hybrid
variable [ByteSize V] [ByteSize M]

theorem memUpdate_spec (s : Mem V M) (hs : s.Inv) (hi : s.inited = true) (id : Id) (v : V) (m : Option M) :
    ∃ b m', s.update id v m = (.ok b, m') ∧ m'.Inv ∧ m'.inited = true ∧
      ∀ x y, m'.at' x = some y → (x = id ∧ y = (v, m)) ∨ (x ≠ id ∧ s.at' x = some y) := by
  cases hmm : s.vectors.mem id
  · refine ⟨false, s, Mem.update_absent hi hmm v m, hs, hi, fun x y hx => .inr ⟨?_, hx⟩⟩
    rintro rfl
    have := Mem.content_isSome s.vectors s.metadata x
    rw [hmm] at this
    rw [Mem.at'] at hx
    rw [hx] at this; cases this
  · refine ⟨true, _, Mem.update_ready hi hmm v m, ?_, rfl, ?_⟩
    · refine ⟨Dict.nodup_set hs.vnd id v, Mem.putMeta_nodup hs.mnd id m,
        Mem.sub_write id v m hs.mnd hs.sub, ?_, rfl⟩
      simp only; rw [Mem.length_set hmm]; exact hs.cnt
    · intro x y h
      simp only [Mem.at', Mem.content_write _ hs.mnd, put] at h
      split at h
      · next e => left; exact ⟨e, (Option.some.inj h).symm⟩
      · next e => right; exact ⟨e, h⟩

theorem memDelete_spec (s : Mem V M) (hs : s.Inv) (hi : s.inited = true) (id : Id) :
    ∃ b m', s.delete id = (.ok b, m') ∧ m'.Inv ∧ m'.inited = true ∧
      ∀ x y, m'.at' x = some y → x ≠ id ∧ s.at' x = some y := by
  cases hmm : s.vectors.mem id
  · refine ⟨false, s, Mem.delete_absent hi hmm, hs, hi, fun x y hx => ⟨?_, hx⟩⟩
    rintro rfl
    have := Mem.content_isSome s.vectors s.metadata x
    rw [hmm] at this
    rw [Mem.at'] at hx
    rw [hx] at this; cases this
  · refine ⟨true, _, Mem.delete_ready hi hmm, hs.erase id true, rfl, ?_⟩
    intro x y h
    simp only [Mem.at', Mem.content_erase hs.vnd hs.mnd, put] at h
    split at h
    · cases h
    · next e => exact ⟨e, h⟩

/-- The invariant of the hybrid backend for one id: what memory holds is what is known, and is not
without a file. -/
structure HybIoInv (env : DiskEnv M) (x : Id) (first : Option (Option (V × Option M))) (s : Hyb V M)
    (h : List (Call V M × Reply V M)) : Prop where
  mem : s.mem.Inv
  mi : s.mem.inited = s.inited
  di : s.disk.inited = s.inited
  disk : IoInv env x first s.disk h
  coh : ∀ y w, s.mem.at' x = some y → lastWord x first h = some w → w = some y
  file : ∀ y, s.mem.at' x = some y → s.disk.dir.vec.mem (sanitize env x) = true

omit [ByteSize V] [ByteSize M] in
/-- A write keeps the vector file of any id, a delete that of other ids. -/
theorem execIo_file (env : DiskEnv M) (x : Id) (s : Disk V M) (k : Option Nat) (w : Disk.Write V M)
    (hx : sanitize env w.id = sanitize env x → w.id = x) (hw : ∀ y, w = .delete y → y ≠ x)
    (h : s.dir.vec.mem (sanitize env x) = true) :
    (w.execIo env s k).2.dir.vec.mem (sanitize env x) = true := by
  obtain ⟨-, n, h2⟩ := execIo_dir env s k w
  rw [h2]
  by_cases hid : w.id = x
  · cases w with
    | store y v m =>
      obtain rfl : y = x := hid
      simp only [Disk.Write.steps]
      split
      · simpa [runSteps] using h
      · exact write_keeps env _ _ v m n h
    | update y v m =>
      obtain rfl : y = x := hid
      simp only [Disk.Write.steps]
      split
      · first | exact write_keeps env _ _ v m n h | simpa [runSteps] using h
      · first | exact write_keeps env _ _ v m n h | simpa [runSteps] using h
    | delete y => exact absurd hid (hw y rfl)
  · have := runSteps_other (x := sanitize env x) s.dir ((w.steps env s.dir).take n) fun st hst => by
      rw [Disk.Write.steps_stem _ w st (List.mem_of_mem_take hst)]
      exact fun e => hid (hx e.symm)
    simp only [Dir.files, Prod.mk.injEq] at this
    simpa [Dict.mem, this.1] using h

theorem hyb_step (env : DiskEnv M) (x : Id) (first : Option (Option (V × Option M))) (s : Hyb V M)
    (h : List (Call V M × Reply V M)) (hs : HybIoInv env x first s h) (c : Call V M) (k : Option Nat)
    (hx : ∀ y ∈ c.ids, sanitize env y = sanitize env x → y = x) :
    HybIoInv env x first ((hybIo env k).call s c).2 ((c, ((hybIo env k).call s c).1) :: h) := by
  -- what the disk part does, from what is known before
  have hd := disk_step env x (lastWord x first h) s.disk [] ⟨hs.disk.named, hs.disk.word⟩ c k hx
  have skip : ∀ r, (∀ y v m, c ≠ .store y v m) → (∀ y v m, c ≠ .update y v m) → (∀ y, c ≠ .delete y) →
      lastWord x first ((c, r) :: h) = lastWord x first h := by
    intro r h1 h2 h3
    cases c <;> first | rfl | exact absurd rfl (h1 _ _ _) | exact absurd rfl (h2 _ _ _) | exact absurd rfl (h3 _)
  cases c with
  | init =>
    refine ⟨Mem.Inv.empty true, rfl, rfl, ⟨hs.disk.named, hs.disk.word⟩, ?_, ?_⟩ <;>
      intro y <;> simp [Backend.call, hybIo, Hyb.init, Mem.init, Mem.at', Mem.contentOf]
  | close =>
    refine ⟨Mem.Inv.empty false, rfl, rfl, ⟨hs.disk.named, hs.disk.word⟩, ?_, ?_⟩ <;>
      intro y <;> simp [Backend.call, hybIo, Hyb.close, Mem.close, Mem.at', Mem.contentOf]
  | count => exact ⟨hs.mem, hs.mi, hs.di, ⟨hs.disk.named, hs.disk.word⟩, hs.coh, hs.file⟩
  | list n =>
    have : ((hybIo (V := V) env k).call s (.list n)).2 = s := by
      cases s with
      | mk mem disk limit inited =>
        simp only [Backend.call, hybIo, Hyb.list, Disk.list]
        cases inited <;> cases disk.inited <;> cases n <;> rfl
    rw [this]
    exact ⟨hs.mem, hs.mi, hs.di, ⟨hs.disk.named, hs.disk.word⟩, hs.coh, hs.file⟩
  | retrieve y =>
    have hcall : ((hybIo env k).call s (.retrieve y)).2 = (s.retrieve env y).2 := by
      simp only [Backend.call, hybIo, Backend.wrap]
      rcases s.retrieve env y with ⟨_ | (_ | _), _⟩ <;> rfl
    rw [hcall]
    have hdr : (s.disk.retrieve env y).2 = s.disk := by
      simp only [Disk.retrieve]
      split
      · rfl
      · split
        · rfl
        · rfl
        · split <;> rfl
    have same : HybIoInv env x first s ((.retrieve y, ((hybIo env k).call s (.retrieve y)).1) :: h) :=
      ⟨hs.mem, hs.mi, hs.di, ⟨hs.disk.named, hs.disk.word⟩, hs.coh, hs.file⟩
    cases hi : s.inited
    · rw [show s.retrieve env y = (.error .storage, s) by simp [Hyb.retrieve, hi]]
      exact same
    · have hmi := hs.mi.trans hi
      have hdi := hs.di.trans hi
      cases hat : s.mem.at' y with
      | some r =>
        have hr : s.mem.retrieve y = (.ok (some r), s.mem) := by
          rw [Mem.retrieve_ready hmi]; rw [Mem.at'] at hat; rw [hat]
        rw [show s.retrieve env y = (.ok (some r), s) by simp [Hyb.retrieve, hi, hr, Hyb.eta hi]]
        exact same
      | none =>
        have hr : s.mem.retrieve y = (.ok none, s.mem) := by
          rw [Mem.retrieve_ready hmi]; rw [Mem.at'] at hat; rw [hat]
        rcases hdk : s.disk.retrieve env y with ⟨e | o, d⟩
        · rw [hdk] at hdr; simp only at hdr; subst hdr
          rw [show s.retrieve env y = (.error .storage, s) by
            simp [Hyb.retrieve, hi, hr, hdk, Hyb.eta hi]]
          exact same
        · rw [hdk] at hdr; simp only at hdr; subst hdr
          cases o with
          | none =>
            rw [show s.retrieve env y = (.ok none, s) by
              simp [Hyb.retrieve, hi, hr, hdk, Hyb.eta hi]]
            exact same
          | some r =>
            obtain ⟨v, m⟩ := r
            obtain ⟨m', he, h1, h2, h3, -⟩ := Hyb.remember_spec s.mem hs.mem hmi s.limit y v m
            rw [show s.retrieve env y = (.ok (some (v, m)), { s with mem := m' }) by
              simp [Hyb.retrieve, hi, hr, hdk, he]]
            have hh := (retrieve_holds env hdi y (some (v, m))).1 (by rw [hdk])
            refine ⟨h1, h2.trans hi.symm, hs.di, ⟨hs.disk.named, hs.disk.word⟩, ?_, ?_⟩
            · intro z w hz hw
              rcases h3 x z hz with ⟨rfl, rfl⟩ | ⟨-, hz⟩
              · have hw' := (retrieve_holds env hdi x w).2 (hs.disk.word w hw)
                rw [hdk] at hw'
                simpa using hw'.symm
              · exact hs.coh z w hz hw
            · intro z hz
              rcases h3 x z hz with ⟨rfl, rfl⟩ | ⟨-, hz⟩
              · simp [Dict.mem, hh.1]
              · exact hs.file z hz
  | store y v m =>
    have hy : sanitize env y = sanitize env x → y = x := hx y (by simp [Call.ids])
    have hcall : (hybIo env k).call s (.store y v m) = Backend.wrap .flag (s.storeIo env k y v m) := rfl
    have hdcall : (diskIo env k).call s.disk (.store y v m) =
      Backend.wrap .flag ((Disk.Write.store y v m).execIo env s.disk k) := rfl
    rw [hcall]
    rw [hdcall] at hd
    by_cases hid : y = ""
    · rw [show s.storeIo env k y v m = (.ok false, s) by simp [Hyb.storeIo, hid]]
      have hl : lastWord x first ((.store y v m, .flag false) :: h) = lastWord x first h := by
        by_cases e : y = x <;> simp [lastWord, e]
      exact ⟨hs.mem, hs.mi, hs.di, ⟨hs.disk.named, fun w hw => hs.disk.word w (hl ▸ hw)⟩,
        fun z w hz hw => hs.coh z w hz (hl ▸ hw), hs.file⟩
    · cases hi : s.inited
      · rw [show s.storeIo env k y v m = (.error .storage, s) by simp [Hyb.storeIo, hid, hi]]
        have hl : ∀ w, lastWord x first ((.store y v m, .raised) :: h) = some w →
            lastWord x first h = some w := by
          intro w hw
          by_cases e : y = x
          · simp [lastWord, e] at hw
          · simpa [lastWord, e] using hw
        exact ⟨hs.mem, hs.mi, hs.di, ⟨hs.disk.named, fun w hw => hs.disk.word w (hl w hw)⟩,
          fun z w hz hw => hs.coh z w hz (hl w hw), hs.file⟩
      · have hmi := hs.mi.trans hi
        have hdi := hs.di.trans hi
        have hf := execIo_file env x s.disk k (.store y v m) hy (by intro z hz; cases hz)
        obtain ⟨ho, n, hdir⟩ := execIo_dir env s.disk k (.store y v m)
        rcases he : (Disk.Write.store y v m).execIo env s.disk k with ⟨e | b, d⟩
        · rw [he] at hd hf ho hdir
          rw [show s.storeIo env k y v m = (.error .storage, { s with disk := d }) by
            simp [Hyb.storeIo, hid, hi, he]]
          refine ⟨hs.mem, hs.mi, ho.trans hs.di, ⟨hd.named, fun w hw => hd.word w ?_⟩, ?_,
            fun z hz => hf (hs.file z hz)⟩
          · rw [lastWord_cons] at hw; exact hw
          · intro z w hz hw
            by_cases e : y = x
            · simp [lastWord, e, Backend.wrap] at hw
            · exact hs.coh z w hz (by simpa [lastWord, e] using hw)
        · rw [he] at hd hf ho hdir
          cases b with
          | false =>
            have h0 := execIo_ok env s.disk k (.store y v m) false (by rw [he])
            rw [he] at h0
            simp only [Disk.Write.exec, Disk.store, hid, hdi, Bool.not_true, Bool.false_eq_true,
              if_false] at h0
            split at h0 <;> simp at h0
          | true =>
            obtain ⟨m', hr, h1, h2, h3, -⟩ := Hyb.remember_spec s.mem hs.mem hmi s.limit y v m
            rw [show s.storeIo env k y v m = (.ok true, { s with disk := d, mem := m' }) by
              simp [Hyb.storeIo, hid, hi, he, hr]]
            refine ⟨h1, h2.trans hi.symm, ho.trans hs.di, ⟨hd.named, fun w hw => hd.word w ?_⟩, ?_, ?_⟩
            · rw [lastWord_cons] at hw; exact hw
            · intro z w hz hw
              rcases h3 x z hz with ⟨rfl, rfl⟩ | ⟨hne, hz⟩
              · simp only [lastWord, Backend.wrap, if_true, Option.some.injEq] at hw
                exact hw.symm
              · have hne : y ≠ x := by
                  rcases hne with hne | hne
                  · exact fun e => hne e.symm
                  · exact absurd hne hid
                exact hs.coh z w hz (by simpa [lastWord, hne] using hw)
            · intro z hz
              rcases h3 x z hz with ⟨rfl, rfl⟩ | ⟨hne, hz⟩
              · have := hd.word (some (v, m)) (by simp [lastWord, Backend.wrap])
                simp only [Backend.wrap, HoldsAt] at this
                simp [Dict.mem, Backend.wrap, this.1]
              · exact hf (hs.file z hz)
  | update y v m =>
    have hy : sanitize env y = sanitize env x → y = x := hx y (by simp [Call.ids])
    have hcall : (hybIo env k).call s (.update y v m) = Backend.wrap .flag (s.updateIo env k y v m) := rfl
    have hdcall : (diskIo env k).call s.disk (.update y v m) =
      Backend.wrap .flag ((Disk.Write.update y v m).execIo env s.disk k) := rfl
    rw [hcall]
    rw [hdcall] at hd
    cases hi : s.inited
    · rw [show s.updateIo env k y v m = (.error .storage, s) by simp [Hyb.updateIo, hi]]
      have hl : ∀ w, lastWord x first ((.update y v m, .raised) :: h) = some w →
          lastWord x first h = some w := by
        intro w hw
        by_cases e : y = x
        · simp [lastWord, e] at hw
        · simpa [lastWord, e] using hw
      exact ⟨hs.mem, hs.mi, hs.di, ⟨hs.disk.named, fun w hw => hs.disk.word w (hl w hw)⟩,
        fun z w hz hw => hs.coh z w hz (hl w hw), hs.file⟩
    · have hmi := hs.mi.trans hi
      have hdi := hs.di.trans hi
      have hf := execIo_file env x s.disk k (.update y v m) hy (by intro z hz; cases hz)
      obtain ⟨ho, n, hdir⟩ := execIo_dir env s.disk k (.update y v m)
      rcases he : (Disk.Write.update y v m).execIo env s.disk k with ⟨e | b, d⟩
      · rw [he] at hd hf ho hdir
        rw [show s.updateIo env k y v m = (.error .storage, { s with disk := d }) by
          simp [Hyb.updateIo, hi, he]]
        refine ⟨hs.mem, hs.mi, ho.trans hs.di, ⟨hd.named, fun w hw => hd.word w ?_⟩, ?_,
          fun z hz => hf (hs.file z hz)⟩
        · rw [lastWord_cons] at hw; exact hw
        · intro z w hz hw
          by_cases e : y = x
          · simp [lastWord, e, Backend.wrap] at hw
          · exact hs.coh z w hz (by simpa [lastWord, e] using hw)
      · rw [he] at hd hf ho hdir
        cases b with
        | false =>
          rw [show s.updateIo env k y v m = (.ok false, { s with disk := d }) by
            simp [Hyb.updateIo, hi, he]]
          refine ⟨hs.mem, hs.mi, ho.trans hs.di, ⟨hd.named, fun w hw => hd.word w ?_⟩, ?_,
            fun z hz => hf (hs.file z hz)⟩
          · rw [lastWord_cons] at hw; exact hw
          · intro z w hz hw
            by_cases e : y = x
            · subst e
              have hno := hd.word none (by simp [lastWord, Backend.wrap])
              have hyes := hf (hs.file z hz)
              simp only [HoldsAt, Backend.wrap] at hno
              simp [Dict.mem, hno] at hyes
            · exact hs.coh z w hz (by simpa [lastWord, e] using hw)
        | true =>
          obtain ⟨b, m', hr, h1, h2, h3⟩ := memUpdate_spec s.mem hs.mem hmi y v m
          rw [show s.updateIo env k y v m = (.ok true, { s with disk := d, mem := m' }) by
            simp [Hyb.updateIo, hi, he, hr]]
          refine ⟨h1, h2.trans hi.symm, ho.trans hs.di, ⟨hd.named, fun w hw => hd.word w ?_⟩, ?_, ?_⟩
          · rw [lastWord_cons] at hw; exact hw
          · intro z w hz hw
            rcases h3 x z hz with ⟨rfl, rfl⟩ | ⟨hne, hz⟩
            · simp only [lastWord, Backend.wrap, if_true, Option.some.injEq] at hw
              exact hw.symm
            · exact hs.coh z w hz (by simpa [lastWord, Ne.symm hne] using hw)
          · intro z hz
            rcases h3 x z hz with ⟨rfl, rfl⟩ | ⟨hne, hz⟩
            · have := hd.word (some (v, m)) (by simp [lastWord, Backend.wrap])
              simp only [Backend.wrap, HoldsAt] at this
              simp [Dict.mem, Backend.wrap, this.1]
            · exact hf (hs.file z hz)
  | delete y =>
    have hy : sanitize env y = sanitize env x → y = x := hx y (by simp [Call.ids])
    have hcall : (hybIo env k).call s (.delete y) = Backend.wrap .flag (s.deleteIo env k y) := rfl
    have hdcall : (diskIo env k).call s.disk (.delete y) =
      Backend.wrap .flag ((Disk.Write.delete y : Disk.Write V M).execIo env s.disk k) := rfl
    rw [hcall]
    rw [hdcall] at hd
    cases hi : s.inited
    · rw [show s.deleteIo env k y = (.error .storage, s) by simp [Hyb.deleteIo, hi]]
      have hl : ∀ w, lastWord x first ((.delete y, .raised) :: h) = some w →
          lastWord x first h = some w := by
        intro w hw
        by_cases e : y = x
        · simp [lastWord, e] at hw
        · simpa [lastWord, e] using hw
      exact ⟨hs.mem, hs.mi, hs.di, ⟨hs.disk.named, fun w hw => hs.disk.word w (hl w hw)⟩,
        fun z w hz hw => hs.coh z w hz (hl w hw), hs.file⟩
    · have hmi := hs.mi.trans hi
      obtain ⟨a, m', hr, h1, h2, h3⟩ := memDelete_spec s.mem hs.mem hmi y
      have hf := fun hne : y ≠ x => execIo_file env x s.disk k (.delete y) hy
        (by intro z hz; cases hz; exact hne)
      obtain ⟨ho, n, hdir⟩ := execIo_dir env s.disk k (.delete y : Disk.Write V M)
      have hmem : ∀ (r : Reply V M) z w, m'.at' x = some z →
          lastWord x first ((.delete y, r) :: h) = some w → w = some z := by
        intro r z w hz hw
        obtain ⟨hne, hz⟩ := h3 x z hz
        exact hs.coh z w hz (by simpa [lastWord, Ne.symm hne] using hw)
      rcases he : (Disk.Write.delete y : Disk.Write V M).execIo env s.disk k with ⟨e | b, d⟩
      · rw [he] at hd hf ho hdir
        rw [show s.deleteIo env k y = (.error .storage, { s with mem := m', disk := d }) by
          simp [Hyb.deleteIo, hi, he, hr]]
        refine ⟨h1, h2.trans hi.symm, ho.trans hs.di, ⟨hd.named, fun w hw => hd.word w ?_⟩, hmem _, ?_⟩
        · rw [lastWord_cons] at hw; exact hw
        · intro z hz
          obtain ⟨hne, hz⟩ := h3 x z hz
          exact hf (Ne.symm hne) (hs.file z hz)
      · rw [he] at hd hf ho hdir
        rw [show s.deleteIo env k y = (.ok (a || b), { s with mem := m', disk := d }) by
          simp [Hyb.deleteIo, hi, he, hr]]
        refine ⟨h1, h2.trans hi.symm, ho.trans hs.di, ⟨hd.named, fun w hw => hd.word w ?_⟩, hmem _, ?_⟩
        · rw [lastWord_cons] at hw
          simpa [lastWord, Backend.wrap] using hw
        · intro z hz
          obtain ⟨hne, hz⟩ := h3 x z hz
          exact hf (Ne.symm hne) (hs.file z hz)

theorem hyb_run (env : DiskEnv M) (x : Id) (first : Option (Option (V × Option M)))
    (cs : List (Call V M × Option Nat))
    (hx : ∀ c ∈ cs, ∀ y ∈ c.1.ids, sanitize env y = sanitize env x → y = x) (s : Hyb V M)
    (h : List (Call V M × Reply V M)) (hs : HybIoInv env x first s h) :
    HybIoInv env x first (ioEnd (hybIo env) s cs) (ioLog (hybIo env) s cs ++ h) := by
  induction cs generalizing s h with
  | nil => exact hs
  | cons c cs ih =>
    have := ih (fun c' hc' => hx c' (by simp [hc'])) _ _
      (hyb_step env x first s h hs c.1 c.2 (hx c (by simp)))
    simp only [ioEnd, List.foldl_cons, ioLog, List.append_assoc, List.singleton_append] at this ⊢
    exact this

/-- **C185.** Whatever writes the disk refused before, and whatever was evicted from memory: an id reads as
the last write about it that answered says, if no later write about it raised. -/
theorem C185_last_word (env : DiskEnv M) (d : Dir V M) (hd : Dir.Named d) (limit : Int) (x : Id)
    (first : Option (Option (V × Option M)))
    (hfirst : ∀ w, first = some w → ((Disk.init (Disk.opened d)).retrieve env x).1 = .ok w)
    (cs : List (Call V M × Option Nat))
    (hx : ∀ c ∈ cs, ∀ y ∈ c.1.ids, sanitize env y = sanitize env x → y = x)
    (w : Option (V × Option M))
    (hw : lastWord x first (ioLog (hybIo env) (Hyb.opened d limit) cs) = some w)
    (hopen : (ioEnd (hybIo env) (Hyb.opened d limit) cs).inited = true) :
    ((ioEnd (hybIo env) (Hyb.opened d limit) cs).retrieve env x).1 = .ok w := by
  have h := hyb_run env x first cs hx (Hyb.opened d limit) []
    ⟨Mem.Inv.empty false, rfl, rfl,
      ⟨hd, fun w hw => (retrieve_holds (s := Disk.init (Disk.opened d)) env rfl x w).1 (hfirst w hw)⟩,
      by intro y w h; simp [Hyb.opened, Mem.new, Mem.at', Mem.contentOf] at h,
      by intro y h; simp [Hyb.opened, Mem.new, Mem.at', Mem.contentOf] at h⟩
  rw [List.append_nil] at h
  generalize ioEnd (hybIo env) (Hyb.opened d limit) cs = s at h hopen ⊢
  generalize ioLog (hybIo env) (Hyb.opened d limit) cs = l at h hw
  have hmi := h.mi.trans hopen
  have hdi := h.di.trans hopen
  cases hat : s.mem.at' x with
  | some r =>
    have hr : s.mem.retrieve x = (.ok (some r), s.mem) := by
      rw [Mem.retrieve_ready hmi]; rw [Mem.at'] at hat; rw [hat]
    rw [h.coh r w hat hw]
    simp [Hyb.retrieve, hopen, hr]
  | none =>
    have hr : s.mem.retrieve x = (.ok none, s.mem) := by
      rw [Mem.retrieve_ready hmi]; rw [Mem.at'] at hat; rw [hat]
    have hdk := (retrieve_holds env hdi x w).2 (h.disk.word w hw)
    rcases hdr : s.disk.retrieve env x with ⟨e, d'⟩
    rw [hdr] at hdk
    simp only at hdk
    subst hdk
    rcases w with _ | ⟨v, m⟩
    · simp [Hyb.retrieve, hopen, hr, hdr]
    · obtain ⟨m', he, -⟩ := Hyb.remember_spec s.mem h.mem hmi s.limit x v m
      simp [Hyb.retrieve, hopen, hr, hdr, he]

/-- The calls of `hybIo` without a refusal are those of the backend of C09. -/
theorem C185_no_refusal (env : DiskEnv M) (s : Hyb V M) (c : Call V M) :
    (hybIo env none).call s c = (hybBackend env).call s c := by
  cases c <;> rfl

omit [ByteSize V] [ByteSize M] in
theorem C184_no_refusal (env : DiskEnv M) (s : Disk V M) (c : Call V M) :
    (diskIo env none).call s c = (diskBackend env).call s c := by
  cases c <;> rfl

end hybrid

/-- The refused update of an id in memory, with room for one vector in memory. -/
def exRefused : List (Call Nat Nat × Option Nat) :=
  [(.init, none), (.store "b" 2 none, none), (.store "a" 1 none, none), (.update "a" 7 (some 5), some 2)]

/-- **C185** (two reads of an id with no write between them agree): false after a refused update.  Memory
answers the old vector; once another id was read and took the place in memory, the disk answers the new
vector — without the new metadata, or raises if the vector file was not complete. -/
theorem C185_repeatable_refuted :
    let s := ioEnd (hybIo exEnv) (Hyb.opened (emptyDir Nat Nat) 1) exRefused
    (s.retrieve exEnv "a").1 = .ok (some (1, none)) ∧
    (((s.retrieve exEnv "a").2.retrieve exEnv "b").2.retrieve exEnv "a").1 = .ok (some (7, none)) ∧
    (let t := ioEnd (hybIo exEnv) (Hyb.opened (emptyDir Nat Nat) 1)
        (exRefused.dropLast ++ [(.update "a" 7 (some 5), some 1)])
     (t.retrieve exEnv "a").1 = .ok (some (1, none)) ∧
     ((t.retrieve exEnv "b").2.retrieve exEnv "a").1 = .error .storage) := by decide

/-- "b" is known throughout, and "a" again after a complete write. -/
example : lastWord "b" none (ioLog (hybIo exEnv) (Hyb.opened (emptyDir Nat Nat) 1) exRefused) =
      some (some (2, none)) ∧
    lastWord "a" none (ioLog (hybIo exEnv) (Hyb.opened (emptyDir Nat Nat) 1) exRefused) = none ∧
    lastWord "a" none (ioLog (hybIo exEnv) (Hyb.opened (emptyDir Nat Nat) 1)
      (exRefused ++ [(.delete "a", none)])) = some none ∧
    Dir.Named (emptyDir Nat Nat) := by
  refine ⟨by decide, by decide, by decide, ?_⟩
  simp [Dir.Named, emptyDir, Dict.keys]

end Valori.Props
