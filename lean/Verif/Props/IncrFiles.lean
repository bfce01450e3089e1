import Verif.Props.Incr
import Verif.Props.Tensor

/-!
# Properties C155, C156: files and operation numbers of incremental persistence
-/

namespace Valori.Props
open Valori Valori.Spec Valori.Incr

variable {S V I A : Type}

/-- The file named by a call that saves vectors or an index, finished or not, and what it should
then hold. -/
def ipTarget : IpCall S V I → Option (String × Stored S V I)
  | .saveIndex s p | .crashIndex s p _ => some (p, .obj s)
  | .saveVecs v ids p | .crashVecs v ids p _ => some (npzName p, .arrays v ids)
  | _ => none

/-- The last thing saved to file `p`, in a history told newest first. -/
def ipLastFile (p : String) : List (IpCall S V I × IpReply S V I) → Option (Stored S V I)
  | [] => none
  | (c, _) :: h =>
    match ipTarget c with
    | some (p', x) => if p' = p then some x else ipLastFile p h
    | none => ipLastFile p h

theorem logOp_files (k : Int) (op q : String) (f : Incr S V A) :
    (logOp k op q f).disk.files = f.disk.files := by
  simp only [logOp, maybeCheckpoint]
  split <;> rfl

theorem put_get (p name : String) (c : TFile S V A) (f : Incr S V A) :
    (put name c f).disk.files.get? p = if p = name then some c else f.disk.files.get? p := by
  simp [Incr.put, Dict.get?_set]

theorem crashFile_get (env : IpEnv S I A) (op name q p : String) (c : TFile S V A) (pt : FileCrash)
    (f : Incr S V A) (h : name ≠ p) :
    (crashFile env op name q c pt f).files.get? p = f.disk.files.get? p := by
  have e : ∀ c', (put name c' f).disk.files.get? p = f.disk.files.get? p := fun c' => by
    rw [put_get, if_neg (Ne.symm h)]
  cases pt with
  | start => rfl
  | fileTorn => exact e _
  | fileDone => exact e _
  | logTorn => exact e _
  | logDone => exact e _
  | info2Torn =>
    simp only [crashFile, crashInfo2]
    split <;> exact e _

theorem crashState_get (env : IpEnv S I A) (s : S) (q p : String) (pt : StateCrash) (f : Incr S V A)
    (h : globMatch p = false) :
    (crashState env s q pt f).files.get? p = f.disk.files.get? p := by
  have hne : p ≠ ckptName f.count := by
    rintro rfl
    rw [glob_ckpt] at h
    cases h
  have e : ∀ c', (put (ckptName f.count) c' f).disk.files.get? p = f.disk.files.get? p := fun c' => by
    rw [put_get, if_neg hne]
  simp only [crashState]
  split
  · rfl
  · generalize (if env.picklable s then pt else _ : StateCrash) = pt'
    cases pt' with
    | start => rfl
    | ckptTorn => exact e _
    | ckptDone => exact e _
    | infoTorn => exact e _
    | infoDone => exact e _
    | logTorn => exact e _
    | logDone => exact e _
    | info2Torn =>
      simp only [crashInfo2]
      split <;> exact e _

/-- One call and the file `p`. -/
theorem ip_step (env : IpEnv S I A) (p : String) (hp : globMatch p = false) (c : IpCall S V I)
    (g : Incr S V A) (x : Option (Stored S V I)) (hx : Holding env.toTpEnv (g.disk.files.get? p) x)
    (hc : ∀ y, ipTarget c = some (p, y) → (Incr.call env g c).1 = .saved) :
    Holding env.toTpEnv ((Incr.call env g c).2.disk.files.get? p)
      (match ipTarget c with
        | some (p', y) => if p' = p then some y else x
        | none => x) := by
  have hne : ∀ n, p ≠ ckptName n := by
    rintro n rfl
    rw [glob_ckpt] at hp
    cases hp
  cases c with
  | close => exact hx
  | reopen =>
    have : (Incr.init g).disk = g.disk := by
      simp only [Incr.init, loadInfo]; split <;> rfl
    simpa only [Incr.call, ipTarget, this] using hx
  | loadState q => exact hx
  | loadIndex q => exact hx
  | loadVecs q => exact hx
  | saveState s q =>
    have : (saveState env s q g).2.disk.files.get? p = g.disk.files.get? p := by
      simp only [saveState]
      split
      · rfl
      · split
        · rw [put_get, if_neg (hne _)]
        · simp only [logOp_files, saveInfo]
          exact (put_get p _ _ g).trans (if_neg (hne _))
    simpa only [Incr.call, ipTarget, this] using hx
  | saveIndex s q =>
    simp only [Incr.call, ipTarget, Option.some.injEq, Prod.mk.injEq] at hc ⊢
    by_cases hq : q = p
    · subst hq
      have := hc _ ⟨rfl, rfl⟩
      revert this
      simp only [saveIndex]
      (repeat' split) <;> simp_all [Incr.repSave, logOp_files, put_get, Holding]
    · simp only [saveIndex]
      (repeat' split) <;> simp_all [logOp_files, put_get, Ne.symm hq]
  | saveVecs v ids q =>
    simp only [Incr.call, ipTarget, Option.some.injEq, Prod.mk.injEq] at hc ⊢
    by_cases hq : npzName q = p
    · have := hc _ ⟨hq, rfl⟩
      revert this
      simp only [saveVecs]
      (repeat' split) <;> simp_all [Incr.repSave, logOp_files, put_get, Holding]
    · simp only [saveVecs]
      (repeat' split) <;> simp_all [logOp_files, put_get, Ne.symm hq]
  | crashState s q pt =>
    have h1 : (Incr.init (Incr.new (crashState env s q pt g))).disk = crashState env s q pt g := by
      simp only [Incr.init, loadInfo, Incr.new]; split <;> rfl
    simp only [Incr.call, ipTarget, h1, crashState_get env s q p pt g hp]
    exact hx
  | crashIndex s q pt =>
    have h1 : (Incr.init (Incr.new (crashIndex env s q pt g))).disk = crashIndex env s q pt g := by
      simp only [Incr.init, loadInfo, Incr.new]; split <;> rfl
    simp only [Incr.call, ipTarget, Option.some.injEq, Prod.mk.injEq] at hc ⊢
    by_cases hq : q = p
    · exact absurd (hc _ ⟨hq, rfl⟩) (by simp)
    · rw [if_neg hq, h1]
      simp only [crashIndex]
      split
      · exact hx
      · rw [crashFile_get env _ q q p _ _ g hq]
        exact hx
  | crashVecs v ids q pt =>
    have h1 : (Incr.init (Incr.new (crashVecs env v ids q pt g))).disk = crashVecs env v ids q pt g := by
      simp only [Incr.init, loadInfo, Incr.new]; split <;> rfl
    simp only [Incr.call, ipTarget, Option.some.injEq, Prod.mk.injEq] at hc ⊢
    by_cases hq : npzName q = p
    · exact absurd (hc _ ⟨hq, rfl⟩) (by simp)
    · rw [if_neg hq, h1]
      simp only [crashVecs]
      split
      · exact hx
      · split
        · exact hx
        · rw [crashFile_get env _ _ q p _ _ g hq]
          exact hx

theorem ip_files (env : IpEnv S I A) (p : String) (hp : globMatch p = false)
    (h : List (IpCall S V I))
    (hs : ∀ x ∈ (ipRun env h).1, ∀ y, ipTarget x.1 = some (p, y) → x.2 = .saved) :
    Holding env.toTpEnv ((ipRun env h).2.disk.files.get? p) (ipLastFile p (ipRun env h).1) := by
  induction h with
  | nil => simp [ipRun, Incr.run, Incr.new, emptyIDisk, ipLastFile, Holding]
  | cons c h ih =>
    have hi := ih fun x hx => hs x (by simp only [ipRun, Incr.run] at hx ⊢; simp [hx])
    have hc := hs _ (by simp only [ipRun, Incr.run]; exact List.mem_cons_self)
    have := ip_step env p hp c _ _ hi hc
    simp only [ipRun, Incr.run, ipLastFile]
    cases ht : ipTarget c with
    | none => rw [ht] at this; exact this
    | some y => rw [ht] at this; exact this

/-- **C155** Indices and vectors of incremental persistence: after any history of saves, loads,
closes, restarts and crashes (of state saves anywhere, of other saves in other files) whose saves to
`p` all succeeded, `load_index` and `load_vectors` of `p` give what was saved there last, nothing
when nothing was, and raise when it was of the other kind.  The names of checkpoint files are not
the caller's. -/
theorem C155_incr_files (env : IpEnv S I A) (p : String) (hp : globMatch p = false)
    (h : List (IpCall S V I)) (ho : ipOpened (ipRun env h).1 = true)
    (hs : ∀ x ∈ (ipRun env h).1, ∀ y, ipTarget x.1 = some (p, y) → x.2 = .saved) :
    match ipLastFile p (ipRun env h).1 with
    | none => Incr.loadIndex p (ipRun env h).2 = .ok none ∧
        Incr.loadVecs env p (ipRun env h).2 = .ok none
    | some (.obj s) => Incr.loadIndex p (ipRun env h).2 = .ok (some s) ∧
        Incr.loadVecs env p (ipRun env h).2 = .error .persistence
    | some (.arrays v ids) => Incr.loadIndex p (ipRun env h).2 = .error .persistence ∧
        (∀ a, env.idsArr ids = some a →
          Incr.loadVecs env p (ipRun env h).2 =
            match env.idsList a with
            | some l => .ok (some (v, l))
            | none => .error .persistence) := by
  have hi : (ipRun env h).2.inited = true := (run_opened h _ rfl).trans ho
  have := ip_files env p hp h hs
  simp only [Incr.loadIndex, Incr.loadVecs, hi]
  cases hl : ipLastFile p (ipRun env h).1 with
  | none =>
    rw [hl] at this
    cases hg : (ipRun env h).2.disk.files.get? p with
    | none => simp
    | some t => rw [hg] at this; cases t <;> exact this.elim
  | some x =>
    rw [hl] at this
    cases hg : (ipRun env h).2.disk.files.get? p with
    | none => rw [hg] at this; exact this.elim
    | some t =>
      rw [hg] at this
      cases t <;> cases x <;> simp only [Holding] at this
      · subst this; simp
      · obtain ⟨rfl, ha⟩ := this
        refine ⟨by simp, fun a ha' => ?_⟩
        obtain rfl := Option.some.inj (ha.symm.trans ha')
        simp only [Bool.not_true, Bool.false_eq_true, if_false]
        cases env.idsList _ <;> rfl

example :
    let h : List (IpCall String Nat (List Nat)) :=
      [.reopen, .close, .crashState "c" "p" .ckptTorn, .saveVecs 1 [2] "v", .saveIndex "j" "idx",
       .saveIndex "i" "idx", .reopen]
    ipOpened (ipRun (exIp 3) h).1 = true ∧ globMatch "idx" = false ∧
    ipLastFile "idx" (ipRun (exIp 3) h).1 = some (.obj "j") ∧
    ipLastFile "v.npz" (ipRun (exIp 3) h).1 = some (.arrays 1 [2]) ∧
    ((ipRun (exIp 3) h).1.map fun x => x.2) =
      [.done, .done, .done, .saved, .saved, .saved, .done] := by
  refine ⟨?_, ?_, ?_, ?_, ?_⟩ <;> decide +kernel

/-- **C155** A manager that is not open refuses every call and changes nothing. -/
theorem C155_incr_closed (env : IpEnv S I A) (f : Incr S V A) (h : f.inited = false) (s : S) (v : V)
    (ids : I) (p : String) :
    Incr.saveState env s p f = (.error .persistence, f) ∧
    Incr.saveVecs env v ids p f = (.error .persistence, f) ∧
    Incr.saveIndex env s p f = (.error .persistence, f) ∧
    Incr.loadState env p f = .error .persistence ∧
    Incr.loadVecs env p f = .error .persistence ∧
    Incr.loadIndex p f = .error .persistence := by
  simp [Incr.saveState, Incr.saveVecs, Incr.saveIndex, Incr.loadState, Incr.loadVecs,
    Incr.loadIndex, h]

example : (Incr.close (ipRun (exIp 3) exIpHist).2).inited = false := rfl

/-! ## C156 -/

/-- The operation numbers in the log. -/
def logIds (f : Incr S V A) : List (Option Nat) := f.disk.log.map fun l => l.map LogLine.opId

/-- **C156** Operation numbers are reused after a restart: with an interval above one, on every open
manager (whose log does not end in a cut line), the operation saved right after a state save and a restart gets the number of that state
save. -/
theorem C156_ids_refuted (env : IpEnv S I A) (hk : 2 ≤ env.interval) (f : Incr S V A)
    (hf : f.inited = true) (hcut : f.disk.cut = false) (s i : S) (hs : env.picklable s = true) (hi : env.picklable i = true)
    (p q : String) :
    logIds (Incr.run env f ([.saveIndex i q, .reopen, .saveState s p] : List (IpCall S V I))).2 =
      logIds f ++ [some f.count, some f.count] := by
  have h1 : ¬ env.interval ≤ (f.count : Int) + 1 - f.count := by omega
  simp [Incr.run, Incr.call, Incr.saveState, Incr.saveIndex, hf, hs, hi, Incr.logOp, maybeCheckpoint,
    appendLog, saveInfo, Incr.put, Incr.init, loadInfo, logIds, h1, hcut]

example : logIds (ipRun (exIp 3) ([.saveIndex "i" "q", .reopen, .saveState "s" "p", .reopen] :
    List (IpCall String Nat (List Nat)))).2 = [some 0, some 0] := by decide +kernel

/-- The counter a restart would read. -/
def infoCount (d : IDisk S V A) : Nat :=
  match d.info with
  | some (.info _ c) => c
  | _ => 0

/-- What holds with interval one. -/
structure IdsInv (f : Incr S V A) : Prop where
  ids : logIds f = (List.range f.disk.log.length).map some
  info : infoCount f.disk = f.disk.log.length
  last : ∀ l c, f.disk.info = some (.info l c) → l ≤ c
  open_ : f.inited = true → f.count = f.disk.log.length ∧ f.last ≤ f.count
  cut : f.disk.cut = false

theorem IdsInv.log {k : Int} (hk : k ≤ 1) (op q : String) (f : Incr S V A)
    (h1 : logIds f = (List.range f.disk.log.length).map some) (hc : f.count = f.disk.log.length)
    (hl : f.last ≤ f.count) (hcut : f.disk.cut = false) : IdsInv (logOp k op q f) := by
  have : k ≤ ((f.count + 1 : Nat) : Int) - f.last := by omega
  have e : logOp k op q f = createCheckpoint (appendLog op q f) := by
    simp only [logOp, maybeCheckpoint]
    rw [if_pos (by simpa [appendLog] using this)]
  rw [e]
  refine ⟨?_, ?_, ?_, fun _ => ?_, rfl⟩
  · simp only [logIds, createCheckpoint, saveInfo, appendLog, List.length_append,
      List.length_singleton, List.range_succ, List.map_append, hcut] at h1 ⊢
    rw [h1, hc]
    rfl
  · simp [infoCount, createCheckpoint, saveInfo, appendLog, hc]
  · intro l c hlc
    simp only [createCheckpoint, saveInfo, appendLog, Option.some.injEq, CkInfo.info.injEq] at hlc
    omega
  · simp [createCheckpoint, saveInfo, appendLog, hc]

/-- **C156**, weaker form: with checkpoint interval one (or less) the numbers in the log are
0, 1, 2, ... without gap or repetition, in every crash-free history with any failing calls, closes
and restarts.  Missing: larger intervals, see `C156_ids_refuted`. -/
theorem C156_ids_partial (env : IpEnv S I A) (hk : env.interval ≤ 1) (h : List (IpCall S V I))
    (hc : ∀ c ∈ h, c.noCrash = true) :
    logIds (ipRun env h).2 = (List.range (ipRun env h).2.disk.log.length).map some := by
  suffices H : IdsInv (ipRun env h).2 from H.ids
  induction h with
  | nil =>
    refine ⟨rfl, rfl, ?_, ?_, rfl⟩
    · intro l c h; cases h
    · intro h; cases h
  | cons c h ih =>
    have hI := ih fun x hx => hc x (by simp [hx])
    have hcc := hc c (by simp)
    show IdsInv (Incr.call env (ipRun env h).2 c).2
    generalize (ipRun env h).2 = f at hI
    cases c with
    | saveState s p =>
      simp only [Incr.call, Incr.saveState]
      by_cases hf : f.inited = true
      · simp only [hf, Bool.not_true, Bool.false_eq_true, if_false]
        obtain ⟨o1, o2⟩ := hI.open_ hf
        by_cases hp : env.picklable s = true
        · simp only [hp, Bool.not_true, Bool.false_eq_true, if_false]
          refine IdsInv.log hk _ _ _ ?_ ?_ ?_ hI.cut
          · exact hI.ids
          · exact o1
          · exact le_refl f.count
        · simp only [hp, Bool.not_false, if_true]
          exact ⟨hI.ids, hI.info, hI.last, fun _ => ⟨o1, o2⟩, hI.cut⟩
      · simp only [hf, Bool.not_false, if_true]
        exact hI
    | saveIndex s p =>
      simp only [Incr.call, Incr.saveIndex]
      by_cases hf : f.inited = true
      · simp only [hf, Bool.not_true, Bool.false_eq_true, if_false]
        obtain ⟨o1, o2⟩ := hI.open_ hf
        by_cases hp : env.picklable s = true
        · simp only [hp, Bool.not_true, Bool.false_eq_true, if_false]
          exact IdsInv.log hk _ _ _ hI.ids o1 o2 hI.cut
        · simp only [hp, Bool.not_false, if_true]
          exact ⟨hI.ids, hI.info, hI.last, fun _ => ⟨o1, o2⟩, hI.cut⟩
      · simp only [hf, Bool.not_false, if_true]
        exact hI
    | saveVecs v ids p =>
      simp only [Incr.call, Incr.saveVecs]
      by_cases hf : f.inited = true
      · simp only [hf, Bool.not_true, Bool.false_eq_true, if_false]
        obtain ⟨o1, o2⟩ := hI.open_ hf
        cases env.idsArr ids with
        | none => exact hI
        | some a =>
          by_cases hp : env.jsonOk ids = true
          · simp only [hp, Bool.not_true, Bool.false_eq_true, if_false]
            exact IdsInv.log hk _ _ _ hI.ids o1 o2 hI.cut
          · simp only [hp, Bool.not_false, if_true]
            exact ⟨hI.ids, hI.info, hI.last, fun _ => ⟨o1, o2⟩, hI.cut⟩
      · simp only [hf, Bool.not_false, if_true]
        exact hI
    | loadState p => exact hI
    | loadVecs p => exact hI
    | loadIndex p => exact hI
    | close => exact ⟨hI.ids, hI.info, hI.last, fun h => (by cases h), hI.cut⟩
    | reopen =>
      simp only [Incr.call]
      have hinfo := hI.info
      have hlast := hI.last
      cases hd : f.disk.info with
      | none =>
        have e : Incr.init f = { f with last := 0, count := 0, inited := true } := by
          simp only [Incr.init, loadInfo, hd]
        rw [e]
        simp only [infoCount, hd] at hinfo
        exact ⟨hI.ids, hI.info, hI.last, fun _ => ⟨hinfo, le_refl _⟩, hI.cut⟩
      | some x =>
        cases x with
        | torn =>
          have e : Incr.init f = { f with last := 0, count := 0, inited := true } := by
            simp only [Incr.init, loadInfo, hd]
          rw [e]
          simp only [infoCount, hd] at hinfo
          exact ⟨hI.ids, hI.info, hI.last, fun _ => ⟨hinfo, le_refl _⟩, hI.cut⟩
        | info l c =>
          have e : Incr.init f = { f with last := l, count := c, inited := true } := by
            simp only [Incr.init, loadInfo, hd]
          rw [e]
          simp only [infoCount, hd] at hinfo
          exact ⟨hI.ids, hI.info, hI.last, fun _ => ⟨hinfo, hlast l c hd⟩, hI.cut⟩
    | crashState _ _ _ => simp [IpCall.noCrash] at hcc
    | crashVecs _ _ _ _ => simp [IpCall.noCrash] at hcc
    | crashIndex _ _ _ => simp [IpCall.noCrash] at hcc

example : (exIp 1).interval ≤ 1 ∧ (∀ c ∈ exIpHist, c.noCrash = true) ∧
    logIds (ipRun (exIp 1) exIpHist).2 = [some 0, some 1, some 2, some 3, some 4] := by
  refine ⟨by decide, by decide +kernel, by decide +kernel⟩

/-- **C156** After losing the counter file (cut off or never written) numbering starts at zero
again. -/
theorem C156_torn_restart (f : Incr S V A) (h : f.disk.info = some .torn ∨ f.disk.info = none) :
    (Incr.init f).count = 0 ∧ (Incr.init f).last = 0 ∧ (Incr.init f).inited = true ∧
      (Incr.init f).disk = f.disk := by
  rcases h with h | h <;> simp [Incr.init, loadInfo, h]

example : (ipRun (exIp 1) ([.crashState "a" "p" .infoTorn, .saveState "a" "p", .reopen] :
    List (IpCall String Nat (List Nat)))).2.disk.info = some .torn := by decide +kernel

/-- C45: a process dying in the last write of a save leaves exactly the directory of the finished save,
with the counter file cut off if this save is the one that completes the checkpoint interval. -/
theorem C45_crash_end (env : IpEnv S I A) (f : Incr S V A) (hf : f.inited = true) (p : String) :
    (∀ s, env.picklable s = true → crashIndex env s p .info2Torn f =
      let d := (saveIndex env s p f).2.disk
      if env.interval ≤ (f.count : Int) + 1 - f.last then { d with info := some .torn } else d) ∧
    (∀ v ids a, env.idsArr ids = some a → env.jsonOk ids = true → crashVecs env v ids p .info2Torn f =
      let d := (saveVecs env v ids p f).2.disk
      if env.interval ≤ (f.count : Int) + 1 - f.last then { d with info := some .torn } else d) ∧
    (∀ s, env.picklable s = true → crashState env s p .info2Torn f =
      let d := (saveState env s p f).2.disk
      if env.interval ≤ 1 then { d with info := some .torn } else d) := by
  refine ⟨fun s hs => ?_, fun v ids a ha hj => ?_, fun s hs => ?_⟩
  · by_cases hk : env.interval ≤ (f.count : Int) + 1 - f.last
    · simp [crashIndex, crashFile, saveIndex, hf, hs, crashInfo2, logOp, maybeCheckpoint, appendLog, Incr.put, hk,
        tornInfo, createCheckpoint, saveInfo]
    · simp [crashIndex, crashFile, saveIndex, hf, hs, crashInfo2, logOp, maybeCheckpoint, appendLog, Incr.put, hk]
  · by_cases hk : env.interval ≤ (f.count : Int) + 1 - f.last
    · simp [crashVecs, crashFile, saveVecs, hf, ha, hj, crashInfo2, logOp, maybeCheckpoint, appendLog, Incr.put, hk,
        tornInfo, createCheckpoint, saveInfo]
    · simp [crashVecs, crashFile, saveVecs, hf, ha, hj, crashInfo2, logOp, maybeCheckpoint, appendLog, Incr.put, hk]
  · have he : (f.count : Int) + 1 - f.count = 1 := by omega
    by_cases hk : env.interval ≤ 1
    · simp [crashState, saveState, hf, hs, he, crashInfo2, logOp, maybeCheckpoint, appendLog, Incr.put, hk,
        tornInfo, createCheckpoint, saveInfo]
    · simp [crashState, saveState, hf, hs, he, crashInfo2, logOp, maybeCheckpoint, appendLog, Incr.put, hk, saveInfo]

example : (crashIndex (exIp 3) "a" "p" .info2Torn (ipRun (exIp 3) ([.saveState "s" "q", .reopen] :
      List (IpCall String Nat (List Nat)))).2).info = some (.info 0 0) ∧
    (crashIndex (exIp 2) "a" "p" .info2Torn (ipRun (exIp 2) ([.saveState "s" "q", .reopen] :
      List (IpCall String Nat (List Nat)))).2).info = some .torn := by decide +kernel

end Valori.Props
