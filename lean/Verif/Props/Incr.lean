import Verif.Lemmas.Incr

/-!
# Properties C44 - C47, C87: incremental persistence

`int(...)` is any function that reads decimal numerals back (`hpar`).
-/

namespace Valori.Props
open Valori Valori.Spec Valori.Incr

variable {S V I A : Type}

/-- An empty directory. -/
def emptyIDisk : IDisk S V A := ⟨[], none, [], false⟩

/-- A new manager object on an empty directory, after a history (newest first). -/
def ipRun (env : IpEnv S I A) (h : List (IpCall S V I)) :
    List (IpCall S V I × IpReply S V I) × Incr S V A := Incr.run env (Incr.new emptyIDisk) h

/-- A history over the caller's own files (no path is `checkpoint_*.pkl`) whose state saves all
succeed, with no crash at a harmful point. -/
structure IpHist (env : IpEnv S I A) (h : List (IpCall S V I)) : Prop where
  paths : ∀ c ∈ h, PathOk c
  picks : ∀ c ∈ h, Picks env c
  safe : ∀ c ∈ h, c.safe = true
  acked : ∀ x ∈ (ipRun env h).1, ∀ s p, x.1 = .saveState s p → x.2 = .saved

theorem new_inv (k : Int) : Inv k (Incr.new emptyIDisk : Incr S V A) none :=
  ⟨⟨by simp [Incr.new, emptyIDisk, Dict.keys], by simp [Incr.new, emptyIDisk],
    by simp [Incr.new, emptyIDisk], by simp [Incr.new, emptyIDisk, Dict.keys]⟩,
    by simp [Incr.new], by simp [Incr.new], by simp [Incr.new]⟩

theorem IpHist.inv {env : IpEnv S I A} {h : List (IpCall S V I)} (H : IpHist env h) :
    Inv env.interval (ipRun env h).2 (lastState (ipRun env h).1) :=
  Inv.run h rfl (new_inv _) H.paths H.picks H.safe H.acked

/-- States are strings (the empty one does not pickle), ids lists; `int` on "0" ... "19". -/
def exIp (k : Int) : IpEnv String (List Nat) (List Nat) where
  picklable s := s != ""
  idsArr l := some l
  idsList a := some a
  jsonOk _ := true
  parse s := ((List.range 20).find? fun n => toString n == s).map Int.ofNat
  interval := k

/-- A history with two states and a restart, newest first. -/
def exIpHist : List (IpCall String Nat (List Nat)) :=
  [.saveIndex "i" "idx", .saveState "b" "q", .reopen, .saveVecs 1 [2] "v", .saveIndex "i" "idx",
   .saveState "a" "p", .reopen]

/-- `decide`-friendly check of a history. -/
def exIpOk (env : IpEnv String (List Nat) (List Nat)) (h : List (IpCall String Nat (List Nat))) : Bool :=
  h.all (fun c => c.safe && (match c with
    | .saveIndex _ p => !globMatch p
    | .crashIndex _ p _ => !globMatch p
    | .crashState s _ _ => env.picklable s
    | _ => true)) &&
  (ipRun env h).1.all (fun x => match x.1 with
    | .saveState .. => x.2 = .saved
    | _ => true)

theorem exIpOk_hist {env : IpEnv String (List Nat) (List Nat)}
    {h : List (IpCall String Nat (List Nat))} (hh : exIpOk env h = true) : IpHist env h := by
  simp only [exIpOk, Bool.and_eq_true, List.all_eq_true] at hh
  obtain ⟨h1, h2⟩ := hh
  refine ⟨?_, ?_, fun c hc => (h1 c hc).1, ?_⟩
  · intro c hc
    have := (h1 c hc).2
    cases c <;> simp_all [PathOk]
  · intro c hc
    have := (h1 c hc).2
    cases c <;> simp_all [Picks]
  · intro x hx s p e
    have := h2 x hx
    rw [e] at this
    simpa using this

/-! ## C44 -/

/-- **C44** In every history without crashes, with any restarts, any checkpoint interval and any
other saves in between: on an open manager `load_state` gives the state of the last `save_state`, or
nothing when there was none. -/
theorem C44_incr_latest (env : IpEnv S I A) (hpar : ∀ n : Nat, env.parse (toString n) = some (n : Int))
    (h : List (IpCall S V I)) (H : IpHist env h) (hc : ∀ c ∈ h, c.noCrash = true)
    (ho : ipOpened (ipRun env h).1 = true) (q : String) :
    Incr.loadState env q (ipRun env h).2 = .ok (lastState (ipRun env h).1) :=
  H.inv.load hpar ((run_opened h _ rfl).trans ho) q

example : IpHist (exIp 3) exIpHist ∧ (∀ c ∈ exIpHist, c.noCrash = true) ∧
    ipOpened (ipRun (exIp 3) exIpHist).1 = true ∧
    lastState (ipRun (exIp 3) exIpHist).1 = some "b" ∧
    lastState (ipRun (exIp 3) (exIpHist.drop 2)).1 = some "a" ∧
    lastState (ipRun (exIp 3) (exIpHist.drop 6)).1 = none :=
  ⟨exIpOk_hist (by decide +kernel), by decide +kernel, by decide +kernel, by decide +kernel,
    by decide +kernel, by decide +kernel⟩

/-! ## C45 -/

/-- **C45**, weaker form: the same with any number of crashes, as long as none hits the writing of
the checkpoint file, the counter file, or the gap between them; a state being saved counts from the
counter file on.  Missing: the other crash points, see `C45_incr_torn_refuted` and
`C45_incr_lost_refuted`. -/
theorem C45_incr_crash_partial (env : IpEnv S I A)
    (hpar : ∀ n : Nat, env.parse (toString n) = some (n : Int))
    (h : List (IpCall S V I)) (H : IpHist env h)
    (ho : ipOpened (ipRun env h).1 = true) (q : String) :
    Incr.loadState env q (ipRun env h).2 = .ok (lastState (ipRun env h).1) :=
  H.inv.load hpar ((run_opened h _ rfl).trans ho) q

/-- A history with three crashes. -/
example :
    let h := IpCall.saveIndex "i" "x" :: .crashState "c" "p" .start :: .crashState "b" "q" .infoDone ::
      .crashIndex "j" "idx" .fileTorn :: exIpHist
    IpHist (exIp 3) h ∧ ipOpened (ipRun (exIp 3) h).1 = true ∧
    lastState (ipRun (exIp 3) h).1 = some "b" :=
  ⟨exIpOk_hist (by decide +kernel), by decide +kernel, by decide +kernel⟩

/-- **C45** is false after every history: when the process dies while the checkpoint file is written,
`load_state` raises after the restart. -/
theorem C45_incr_torn_refuted (env : IpEnv S I A)
    (hpar : ∀ n : Nat, env.parse (toString n) = some (n : Int))
    (h : List (IpCall S V I)) (H : IpHist env h) (ho : ipOpened (ipRun env h).1 = true)
    (s : S) (p q : String) :
    Incr.loadState env q (ipRun env (.crashState s p .ckptTorn :: h)).2 = .error .persistence := by
  have hI := H.inv
  have hi : (ipRun env h).2.inited = true := (run_opened h _ rfl).trans ho
  have e : (ipRun env (.crashState s p .ckptTorn :: h)).2 = Incr.init (Incr.new
      (Incr.put (ckptName (ipRun env h).2.count) .torn (ipRun env h).2).disk) := by
    show (Incr.call env (ipRun env h).2 (.crashState s p .ckptTorn)).2 = _
    simp only [Incr.call, crashState]
    rw [if_neg (by simp [hi])]
    cases env.picklable s <;> rfl
  rw [e]
  generalize (ipRun env h).2 = f at hI hi
  have hfiles : (Incr.init (Incr.new (Incr.put (ckptName f.count) .torn f).disk)).disk.files =
      f.disk.files.set (ckptName f.count) .torn := by
    simp only [Incr.init, loadInfo]; split <;> rfl
  have hk : ∀ y ∈ (f.disk.files.set (ckptName f.count) .torn).keys, globMatch y = true →
      ∃ m, y = ckptName m ∧ m ≤ f.count := by
    intro y hy hg
    rw [Dict.mem_keys, Dict.get?_set] at hy
    split at hy
    · exact ⟨_, by assumption, le_refl _⟩
    · obtain ⟨m, rfl, hm⟩ := hI.disk.glob y ((Dict.mem_keys _ _).2 hy) hg
      exact ⟨m, rfl, hm.trans (hI.cnt hi)⟩
  rw [load_top (n := f.count) hpar rfl]
  · rw [hfiles, Dict.get?_set_self]
  · rw [hfiles]; exact fun x hx hg => (hk x hx hg).imp fun _ a => a.1
  · rw [hfiles, Dict.mem_keys, Dict.get?_set_self]; rfl
  · rw [hfiles]; intro m hm
    obtain ⟨m', e, h'⟩ := hk _ hm (glob_ckpt m)
    rw [ckptName_inj e]; exact h'

/-- **C45** is false after every history that ends with an acknowledged `save_state` (interval at
least 2): when the process then dies in another `save_state`, after the checkpoint file and before the
counter file, the next state that is saved and acknowledged after the restart is not the one loaded. -/
theorem C45_incr_lost_refuted (env : IpEnv S I A)
    (hpar : ∀ n : Nat, env.parse (toString n) = some (n : Int)) (hk : 2 ≤ env.interval)
    (h : List (IpCall S V I)) (a b c : S) (p : String) (H : IpHist env (.saveState a p :: h))
    (hb : env.picklable b = true) (hc : env.picklable c = true) (q : String) :
    let h' := IpCall.saveState c p :: .crashState b p .ckptDone :: .saveState a p :: h
    (ipRun env h').1.head?.map Prod.snd = some .saved ∧
    Incr.loadState env q (ipRun env h').2 = .ok (some b) := by
  intro h'
  have H0 : IpHist env h := ⟨fun x hx => H.paths x (by simp [hx]), fun x hx => H.picks x (by simp [hx]),
    fun x hx => H.safe x (by simp [hx]), fun x hx => H.acked x (by
      simp only [ipRun, Incr.run, List.mem_cons]; exact Or.inr hx)⟩
  have hI := H0.inv
  -- the manager was open when `a` was saved
  have hsv : (Incr.call env (ipRun env h).2 (.saveState a p)).1 = .saved :=
    H.acked _ (by simp only [ipRun, Incr.run]; exact List.mem_cons_self) a p rfl
  have hi : (ipRun env h).2.inited = true := by
    by_contra hn
    simp only [Incr.call, saveState] at hsv
    rw [if_pos (by simp [hn])] at hsv
    simp [Incr.repSave] at hsv
  have ha : env.picklable a = true := by
    by_contra hn
    simp only [Incr.call, saveState] at hsv
    rw [if_neg (by simp [hi]), if_pos (by simp [hn])] at hsv
    simp [Incr.repSave] at hsv
  have hrun : ipRun env h' =
      let f := (ipRun env h).2
      let f1 := (Incr.call env f (.saveState a p)).2
      let f2 := (Incr.call env f1 (.crashState b p .ckptDone)).2
      let r3 := Incr.call env f2 (.saveState c p)
      ((.saveState c p, r3.1) :: (.crashState b p .ckptDone, .done) ::
        (.saveState a p, (Incr.call env f (.saveState a p)).1) :: (ipRun env h).1, r3.2) := rfl
  rw [hrun]
  generalize ipRun env h = R at hI hi hsv
  obtain ⟨tr, f⟩ := R
  simp only at hI hi hsv ⊢
  obtain ⟨⟨files, info, lg, cu⟩, ini, n, last⟩ := f
  simp only at hi
  subst hi
  have hle := hI.cnt rfl
  have hglob := hI.disk.glob
  simp only at hle hglob
  -- the three calls, computed
  have e1 : (Incr.call env (⟨⟨files, info, lg, cu⟩, true, n, last⟩ : Incr S V A) (.saveState a p)).2 =
      ⟨⟨files.set (ckptName n) (.pickle a), some (.info n n),
        lg ++ [if cu then none else some ⟨"save_state", p, n⟩], false⟩, true, n + 1, n⟩ := by
    simp only [Incr.call, saveState, ha, Bool.not_true, Bool.false_eq_true, if_false]
    rw [logOp_neg _ _ _ _ (by simp only [saveInfo, Incr.put]; omega)]
    rfl
  rw [e1]
  have e2 : (Incr.call env (⟨⟨files.set (ckptName n) (.pickle a), some (.info n n),
      lg ++ [if cu then none else some ⟨"save_state", p, n⟩], false⟩, true, n + 1, n⟩ : Incr S V A) (.crashState b p .ckptDone)).2 =
      ⟨⟨(files.set (ckptName n) (.pickle a)).set (ckptName (n + 1)) (.pickle b), some (.info n n),
        lg ++ [if cu then none else some ⟨"save_state", p, n⟩], false⟩, true, n, n⟩ := by
    simp only [Incr.call, crashState, hb, Bool.not_true, Bool.false_eq_true, if_false, if_true, Incr.put,
      Incr.init, Incr.new, loadInfo]
  rw [e2]
  have e3 : Incr.call env (⟨⟨(files.set (ckptName n) (.pickle a)).set (ckptName (n + 1)) (.pickle b),
      some (.info n n), lg ++ [if cu then none else some ⟨"save_state", p, n⟩], false⟩, true, n, n⟩ : Incr S V A) (.saveState c p) =
      (.saved, ⟨⟨((files.set (ckptName n) (.pickle a)).set (ckptName (n + 1)) (.pickle b)).set
        (ckptName n) (.pickle c), some (.info n n),
        lg ++ [if cu then none else some ⟨"save_state", p, n⟩] ++ [some ⟨"save_state", p, n⟩], false⟩,
        true, n + 1, n⟩) := by
    simp only [Incr.call, saveState, hc, Bool.not_true, Bool.false_eq_true, if_false]
    rw [logOp_neg _ _ _ _ (by simp only [saveInfo, Incr.put]; omega)]
    rfl
  rw [e3]
  refine ⟨rfl, ?_⟩
  have hget : ∀ x, (((files.set (ckptName n) (.pickle a)).set (ckptName (n + 1)) (.pickle b)).set
      (ckptName n) (.pickle c)).get? x = if x = ckptName n then some (.pickle c) else
        if x = ckptName (n + 1) then some (.pickle b) else files.get? x := by
    intro x
    simp only [Dict.get?_set]
    by_cases h1 : x = ckptName n
    · simp [h1]
    · simp [h1]
  have hkey : ∀ y ∈ (((files.set (ckptName n) (.pickle a)).set (ckptName (n + 1)) (.pickle b)).set
      (ckptName n) (.pickle c)).keys, globMatch y = true → ∃ m, y = ckptName m ∧ m ≤ n + 1 := by
    intro y hy hg
    rw [Dict.mem_keys, hget] at hy
    split at hy
    · exact ⟨n, by assumption, by omega⟩
    split at hy
    · exact ⟨n + 1, by assumption, le_refl _⟩
    obtain ⟨m, rfl, hm⟩ := hglob y ((Dict.mem_keys _ _).2 hy) hg
    exact ⟨m, rfl, by omega⟩
  have hne : ckptName (n + 1) ≠ ckptName n := fun e => by have := ckptName_inj e; omega
  rw [load_top (n := n + 1) hpar rfl]
  · simp only [hget, if_neg hne, if_true]
  · exact fun x hx hg => (hkey x hx hg).imp fun _ a => a.1
  · rw [Dict.mem_keys]; simp only [hget, if_neg hne, if_true]; rfl
  · intro m hm
    obtain ⟨m', e, h'⟩ := hkey _ hm (glob_ckpt m)
    rw [ckptName_inj e]; exact h'

example : IpHist (exIp 3) (.saveState "a" "p" :: exIpHist) := exIpOk_hist (by decide +kernel)

/-! ## C46 -/

/-- The log lines of acknowledged saves (newest call first in `tr`), numbered from `n`. -/
def numbered (tr : List (IpCall S V I × IpReply S V I)) (n : Nat) : List (Option LogLine) :=
  ((tr.reverse.filterMap IpCall.logged).zipIdx n).map fun x => some ⟨x.1.1, x.1.2, x.2⟩

/-- What lines become when they are written after a piece of a line without newline: the first one
cannot be read. -/
def glued (cut : Bool) (l : List (Option LogLine)) : List (Option LogLine) :=
  match cut, l with
  | true, _ :: l => none :: l
  | _, l => l

theorem glued_append (b : Bool) (l : List (Option LogLine)) (x : LogLine) :
    glued b (l ++ [some x]) = glued b l ++ [if b && l.isEmpty then none else some x] := by
  cases b <;> cases l <;> rfl

/-- The log of a session, also one that finds a cut line. -/
theorem session_log (env : IpEnv S I A) (f : Incr S V A) (hi : f.inited = true) (h' : List (IpCall S V I))
    (hs : ∀ c ∈ h', c.inSession = true) :
    (Incr.run env f h').2.disk.log = f.disk.log ++ glued f.disk.cut (numbered (Incr.run env f h').1 f.count) ∧
    (Incr.run env f h').2.count = f.count + ((Incr.run env f h').1.filterMap IpCall.logged).length := by
  have step : ∀ (c : IpCall S V I) (g : Incr S V A), g.inited = true → c.inSession = true →
      (Incr.call env g c).2.inited = true ∧
      (match IpCall.logged (c, (Incr.call env g c).1) with
        | none => (Incr.call env g c).2.disk.log = g.disk.log ∧
            (Incr.call env g c).2.disk.cut = g.disk.cut ∧ (Incr.call env g c).2.count = g.count
        | some x => (Incr.call env g c).2.disk.log =
              g.disk.log ++ [if g.disk.cut then none else some ⟨x.1, x.2, g.count⟩] ∧
            (Incr.call env g c).2.disk.cut = false ∧ (Incr.call env g c).2.count = g.count + 1) := by
    have hlog : ∀ (op p : String) (g : Incr S V A),
        (logOp env.interval op p g).disk.log =
          g.disk.log ++ [if g.disk.cut then none else some ⟨op, p, g.count⟩] ∧
        (logOp env.interval op p g).disk.cut = false ∧
        (logOp env.interval op p g).count = g.count + 1 := by
      intro op p g
      simp only [logOp, maybeCheckpoint]
      split <;> exact ⟨rfl, rfl, rfl⟩
    intro c g hg hc
    cases c with
    | loadState p => exact ⟨hg, rfl, rfl, rfl⟩
    | loadVecs p => exact ⟨hg, rfl, rfl, rfl⟩
    | loadIndex p => exact ⟨hg, rfl, rfl, rfl⟩
    | close => cases hc
    | reopen => cases hc
    | crashState s p pt => cases hc
    | crashVecs v ids p pt => cases hc
    | crashIndex s p pt => cases hc
    | saveState s p =>
      cases hp : env.picklable s with
      | false =>
        have e : Incr.call env g (.saveState s p : IpCall S V I) =
            (.raised, Incr.put (ckptName g.count) .torn g) := by
          simp only [Incr.call, saveState, hp]
          rw [if_neg (by simp [hg])]; rfl
        rw [e]; exact ⟨hg, rfl, rfl, rfl⟩
      | true =>
        have e : Incr.call env g (.saveState s p : IpCall S V I) =
            (.saved, logOp env.interval "save_state" p (saveInfo
              { Incr.put (ckptName g.count) (.pickle s) g with last := g.count })) := by
          simp only [Incr.call, saveState, hp]
          rw [if_neg (by simp [hg])]; rfl
        rw [e]; exact ⟨(logOp_inited _ _ _ _).trans hg, hlog _ _ _⟩
    | saveVecs v ids p =>
      cases hp : env.idsArr ids with
      | none =>
        have e : Incr.call env g (.saveVecs v ids p : IpCall S V I) = (.raised, g) := by
          simp only [Incr.call, saveVecs, hp]
          rw [if_neg (by simp [hg])]; rfl
        rw [e]; exact ⟨hg, rfl, rfl, rfl⟩
      | some a =>
        cases hj : env.jsonOk ids with
        | false =>
          have e : Incr.call env g (.saveVecs v ids p : IpCall S V I) =
              (.raised, Incr.put (npzName p) (.npz v a) g) := by
            simp only [Incr.call, saveVecs, hp, hj]
            rw [if_neg (by simp [hg])]; rfl
          rw [e]; exact ⟨hg, rfl, rfl, rfl⟩
        | true =>
          have e : Incr.call env g (.saveVecs v ids p : IpCall S V I) =
              (.saved, logOp env.interval "save_vectors" p (Incr.put (npzName p) (.npz v a) g)) := by
            simp only [Incr.call, saveVecs, hp, hj]
            rw [if_neg (by simp [hg])]; rfl
          rw [e]; exact ⟨(logOp_inited _ _ _ _).trans hg, hlog _ _ _⟩
    | saveIndex s p =>
      cases hp : env.picklable s with
      | false =>
        have e : Incr.call env g (.saveIndex s p : IpCall S V I) = (.raised, Incr.put p .torn g) := by
          simp only [Incr.call, saveIndex, hp]
          rw [if_neg (by simp [hg])]; rfl
        rw [e]; exact ⟨hg, rfl, rfl, rfl⟩
      | true =>
        have e : Incr.call env g (.saveIndex s p : IpCall S V I) =
            (.saved, logOp env.interval "save_index" p (Incr.put p (.pickle s) g)) := by
          simp only [Incr.call, saveIndex, hp]
          rw [if_neg (by simp [hg])]; rfl
        rw [e]; exact ⟨(logOp_inited _ _ _ _).trans hg, hlog _ _ _⟩
  have main : (Incr.run env f h').2.inited = true ∧
      (Incr.run env f h').2.disk.log =
        f.disk.log ++ glued f.disk.cut (numbered (Incr.run env f h').1 f.count) ∧
      (Incr.run env f h').2.disk.cut =
        (f.disk.cut && (numbered (Incr.run env f h').1 f.count).isEmpty) ∧
      (Incr.run env f h').2.count = f.count +
        ((Incr.run env f h').1.filterMap IpCall.logged).length := by
    induction h' with
    | nil => exact ⟨hi, by cases f.disk.cut <;> simp [Incr.run, numbered, glued], by simp [Incr.run, numbered],
        by simp [Incr.run]⟩
    | cons c h' ih =>
      obtain ⟨i1, i2, i3, i4⟩ := ih fun x hx => hs x (by simp [hx])
      obtain ⟨s1, s2⟩ := step c (Incr.run env f h').2 i1 (hs c (by simp))
      simp only [Incr.run]
      refine ⟨s1, ?_⟩
      cases hl : IpCall.logged (c, (Incr.call env (Incr.run env f h').2 c).1) with
      | none =>
        rw [hl] at s2
        have hn : numbered ((c, (Incr.call env (Incr.run env f h').2 c).1) :: (Incr.run env f h').1) f.count =
            numbered (Incr.run env f h').1 f.count := by
          simp [numbered, List.filterMap_append, hl]
        rw [hn]
        refine ⟨s2.1.trans i2, s2.2.1.trans i3, ?_⟩
        rw [s2.2.2, i4, List.filterMap_cons, hl]
      | some x =>
        rw [hl] at s2
        have hn : numbered ((c, (Incr.call env (Incr.run env f h').2 c).1) :: (Incr.run env f h').1) f.count =
            numbered (Incr.run env f h').1 f.count ++ [some ⟨x.1, x.2, (Incr.run env f h').2.count⟩] := by
          rw [i4]
          simp [numbered, List.filterMap_append, hl, List.zipIdx_append]
        rw [hn, glued_append]
        refine ⟨?_, ?_, ?_⟩
        · rw [s2.1, i2, i3, List.append_assoc]
        · rw [s2.2.1]; simp
        · rw [s2.2.2, i4, List.filterMap_cons, hl]
          simp; omega
  exact ⟨main.2.1, main.2.2.2⟩

theorem uncut (env : IpEnv S I A) (h : List (IpCall S V I)) (hh : ∀ c ∈ h, c.cutsLog = false) :
    (ipRun env h).2.disk.cut = false := by
  induction h with
  | nil => rfl
  | cons c h ih =>
    have hi := ih fun x hx => hh x (by simp [hx])
    have hc := hh c (by simp)
    show (Incr.call env (ipRun env h).2 c).2.disk.cut = false
    generalize (ipRun env h).2 = f at hi
    have hlog : ∀ (op p : String) (g : Incr S V A), (logOp env.interval op p g).disk.cut = false := by
      intro op p g
      simp only [logOp, maybeCheckpoint]
      split <;> rfl
    have hinit : ∀ g : Incr S V A, (Incr.init g).disk = g.disk := by
      intro g
      simp only [Incr.init, loadInfo]
      split <;> rfl
    have hfile : ∀ (op n p : String) (t : TFile S V A) (pt : FileCrash), pt ≠ .logTorn →
        (crashFile env op n p t pt f).cut = false := by
      intro op n p t pt hpt
      cases pt with
      | logTorn => exact absurd rfl hpt
      | info2Torn => simp only [crashFile, crashInfo2]; split <;> rfl
      | start => exact hi
      | fileTorn => exact hi
      | fileDone => exact hi
      | logDone => rfl
    cases c with
    | loadState p => exact hi
    | loadVecs p => exact hi
    | loadIndex p => exact hi
    | close => exact hi
    | reopen => simp only [Incr.call, hinit]; exact hi
    | saveState s p =>
      simp only [Incr.call, saveState]
      (repeat' split) <;> first | exact hi | exact hlog _ _ _
    | saveIndex s p =>
      simp only [Incr.call, saveIndex]
      (repeat' split) <;> first | exact hi | exact hlog _ _ _
    | saveVecs v ids p =>
      simp only [Incr.call, saveVecs]
      (repeat' split) <;> first | exact hi | exact hlog _ _ _
    | crashState s p pt =>
      simp only [Incr.call, hinit, Incr.new, crashState]
      split
      · exact hi
      · cases env.picklable s <;> cases pt <;>
          simp only [if_true, Bool.false_eq_true, if_false] <;>
          first | exact hi | rfl | (simp [IpCall.cutsLog] at hc; done) |
            (simp only [crashInfo2]; split <;> rfl)
    | crashVecs v ids p pt =>
      simp only [Incr.call, hinit, Incr.new, crashVecs]
      have hpt : pt ≠ .logTorn := by simpa [IpCall.cutsLog] using hc
      split
      · exact hi
      · cases env.idsArr ids with
        | none => exact hi
        | some a =>
          cases env.jsonOk ids
          · cases pt <;> exact hi
          · exact hfile _ _ _ _ pt hpt
    | crashIndex s p pt =>
      simp only [Incr.call, hinit, Incr.new, crashIndex]
      have hpt : pt ≠ .logTorn := by simpa [IpCall.cutsLog] using hc
      split
      · exact hi
      · cases env.picklable s
        · cases pt <;> exact hi
        · exact hfile _ _ _ _ pt hpt

/-- **C46** The counters: after every crash-free history (in fact with harmless crashes too), on an
open manager the last checkpoint does not exceed the operation count and trails it by less than the
interval.  The log: within a session, if no process died while writing a log line before (see C174),
each acknowledged save adds exactly one line, naming the call and its path, with consecutive operation
ids; nothing else touches the log, and the operation count grows by the number of lines. -/
theorem C46_incr_log (env : IpEnv S I A) (hk : 1 ≤ env.interval) (h h' : List (IpCall S V I))
    (H : IpHist env h) (ho : ipOpened (ipRun env h).1 = true) (hs : ∀ c ∈ h', c.inSession = true) :
    ((ipRun env h).2.last ≤ (ipRun env h).2.count ∧
     ((ipRun env h).2.count : Int) - (ipRun env h).2.last < env.interval) ∧
    ((∀ c ∈ h, c.cutsLog = false) → (Incr.run env (ipRun env h).2 h').2.disk.log =
      (ipRun env h).2.disk.log ++ numbered (Incr.run env (ipRun env h).2 h').1 (ipRun env h).2.count) ∧
    (Incr.run env (ipRun env h).2 h').2.count = (ipRun env h).2.count +
      ((Incr.run env (ipRun env h).2 h').1.filterMap IpCall.logged).length := by
  have hi : (ipRun env h).2.inited = true := (run_opened h _ rfl).trans ho
  obtain ⟨h1, h2⟩ := session_log env _ hi h' hs
  refine ⟨⟨H.inv.le hi, H.inv.near hi hk⟩, fun hc => ?_, h2⟩
  rw [h1, uncut env h hc]
  rfl

example :
    IpHist (exIp 3) exIpHist ∧ ipOpened (ipRun (exIp 3) exIpHist).1 = true ∧
    (∀ c ∈ exIpHist, c.cutsLog = false) ∧
    (Incr.run (exIp 3) (ipRun (exIp 3) exIpHist).2 [.saveState "" "p", .saveVecs 1 [2] "v",
      .saveState "c" "p"]).2.disk.log =
    (ipRun (exIp 3) exIpHist).2.disk.log ++ [some ⟨"save_state", "p", 5⟩, some ⟨"save_vectors", "v", 6⟩] :=
  ⟨exIpOk_hist (by decide +kernel), by decide +kernel, by decide +kernel, by decide +kernel⟩

/-! ## C47 -/

/-- **C47**, when all states are saved under one path: `load_state` of that path gives the last state
saved under it.  Missing: several paths, see `C47_incr_path_refuted`. -/
theorem C47_incr_path_partial (env : IpEnv S I A)
    (hpar : ∀ n : Nat, env.parse (toString n) = some (n : Int))
    (h : List (IpCall S V I)) (H : IpHist env h) (hc : ∀ c ∈ h, c.noCrash = true)
    (ho : ipOpened (ipRun env h).1 = true) (p : String)
    (hp : ∀ s q, IpCall.saveState s q ∈ h → q = p) :
    Incr.loadState env p (ipRun env h).2 = .ok (lastStateAt p (ipRun env h).1) := by
  rw [C44_incr_latest env hpar h H hc ho p]
  congr 1
  have key : ∀ tr : List (IpCall S V I × IpReply S V I), (∀ x ∈ tr, x.1.noCrash = true) →
      (∀ x ∈ tr, ∀ s q, x.1 = .saveState s q → q = p) → lastState tr = lastStateAt p tr := by
    intro tr
    induction tr with
    | nil => intro _ _; rfl
    | cons x tr ih =>
      intro h1 h2
      have i := ih (fun y hy => h1 y (by simp [hy])) fun y hy => h2 y (by simp [hy])
      obtain ⟨c, r⟩ := x
      have h1' := h1 (c, r) (by simp)
      have h2' := h2 (c, r) (by simp)
      cases c with
      | saveState s q =>
        have := h2' s q rfl
        subst this
        cases r <;> simp [lastState, lastStateAt, i]
      | crashState s q pt => cases h1'
      | crashVecs v ids q pt => cases h1'
      | crashIndex s q pt => cases h1'
      | _ => simpa [lastState, lastStateAt] using i
  have hcalls : ∀ (h : List (IpCall S V I)), ∀ x ∈ (ipRun env h).1, x.1 ∈ h := by
    intro h
    induction h with
    | nil => intro x hx; simp [ipRun, Incr.run] at hx
    | cons c h ih =>
      intro x hx
      simp only [ipRun, Incr.run, List.mem_cons] at hx
      rcases hx with rfl | hx
      · simp
      · simp [ih x hx]
  exact key _ (fun x hx => hc _ (hcalls h x hx)) fun x hx s q e => hp s q (e ▸ hcalls h x hx)

/-- **C47** is false after every history: once a state was saved under `p`, loading any other path
gives that state. -/
theorem C47_incr_path_refuted (env : IpEnv S I A)
    (hpar : ∀ n : Nat, env.parse (toString n) = some (n : Int))
    (h : List (IpCall S V I)) (s : S) (p q : String) (H : IpHist env (.saveState s p :: h)) :
    Incr.loadState env q (ipRun env (.saveState s p :: h)).2 = .ok (some s) := by
  have hsv : (Incr.call env (ipRun env h).2 (.saveState s p)).1 = .saved :=
    H.acked _ (by simp only [ipRun, Incr.run]; exact List.mem_cons_self) s p rfl
  have hop : (ipRun env (.saveState s p :: h)).2.inited = true := by
    show (Incr.call env (ipRun env h).2 (.saveState s p)).2.inited = true
    revert hsv
    simp only [Incr.call, saveState]
    split
    · simp [Incr.repSave]
    split
    · simp [Incr.repSave]
    · intro _; rw [logOp_inited]; simp_all [saveInfo, Incr.put]
  have := H.inv.load hpar hop q
  rw [this]
  have e : (ipRun env (.saveState s p :: h)).1 = (.saveState s p, .saved) :: (ipRun env h).1 := by
    rw [← hsv]; rfl
  rw [e]; rfl

/-- State "b" was saved under "q" only, and is loaded from "p". -/
example : IpHist (exIp 3) (exIpHist.drop 1) ∧
    Incr.loadState (exIp 3) "p" (ipRun (exIp 3) (exIpHist.drop 1)).2 = .ok (some "b") ∧
    lastStateAt "p" (ipRun (exIp 3) (exIpHist.drop 1)).1 = some "a" :=
  ⟨exIpOk_hist (by decide +kernel), by decide +kernel, by decide +kernel⟩

/-! ## C87 -/

/-- **C87** is false after every history: when `save_state` is asked for a state that does not pickle
it raises, and from then on `load_state` raises too, also after a restart. -/
theorem C87_incr_failed_refuted (env : IpEnv S I A)
    (hpar : ∀ n : Nat, env.parse (toString n) = some (n : Int))
    (h : List (IpCall S V I)) (H : IpHist env h) (ho : ipOpened (ipRun env h).1 = true)
    (s : S) (hsn : env.picklable s = false) (p q : String) :
    (Incr.saveState env s p (ipRun env h).2).1 = .error .persistence ∧
    Incr.loadState env q (ipRun env (.saveState s p :: h)).2 = .error .persistence ∧
    Incr.loadState env q (ipRun env (.reopen :: .saveState s p :: h)).2 = .error .persistence := by
  have hI := H.inv
  have hi : (ipRun env h).2.inited = true := (run_opened h _ rfl).trans ho
  have e : (ipRun env (.saveState s p :: h)).2 =
      Incr.put (ckptName (ipRun env h).2.count) .torn (ipRun env h).2 := by
    show (Incr.call env (ipRun env h).2 (.saveState s p)).2 = _
    simp only [Incr.call, saveState]
    rw [if_neg (by simp [hi]), if_pos (by simp [hsn])]
  have e2 : (ipRun env (.reopen :: .saveState s p :: h)).2 =
      Incr.init (Incr.put (ckptName (ipRun env h).2.count) .torn (ipRun env h).2) := by
    rw [← e]; rfl
  refine ⟨by simp only [saveState]; rw [if_neg (by simp [hi]), if_pos (by simp [hsn])], ?_, ?_⟩
  all_goals
    first | rw [e2] | rw [e]
    clear e e2
    generalize (ipRun env h).2 = f at hI hi
    have hk : ∀ y ∈ (f.disk.files.set (ckptName f.count) .torn).keys, globMatch y = true →
        ∃ m, y = ckptName m ∧ m ≤ f.count := by
      intro y hy hg
      rw [Dict.mem_keys, Dict.get?_set] at hy
      split at hy
      · exact ⟨_, by assumption, le_refl _⟩
      · obtain ⟨m, rfl, hm⟩ := hI.disk.glob y ((Dict.mem_keys _ _).2 hy) hg
        exact ⟨m, rfl, hm.trans (hI.cnt hi)⟩
    have key : ∀ g : Incr S V A, g.inited = true →
        g.disk.files = f.disk.files.set (ckptName f.count) .torn →
        Incr.loadState env q g = .error .persistence := by
      intro g hg hfiles
      rw [load_top (n := f.count) hpar hg]
      · rw [hfiles, Dict.get?_set_self]
      · rw [hfiles]; exact fun x hx hg => (hk x hx hg).imp fun _ a => a.1
      · rw [hfiles, Dict.mem_keys, Dict.get?_set_self]; rfl
      · rw [hfiles]; intro m hm
        obtain ⟨m', e, h'⟩ := hk _ hm (glob_ckpt m)
        rw [ckptName_inj e]; exact h'
    refine key _ ?_ ?_
    · first | exact hi | rfl
    · first | rfl | (simp only [Incr.init, loadInfo]; split <;> rfl)

/-- **C87**, weaker form: within the session the next successful `save_state` makes loading work
again. -/
theorem C87_incr_failed_partial (env : IpEnv S I A)
    (hpar : ∀ n : Nat, env.parse (toString n) = some (n : Int))
    (h : List (IpCall S V I)) (H : IpHist env h) (ho : ipOpened (ipRun env h).1 = true)
    (s t : S) (hsn : env.picklable s = false) (ht : env.picklable t = true) (p q : String) :
    Incr.loadState env q (ipRun env (.saveState t p :: .saveState s p :: h)).2 = .ok (some t) := by
  have hI := H.inv
  have hi : (ipRun env h).2.inited = true := (run_opened h _ rfl).trans ho
  have e : (ipRun env (.saveState s p :: h)).2 =
      Incr.put (ckptName (ipRun env h).2.count) .torn (ipRun env h).2 := by
    show (Incr.call env (ipRun env h).2 (.saveState s p)).2 = _
    simp only [Incr.call, saveState]
    rw [if_neg (by simp [hi]), if_pos (by simp [hsn])]
  have e2 : (ipRun env (.saveState t p :: .saveState s p :: h)).2 =
      (Incr.call env (Incr.put (ckptName (ipRun env h).2.count) .torn (ipRun env h).2)
        (.saveState t p : IpCall S V I)).2 := by rw [← e]; rfl
  rw [e2]
  clear e e2
  generalize (ipRun env h).2 = f at hI hi
  have e3 : (Incr.call env (Incr.put (ckptName f.count) .torn f) (.saveState t p : IpCall S V I)).2 =
      logOp env.interval "save_state" p (saveInfo { Incr.put (ckptName f.count) (.pickle t)
        (Incr.put (ckptName f.count) .torn f) with last := f.count }) := by
    simp only [Incr.call, saveState]
    rw [if_neg (by simp [hi, Incr.put]), if_neg (by simp [ht])]
    rfl
  rw [e3]
  have hfiles : (logOp env.interval "save_state" p (saveInfo { Incr.put (ckptName f.count) (.pickle t)
        (Incr.put (ckptName f.count) .torn f) with last := f.count })).disk.files =
      (f.disk.files.set (ckptName f.count) .torn).set (ckptName f.count) (.pickle t) := by
    simp only [logOp, maybeCheckpoint]; split <;> rfl
  have hk : ∀ y ∈ ((f.disk.files.set (ckptName f.count) .torn).set (ckptName f.count)
      (.pickle t)).keys, globMatch y = true → ∃ m, y = ckptName m ∧ m ≤ f.count := by
    intro y hy hg
    rw [Dict.mem_keys, Dict.get?_set, Dict.get?_set] at hy
    split at hy
    · exact ⟨_, by assumption, le_refl _⟩
    · obtain ⟨m, rfl, hm⟩ := hI.disk.glob y ((Dict.mem_keys _ _).2 hy) hg
      exact ⟨m, rfl, hm.trans (hI.cnt hi)⟩
  rw [load_top (n := f.count) hpar (by rw [logOp_inited]; exact hi)]
  · rw [hfiles, Dict.get?_set_self]
  · rw [hfiles]; exact fun x hx hg => (hk x hx hg).imp fun _ a => a.1
  · rw [hfiles, Dict.mem_keys, Dict.get?_set_self]; rfl
  · rw [hfiles]; intro m hm
    obtain ⟨m', e, h'⟩ := hk _ hm (glob_ckpt m)
    rw [ckptName_inj e]; exact h'

example : IpHist (exIp 3) exIpHist ∧ ipOpened (ipRun (exIp 3) exIpHist).1 = true ∧
    (exIp 3).picklable "" = false ∧ (exIp 3).picklable "t" = true :=
  ⟨exIpOk_hist (by decide +kernel), by decide +kernel, rfl, rfl⟩

end Valori.Props
