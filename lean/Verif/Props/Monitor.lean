import Verif.Model.Monitor
import Mathlib.Tactic.Linarith
import Mathlib.Tactic.FieldSimp
import Mathlib.Data.List.Basic
import Mathlib.Algebra.Order.Field.Rat
import Mathlib.Tactic.Positivity

/-!
# C166, C167: the resource monitor
-/

namespace Valori.Props

/-- Only caller `c` calls the monitor. -/
def onlyCaller (c : Nat) : MonAct → Prop
  | .start c' => c' = c
  | .stop c' => c' = c
  | .go c' => c' = c
  | .tick _ _ => True

/-- Not a call of `start_monitoring`. -/
def notStart : MonAct → Prop
  | .start _ => False
  | _ => True

/-- Not a call of `stop_monitoring`. -/
def notStop : MonAct → Prop
  | .stop _ => False
  | _ => True

/-- Neither call. -/
def noCall (a : MonAct) : Prop := notStart a ∧ notStop a

/-- Thread `t` has not left its loop. -/
def liveMon (s : Mon) (t : Nat) : Prop := ∃ pc, s.threads[t]? = some pc ∧ pc ≠ .ended

/-- What holds when there is one caller. -/
structure MonInv (c : Nat) (s : Mon) : Prop where
  others : ∀ c', c' ≠ c → s.callers c' = .idle
  one : ∀ t, liveMon s t → s.current = some t
  range : ∀ t, s.current = some t → t < s.threads.length
  here : match s.callers c with
    | .idle => s.monitoring = false → ∀ t, ¬ liveMon s t
    | .passed => s.monitoring = false ∧ ∀ t, ¬ liveMon s t
    | .flagged => s.monitoring = true ∧ ∀ t, ¬ liveMon s t
    | .cleared => s.monitoring = false
    | .joining t => s.monitoring = false ∧ s.current = some t

theorem live_set {s : Mon} {t u : Nat} {pc : MonPc} {d : List Sample} (ht : liveMon s t)
    (h : liveMon { s with threads := s.threads.set t pc, data := d } u) : liveMon s u := by
  by_cases hu : t = u
  · exact hu ▸ ht
  · obtain ⟨q, h1, h2⟩ := h
    simp only [List.getElem?_set_ne hu] at h1
    exact ⟨q, h1, h2⟩

theorem mon_other {s : Mon} {c c' : Nat} (h : ∀ c', c' ≠ c → s.callers c' = .idle) (pc : CallPc)
    (hc : c' ≠ c) : Function.update s.callers c pc c' = .idle := by
  rw [Function.update_of_ne hc]; exact h c' hc

theorem moninv_step {c : Nat} {s s' : Mon} {a : MonAct} (h : MonInv c s) (ha : onlyCaller c a)
    (hs : s.step a = some s') : MonInv c s' := by
  have hh := h.here
  cases a with
  | start c' =>
    obtain rfl : c' = c := ha
    simp only [Mon.step] at hs
    split at hs
    · rename_i hc
      rw [hc] at hh
      split at hs
      · cases hs; exact h
      · rename_i hm
        cases hs
        refine ⟨fun _ => mon_other h.others _, h.one, h.range, ?_⟩
        simp only [Function.update_self]
        exact ⟨by simpa using hm, hh (by simpa using hm)⟩
    · cases hs
  | stop c' =>
    obtain rfl : c' = c := ha
    simp only [Mon.step] at hs
    split at hs
    · cases hs
      refine ⟨fun _ => mon_other h.others _, h.one, h.range, ?_⟩
      simp only [Function.update_self]
    · cases hs
  | go c' =>
    obtain rfl : c' = c := ha
    simp only [Mon.step] at hs
    split at hs
    · cases hs
    · rename_i hc
      rw [hc] at hh
      cases hs
      refine ⟨fun _ => mon_other h.others _, h.one, h.range, ?_⟩
      simp only [Function.update_self]
      exact ⟨trivial, hh.2⟩
    · rename_i hc
      rw [hc] at hh
      cases hs
      refine ⟨fun _ => mon_other h.others _, ?_, ?_, ?_⟩
      · rintro t ⟨q, h1, h2⟩
        simp only at h1 ⊢
        by_cases ht : t < s.threads.length
        · rw [List.getElem?_append_left ht] at h1
          exact absurd ⟨q, h1, h2⟩ (hh.2 t)
        · have hl := (List.getElem?_eq_some_iff.1 h1).1
          simp at hl
          exact congrArg some (by omega)
      · rintro t ht
        simp only [Option.some.injEq] at ht
        simp; omega
      · simp only [Function.update_self]
        intro h'
        rw [hh.1] at h'
        cases h'
    · rename_i hc
      rw [hc] at hh
      split at hs
      · rename_i hcur
        cases hs
        refine ⟨fun _ => mon_other h.others _, h.one, h.range, ?_⟩
        simp only [Function.update_self]
        intro _ t hl
        have := h.one t hl
        rw [hcur] at this
        cases this
      · rename_i t hcur
        cases hs
        refine ⟨fun _ => mon_other h.others _, h.one, h.range, ?_⟩
        simp only [Function.update_self]
        exact ⟨hh, hcur⟩
    · rename_i t hc
      rw [hc] at hh
      split at hs
      · rename_i he
        cases hs
        refine ⟨fun _ => mon_other h.others _, h.one, h.range, ?_⟩
        simp only [Function.update_self]
        intro _ u hl
        have h1 := h.one u hl
        rw [hh.2] at h1
        obtain rfl := Option.some.inj h1
        obtain ⟨q, h2, h3⟩ := hl
        simp only at h2
        rw [he] at h2
        exact h3 (Option.some.inj h2).symm
      · cases hs
  | tick t got =>
    simp only [Mon.step] at hs
    split at hs
    · cases hs
    · rename_i pc hne hpc
      cases hs
      have hl : liveMon s t := ⟨pc, hpc, hne⟩
      refine ⟨h.others, fun u hu => h.one u (live_set hl hu), fun u hu => ?_, ?_⟩
      · simpa using h.range u hu
      · simp only
        split
        · rename_i hc
          rw [hc] at hh
          exact fun hm u hu => hh hm u (live_set hl hu)
        · rename_i hc
          rw [hc] at hh
          exact ⟨hh.1, fun u hu => hh.2 u (live_set hl hu)⟩
        · rename_i hc
          rw [hc] at hh
          exact ⟨hh.1, fun u hu => hh.2 u (live_set hl hu)⟩
        · rename_i hc
          rw [hc] at hh
          exact hh
        · rename_i u hc
          rw [hc] at hh
          exact hh
    · cases hs

theorem mon_run_append (s : Mon) (as bs : List MonAct) :
    s.run (as ++ bs) = (s.run as).bind fun s' => s'.run bs := by
  induction as generalizing s with
  | nil => rfl
  | cons a as ih =>
    simp only [List.cons_append, Mon.run]
    cases s.step a with
    | none => rfl
    | some s' => exact ih s'

theorem moninv_run {c : Nat} {s s' : Mon} {as : List MonAct} (h : MonInv c s)
    (ha : ∀ a ∈ as, onlyCaller c a) (hs : s.run as = some s') : MonInv c s' := by
  induction as generalizing s with
  | nil => cases hs; exact h
  | cons a as ih =>
    simp only [Mon.run] at hs
    cases h1 : s.step a with
    | none => rw [h1] at hs; cases hs
    | some s1 =>
      rw [h1] at hs
      exact ih (moninv_step h (ha a (by simp)) h1) (fun b hb => ha b (by simp [hb])) hs

theorem moninv_new (c : Nat) : MonInv c Mon.new := by
  refine ⟨fun _ _ => rfl, fun t h => ?_, fun t h => ?_, fun _ t h => ?_⟩
  · obtain ⟨q, h1, -⟩ := h; simp [Mon.new] at h1
  · simp [Mon.new] at h
  · obtain ⟨q, h1, -⟩ := h; simp [Mon.new] at h1

/-- **C166** When one caller uses the monitor, at most one monitoring thread is alive at any time, whatever
fails and whenever the threads run. -/
theorem C166_one_thread_partial (c : Nat) (acts : List MonAct) (s : Mon) (ha : ∀ a ∈ acts, onlyCaller c a)
    (hs : Mon.new.run acts = some s) (t t' : Nat) (ht : liveMon s t) (ht' : liveMon s t') : t = t' := by
  have h := moninv_run (moninv_new c) ha hs
  have := (h.one t ht).symm.trans (h.one t' ht')
  exact Option.some.inj this

/-- **C166** Samples are never lost or changed: what happens later only adds to the end. -/
theorem C166_kept (s s' : Mon) (acts : List MonAct) (hs : s.run acts = some s') : s.data <+: s'.data := by
  induction acts generalizing s with
  | nil => cases hs; exact List.prefix_rfl
  | cons a as ih =>
    simp only [Mon.run] at hs
    cases h1 : s.step a with
    | none => rw [h1] at hs; cases hs
    | some s1 =>
      rw [h1] at hs
      refine List.IsPrefix.trans ?_ (ih s1 hs)
      cases a <;> simp only [Mon.step] at h1 <;> repeat' split at h1
      all_goals first | (cases h1; done) | (cases h1; exact List.prefix_rfl) | skip
      cases h1
      exact List.prefix_append _ _

/-- Statements a thread can still execute when monitoring has been switched off. -/
def leftMon : MonPc → Nat
  | .starting => 2
  | .test => 1
  | .sample => 3
  | .sleep => 2
  | .ended => 0

/-- Statements a stopping caller can still execute. -/
def leftCall : CallPc → Nat
  | .cleared => 2
  | .joining _ => 1
  | _ => 0

/-- Where the current thread stands. -/
def curPc (s : Mon) : MonPc := (s.current.bind fun t => s.threads[t]?).getD .ended

/-- What a thread may still add when monitoring has been switched off. -/
def mayEmit : MonPc → Nat
  | .sample => 1
  | _ => 0

theorem after_stop {c : Nat} {s s' : Mon} {a : MonAct} (h : MonInv c s) (hm : s.monitoring = false)
    (hc : s.callers c ≠ .passed) (ha : onlyCaller c a) (hn : noCall a) (hs : s.step a = some s') :
    s'.monitoring = false ∧ s'.callers c ≠ .passed ∧
    leftMon (curPc s') + leftCall (s'.callers c) + 1 ≤ leftMon (curPc s) + leftCall (s.callers c) ∧
    s'.data.length + mayEmit (curPc s') ≤ s.data.length + mayEmit (curPc s) := by
  have hh := h.here
  cases a with
  | start c' => exact absurd hn.1 id
  | stop c' => exact absurd hn.2 id
  | go c' =>
    obtain rfl : c' = c := ha
    simp only [Mon.step] at hs
    split at hs
    · cases hs
    · rename_i hc'; exact absurd hc' hc
    · rename_i hc'
      rw [hc'] at hh
      rw [hm] at hh
      exact absurd hh.1 (by simp)
    · rename_i hc'
      split at hs
      · cases hs
        refine ⟨hm, by simp, ?_, le_refl _⟩
        simp [curPc, hc', leftCall]
      · cases hs
        refine ⟨hm, by simp, ?_, le_refl _⟩
        simp [curPc, hc', leftCall]
        
    · rename_i t hc'
      split at hs
      · cases hs
        refine ⟨hm, by simp, ?_, le_refl _⟩
        simp [curPc, hc', leftCall]
      · cases hs
  | tick t got =>
    simp only [Mon.step] at hs
    split at hs
    · cases hs
    · rename_i pc hne hpc
      cases hs
      have hl : liveMon s t := ⟨pc, hpc, hne⟩
      have hcur := h.one t hl
      have hlt := h.range t hcur
      have h1 : curPc s = pc := by simp [curPc, hcur, hpc]
      refine ⟨hm, hc, ?_⟩
      have h2 : curPc { s with threads := s.threads.set t (pc.next s.monitoring got), data := s.data ++ pc.emits got } = pc.next s.monitoring got := by
        simp [curPc, hcur, List.getElem?_set_self hlt]
      rw [h1, h2, hm]
      cases pc <;> cases got <;> simp [MonPc.next, MonPc.emits, leftMon, mayEmit] at * <;> omega
    · cases hs

theorem after_stop_run {c : Nat} {s s' : Mon} {as : List MonAct} (h : MonInv c s)
    (hm : s.monitoring = false) (hc : s.callers c ≠ .passed) (ha : ∀ a ∈ as, onlyCaller c a)
    (hn : ∀ a ∈ as, noCall a) (hs : s.run as = some s') :
    s'.monitoring = false ∧
    leftMon (curPc s') + leftCall (s'.callers c) + as.length ≤ leftMon (curPc s) + leftCall (s.callers c) ∧
    s'.data.length + mayEmit (curPc s') ≤ s.data.length + mayEmit (curPc s) := by
  induction as generalizing s with
  | nil => cases hs; exact ⟨hm, le_refl _, le_refl _⟩
  | cons a as ih =>
    simp only [Mon.run] at hs
    cases h1 : s.step a with
    | none => rw [h1] at hs; cases hs
    | some s1 =>
      rw [h1] at hs
      obtain ⟨g1, g2, g3, g4⟩ := after_stop h hm hc (ha a (by simp)) (hn a (by simp)) h1
      obtain ⟨k1, k2, k3⟩ := ih (moninv_step h (ha a (by simp)) h1) g1 g2
        (fun b hb => ha b (by simp [hb])) (fun b hb => hn b (by simp [hb])) hs
      refine ⟨k1, ?_, le_trans k3 g4⟩
      simp only [List.length_cons]
      omega

/-- **C166** Stopping works, when one caller uses the monitor: after the call at most five statements are
executed, at most one of them adds a sample, and as long as the call has not returned a statement can be
executed; when it has returned, no thread is alive. -/
theorem C166_stop_partial (c : Nat) (before after : List MonAct) (s s1 s2 : Mon)
    (hb : ∀ a ∈ before, onlyCaller c a) (hs : Mon.new.run before = some s)
    (h1 : s.step (.stop c) = some s1) (ha : ∀ a ∈ after, onlyCaller c a) (hn : ∀ a ∈ after, noCall a)
    (h2 : s1.run after = some s2) :
    after.length ≤ 5 ∧ s2.data.length ≤ s1.data.length + 1 ∧
    (s2.callers c ≠ .idle → ∃ a, onlyCaller c a ∧ noCall a ∧ (s2.step a).isSome) ∧
    (s2.callers c = .idle → ∀ t, ¬ liveMon s2 t) := by
  have hinv := moninv_run (moninv_new c) hb hs
  have hinv1 := moninv_step hinv (a := .stop c) rfl h1
  have hst : s1.monitoring = false ∧ s1.callers c = .cleared := by
    simp only [Mon.step] at h1
    split at h1
    · cases h1; simp
    · cases h1
  obtain ⟨k1, k2, k3⟩ := after_stop_run hinv1 hst.1 (by rw [hst.2]; simp) ha hn h2
  have hinv2 := moninv_run hinv1 ha h2
  have hh := hinv2.here
  rw [hst.2] at k2
  have hl : leftMon (curPc s1) ≤ 3 := by cases curPc s1 <;> simp [leftMon]
  have hl' : mayEmit (curPc s1) ≤ 1 := by cases curPc s1 <;> simp [mayEmit]
  refine ⟨by simp only [leftCall] at k2; omega, by omega, fun hne => ?_, fun hi => ?_⟩
  · rcases hc : s2.callers c with _ | _ | _ | _ | t
    · exact absurd hc hne
    · exact ⟨.go c, rfl, ⟨trivial, trivial⟩, by simp [Mon.step, hc]⟩
    · exact ⟨.go c, rfl, ⟨trivial, trivial⟩, by simp [Mon.step, hc]⟩
    · refine ⟨.go c, rfl, ⟨trivial, trivial⟩, ?_⟩
      simp only [Mon.step, hc]
      split <;> rfl
    · rw [hc] at hh
      have hlt := hinv2.range t hh.2
      by_cases he : s2.threads[t]? = some .ended
      · exact ⟨.go c, rfl, ⟨trivial, trivial⟩, by simp [Mon.step, hc, he]⟩
      · refine ⟨.tick t none, trivial, ⟨trivial, trivial⟩, ?_⟩
        rw [List.getElem?_eq_getElem hlt] at he
        simp only [Mon.step, List.getElem?_eq_getElem hlt]
        split
        · rename_i h'; exact absurd h' he
        · rfl
        · rename_i h'; cases h'
  · rw [hi] at hh
    exact hh k1

/-- Nothing can be added while no thread is alive and none is being started. -/
theorem dead_step {c : Nat} {s s' : Mon} {a : MonAct} (h : MonInv c s) (hl : ∀ t, ¬ liveMon s t)
    (hp : s.callers c ≠ .passed) (hf : s.callers c ≠ .flagged) (ha : onlyCaller c a)
    (hn : notStart a ∨ s.monitoring = true ∧ notStop a) (hs : s.step a = some s') :
    s'.data = s.data ∧ (∀ t, ¬ liveMon s' t) ∧ s'.callers c ≠ .passed ∧ s'.callers c ≠ .flagged ∧
    (notStop a → s'.monitoring = s.monitoring) := by
  cases a with
  | start c' =>
    obtain rfl : c' = c := ha
    rcases hn with hn | hn
    · exact absurd hn id
    simp only [Mon.step, hn.1, if_true] at hs
    split at hs
    · cases hs; exact ⟨rfl, hl, hp, hf, fun _ => rfl⟩
    · cases hs
  | stop c' =>
    obtain rfl : c' = c := ha
    simp only [Mon.step] at hs
    split at hs
    · cases hs
      exact ⟨rfl, hl, by simp, by simp, fun h => absurd h id⟩
    · cases hs
  | go c' =>
    obtain rfl : c' = c := ha
    simp only [Mon.step] at hs
    split at hs
    · cases hs
    · rename_i hc; exact absurd hc hp
    · rename_i hc; exact absurd hc hf
    · split at hs
      · cases hs; exact ⟨rfl, hl, by simp, by simp, fun _ => rfl⟩
      · cases hs; exact ⟨rfl, hl, by simp, by simp, fun _ => rfl⟩
    · split at hs
      · cases hs; exact ⟨rfl, hl, by simp, by simp, fun _ => rfl⟩
      · cases hs
  | tick t got =>
    simp only [Mon.step] at hs
    split at hs
    · cases hs
    · rename_i pc hne hpc
      exact absurd ⟨pc, hpc, hne⟩ (hl t)
    · cases hs

/-- **C166** When `stop_monitoring` has returned nothing is recorded until `start_monitoring` is called
again, when one caller uses the monitor. -/
theorem C166_stopped_partial (c : Nat) (before during after : List MonAct) (s s1 s2 s3 : Mon)
    (hb : ∀ a ∈ before, onlyCaller c a) (hs : Mon.new.run before = some s)
    (h1 : s.step (.stop c) = some s1) (hd : ∀ a ∈ during, onlyCaller c a) (hn : ∀ a ∈ during, noCall a)
    (h2 : s1.run during = some s2) (hret : s2.callers c = .idle)
    (ha : ∀ a ∈ after, onlyCaller c a) (hna : ∀ a ∈ after, notStart a) (h3 : s2.run after = some s3) :
    s3.data = s2.data := by
  have hinv := moninv_run (moninv_new c) hb hs
  have hinv2 := moninv_run (moninv_step hinv (a := .stop c) rfl h1) hd h2
  have hl := (C166_stop_partial c before during s s1 s2 hb hs h1 hd hn h2).2.2.2 hret
  have hp : s2.callers c ≠ .passed := by simp [hret]
  have hf : s2.callers c ≠ .flagged := by simp [hret]
  clear hs h1 h2 hret hinv hn hd hb
  induction after generalizing s2 with
  | nil => cases h3; rfl
  | cons a as ih =>
    simp only [Mon.run] at h3
    cases h1 : s2.step a with
    | none => rw [h1] at h3; cases h3
    | some s' =>
      rw [h1] at h3
      obtain ⟨g1, g2, g3, g4, -⟩ := dead_step hinv2 hl hp hf (ha a (by simp)) (.inl (hna a (by simp))) h1
      rw [← g1]
      exact ih s' (fun b hb => ha b (by simp [hb])) (fun b hb => hna b (by simp [hb])) h3
        (moninv_step hinv2 (ha a (by simp)) h1) g2 g3 g4

/-- **C166 (refuted), failures.** When taking a sample has failed once, calling `start_monitoring` again is
of no use: nothing is recorded until `stop_monitoring` has been called. -/
theorem C166_restart_refuted : ∃ (before : List MonAct) (s : Mon),
    Mon.new.run before = some s ∧ s.callers 0 = .idle ∧ (∀ a ∈ before, onlyCaller 0 a) ∧
    MonAct.start 0 ∈ before ∧
    ∀ (after : List MonAct) (s' : Mon), (∀ a ∈ after, onlyCaller 0 a ∧ notStop a) →
      s.run after = some s' → s'.data = s.data := by
  have hb : ∀ a ∈ [MonAct.start 0, .go 0, .go 0, .tick 0 (some ⟨0, 0, 0⟩), .tick 0 none, .tick 0 none],
      onlyCaller 0 a := by
    intro a ha
    simp only [List.mem_cons, List.not_mem_nil, or_false] at ha
    rcases ha with rfl | rfl | rfl | rfl | rfl | rfl <;> simp [onlyCaller]
  refine ⟨[.start 0, .go 0, .go 0, .tick 0 (some ⟨0, 0, 0⟩), .tick 0 none, .tick 0 none], _, rfl, rfl, hb,
    by simp, ?_⟩
  intro after s' ha hs
  have hinv := moninv_run (moninv_new 0) hb rfl
  have key : ∀ (as : List MonAct) (s : Mon), MonInv 0 s → s.monitoring = true → (∀ t, ¬ liveMon s t) →
      s.callers 0 ≠ .passed → s.callers 0 ≠ .flagged → (∀ a ∈ as, onlyCaller 0 a ∧ notStop a) →
      s.run as = some s' → s'.data = s.data := by
    intro as
    induction as with
    | nil => intro s _ _ _ _ _ _ h; cases h; rfl
    | cons a as ih =>
      intro s hi hm hl hp hf ha h3
      simp only [Mon.run] at h3
      cases h1 : s.step a with
      | none => rw [h1] at h3; cases h3
      | some s1 =>
        rw [h1] at h3
        have haa := ha a (by simp)
        obtain ⟨g1, g2, g3, g4, g5⟩ := dead_step hi hl hp hf haa.1 (.inr ⟨hm, haa.2⟩) h1
        rw [← g1]
        exact ih s1 (moninv_step hi haa.1 h1) ((g5 haa.2).trans hm) g2 g3 g4
          (fun b hb => ha b (by simp [hb])) h3
  refine key after _ hinv rfl ?_ (by decide) (by decide) ha hs
  rintro t ⟨pc, h1, h2⟩
  rcases t with _ | t
  · exact h2 (Option.some.inj h1).symm
  · change ([MonPc.ended] : List MonPc)[t + 1]? = some pc at h1
    simp at h1

/-- **C166 (refuted), two callers.** Two callers that start the monitor at the same time get two threads;
and after `stop_monitoring` has returned to one of them, a sample is still recorded. -/
theorem C166_two_callers_refuted :
    ∃ (acts : List MonAct) (x : Sample),
      (Mon.new.run acts).map Mon.threads = some [.sample, .sample] ∧
      (Mon.new.run (acts ++ [.stop 0, .go 0, .tick 1 (some x), .tick 1 (some x), .tick 1 none, .go 0])).map
        (fun s => (s.callers 0, s.data)) = some (.idle, [x]) ∧
      (Mon.new.run (acts ++ [.stop 0, .go 0, .tick 1 (some x), .tick 1 (some x), .tick 1 none, .go 0,
        .tick 0 (some x)])).map (fun s => (s.callers 0, s.data)) = some (.idle, [x, x]) :=
  ⟨[.start 0, .start 1, .go 0, .go 0, .go 1, .go 1, .tick 0 (some ⟨0, 0, 0⟩), .tick 1 (some ⟨0, 0, 0⟩),
    .tick 0 none, .tick 1 none], ⟨0, 0, 0⟩, by decide, by decide, by decide⟩

/-- A run with one caller that records a sample and stops. -/
example : (Mon.new.run [.start 3, .go 3, .go 3, .tick 0 (some ⟨0, 0, 0⟩), .tick 0 none,
    .tick 0 (some ⟨1, 5, 2⟩), .stop 3, .go 3, .tick 0 (some ⟨2, 0, 0⟩), .tick 0 none, .go 3]).map
    (fun s => (s.callers 3, s.data, s.threads)) = some (.idle, [⟨1, 5, 2⟩], [.ended]) := by decide +kernel

/-! ## C167: summary -/

theorem foldl_min (xs : List Rat) (x : Rat) :
    let m := xs.foldl (fun a b => if b < a then b else a) x
    m ∈ x :: xs ∧ ∀ y ∈ x :: xs, m ≤ y := by
  induction xs generalizing x with
  | nil => simp
  | cons b xs ih =>
    simp only [List.foldl_cons]
    obtain ⟨h1, h2⟩ := ih (if b < x then b else x)
    constructor
    · rcases List.mem_cons.1 h1 with h | h
      · rw [h]; split <;> simp
      · simp [h]
    · intro y hy
      have h3 := h2 _ (List.mem_cons_self)
      rcases List.mem_cons.1 hy with rfl | hy
      · refine le_trans h3 ?_
        split
        · rename_i h; exact le_of_lt h
        · exact le_refl _
      · rcases List.mem_cons.1 hy with rfl | hy
        · refine le_trans h3 ?_
          split
          · exact le_refl _
          · rename_i h; exact not_lt.1 h
        · exact h2 y (by simp [hy])

theorem foldl_max (xs : List Rat) (x : Rat) :
    let m := xs.foldl (fun a b => if a < b then b else a) x
    m ∈ x :: xs ∧ ∀ y ∈ x :: xs, y ≤ m := by
  induction xs generalizing x with
  | nil => simp
  | cons b xs ih =>
    simp only [List.foldl_cons]
    obtain ⟨h1, h2⟩ := ih (if x < b then b else x)
    constructor
    · rcases List.mem_cons.1 h1 with h | h
      · rw [h]; split <;> simp
      · simp [h]
    · intro y hy
      have h3 := h2 _ (List.mem_cons_self)
      rcases List.mem_cons.1 hy with rfl | hy
      · refine le_trans ?_ h3
        split
        · rename_i h; exact le_of_lt h
        · exact le_refl _
      · rcases List.mem_cons.1 hy with rfl | hy
        · refine le_trans ?_ h3
          split
          · exact le_refl _
          · rename_i h; exact not_lt.1 h
        · exact h2 y (by simp [hy])

theorem sumR_eq (xs : List Rat) (a : Rat) : xs.foldl (· + ·) a = a + xs.sum := by
  induction xs generalizing a with
  | nil => simp
  | cons x xs ih => simp [ih, add_assoc]

/-- The least, the greatest and the mean of the values. -/
def isRange (vals : List Rat) (r : Range3) : Prop :=
  r.min ∈ vals ∧ (∀ y ∈ vals, r.min ≤ y) ∧ r.max ∈ vals ∧ (∀ y ∈ vals, y ≤ r.max) ∧
  r.avg * vals.length = vals.sum ∧ r.min ≤ r.avg ∧ r.avg ≤ r.max

theorem range3_is (x : Rat) (xs : List Rat) : isRange (x :: xs) (range3 x xs) := by
  obtain ⟨h1, h2⟩ := foldl_min xs x
  obtain ⟨h3, h4⟩ := foldl_max xs x
  have hs : sumR (x :: xs) = (x :: xs).sum := by simp [sumR, sumR_eq]
  have hpos : (0 : Rat) < ((xs.length + 1 : Nat) : Rat) := by positivity
  have hlo : ∀ (l : List Rat) (m : Rat), (∀ y ∈ l, m ≤ y) → m * l.length ≤ l.sum := by
    intro l m
    induction l with
    | nil => simp
    | cons y l ih =>
      intro h
      have := ih (fun z hz => h z (by simp [hz]))
      have := h y (by simp)
      simp only [List.length_cons, List.sum_cons, Nat.cast_add, Nat.cast_one]
      linarith
  have hhi : ∀ (l : List Rat) (m : Rat), (∀ y ∈ l, y ≤ m) → l.sum ≤ m * l.length := by
    intro l m
    induction l with
    | nil => simp
    | cons y l ih =>
      intro h
      have := ih (fun z hz => h z (by simp [hz]))
      have := h y (by simp)
      simp only [List.length_cons, List.sum_cons, Nat.cast_add, Nat.cast_one]
      linarith
  have hl := hlo _ _ h2
  have hh := hhi _ _ h4
  refine ⟨h1, h2, h3, h4, ?_, ?_, ?_⟩
  · simp only [range3, List.length_cons]
    rw [hs]
    field_simp
  · simp only [range3]
    rw [le_div_iff₀ hpos, hs]
    exact hl
  · simp only [range3]
    rw [div_le_iff₀ hpos, hs]
    exact hh

/-- **C167** The summary tells the truth about the samples: there is none exactly when there are no samples,
minimum and maximum are attained, the average is the mean and lies between them, and the duration is that
between the first and the last sample. -/
theorem C167_summary (s : Mon) :
    (s.summary = none ↔ s.data = []) ∧
    ∀ m, s.summary = some m →
      isRange (s.data.map Sample.memory) m.memory ∧ isRange (s.data.map Sample.cpu) m.cpu ∧
      ∃ a z, s.data.head? = some a ∧ s.data.getLast? = some z ∧ m.duration = z.stamp - a.stamp := by
  unfold Mon.summary
  cases hd : s.data with
  | nil => simp
  | cons d ds =>
    refine ⟨by simp, fun m hm => ?_⟩
    cases hm
    refine ⟨range3_is _ _, range3_is _ _, d, ds.getLastD d, rfl, ?_, rfl⟩
    cases ds with
    | nil => rfl
    | cons e es => simp [List.getLastD, List.getLast?_cons_cons, List.getLast?_eq_getLast_of_ne_nil]

/-- **C167 (refuted), runs.** The summary is not one of the last run: a second run, which took no time,
is reported with the duration and the maximum of the first. -/
theorem C167_last_run_refuted : ∃ (first second : List MonAct) (m : MonSummary),
    (Mon.new.run first).map (fun s => (s.callers 0, s.monitoring)) = some (.idle, false) ∧
    ((Mon.new.run (first ++ second)).bind Mon.summary) = some m ∧
    (∀ t x, MonAct.tick t (some x) ∈ second → x.stamp = 100 ∧ x.memory ≤ 2) ∧
    m.duration = 99 ∧ m.memory.max = 9 := by
  refine ⟨[.start 0, .go 0, .go 0, .tick 0 (some ⟨0, 0, 0⟩), .tick 0 none, .tick 0 (some ⟨1, 9, 2⟩), .stop 0,
      .go 0, .tick 0 (some ⟨2, 0, 0⟩), .tick 0 none, .go 0],
    [.start 0, .go 0, .go 0, .tick 1 (some ⟨100, 0, 0⟩), .tick 1 none, .tick 1 (some ⟨100, 2, 2⟩), .stop 0,
      .go 0, .tick 1 (some ⟨100, 0, 0⟩), .tick 1 none, .go 0],
    ⟨99, ⟨2, 9, 11 / 2⟩, ⟨2, 2, 2⟩⟩, by decide +kernel, by decide +kernel, ?_, rfl, rfl⟩
  intro t x h
  simp only [List.mem_cons, List.not_mem_nil, MonAct.tick.injEq, Option.some.injEq, reduceCtorEq, and_false,
    or_false, false_or] at h
  rcases h with ⟨-, rfl⟩ | ⟨-, rfl⟩ | ⟨-, rfl⟩ <;> exact ⟨rfl, by decide +kernel⟩

/-- A summary of two samples. -/
example : Mon.summary { Mon.new with data := [⟨1, 4, 10⟩, ⟨3, 8, 0⟩] } =
    some ⟨2, ⟨4, 8, 6⟩, ⟨0, 10, 5⟩⟩ := by decide +kernel

end Valori.Props
