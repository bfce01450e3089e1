import Verif.Model.Logging

/-!
# Properties C157, C158: logging
-/

namespace Valori.Props

variable (attr : String → Option Nat)

/-- The standard level names. -/
def exAttr (s : String) : Option Nat :=
  if s = "DEBUG" then some 10 else if s = "INFO" then some 20 else if s = "WARNING" then some 30
  else if s = "ERROR" then some 40 else none

/-! ## C157 -/

/-- **C157** Whatever happened before, asking for a logger again changes nothing: it keeps its level
and its one handler, also when another level is asked for. -/
theorem C157_get_again (n : LogName) (l l' : String) (s : Loggers) :
    getLogger attr n l' (getLogger attr n l s) = getLogger attr n l s ∧
    ((s n).handlers = [] → ∃ v, (getLogger attr n l s) n = ⟨v, [⟨.stdout, v⟩]⟩ ∧
      (∀ x, attr l = some x → v = x) ∧ (attr l = none → v = 20)) ∧
    ∀ m ≠ n, getLogger attr n l s m = s m := by
  refine ⟨?_, ?_, ?_⟩
  · by_cases h : (s n).handlers ≠ []
    · simp [getLogger, h]
    · simp [getLogger, h]
  · intro h
    refine ⟨(attr l).getD 20, by simp [getLogger, h], ?_, ?_⟩
    · intro x hx; simp [hx]
    · intro hx; simp [hx]
  · intro m hm
    unfold getLogger
    split
    · rfl
    · simp [Function.update_of_ne hm]

/-- **C157** The level asked for is not always the level given: after any call for a logger of which
handlers were not attached, a later request for a lower level is without effect, so its debug
messages are lost. -/
theorem C157_level_refuted (n : LogName) (s : Loggers) (h : (s n).handlers = [])
    (hi : attr "INFO" = some 20) (hd : attr "DEBUG" = some 10) :
    (getLogger attr n "DEBUG" (getLogger attr n "INFO" s) n).level = 20 ∧
    logEmits (getLogger attr n "DEBUG" (getLogger attr n "INFO" s)) n 10 = [] ∧
    (getLogger attr n "DEBUG" s n).level = 10 := by
  obtain ⟨v, hv, hx, -⟩ := (C157_get_again attr n "INFO" "DEBUG" s).2.1 h
  obtain rfl := hx 20 hi
  rw [(C157_get_again attr n "INFO" "DEBUG" s).1]
  refine ⟨by rw [hv], ?_, ?_⟩
  · have he : effLevel (getLogger attr n "INFO" s) n = 20 := by
      unfold effLevel
      cases n <;> simp [List.tails, hv]
    unfold logEmits
    rw [he, if_pos (by omega)]
  · simp [getLogger, h, hd]

example : (freshLoggers ["m", "valori"]).handlers = [] ∧ exAttr "INFO" = some 20 ∧
    exAttr "DEBUG" = some 10 := by decide

/-- **C157** `setup_logging` replaces what it set up before: only the last configuration counts, the
root logger has one console handler and at most one file handler, and no other logger changes. -/
theorem C157_setup (c c' : LogSetup) (s : Loggers) :
    setupLogging attr c (setupLogging attr c' s) = setupLogging attr c s ∧
    (setupLogging attr c s []).handlers.map LogHandler.out =
      LogOut.stdout :: (if c.toFile then [LogOut.file c.file] else []) ∧
    (∀ h ∈ (setupLogging attr c s []).handlers, h.level = (setupLogging attr c s []).level) ∧
    (setupLogging attr c s []).level = (attr c.level).getD 20 ∧
    ∀ n ≠ [], setupLogging attr c s n = s n := by
  refine ⟨by simp [setupLogging], ?_, ?_, by simp [setupLogging], ?_⟩
  · cases hf : c.toFile <;> simp [setupLogging, hf]
  · cases hf : c.toFile <;> simp [setupLogging, hf]
  · intro n hn
    simp [setupLogging, Function.update_of_ne hn]

/-- A call that is not `setup_logging` of the debugging module. -/
def notDebugCall : LogCall → Bool
  | .debug .. => false
  | _ => true

/-- **C157** Handlers do not pile up: after any history of `get_logger`, `setup_logging` and log
calls every logger has at most one handler, the root at most two. -/
theorem C157_handlers (h : List LogCall) (hd : ∀ c ∈ h, notDebugCall c = true) (n : LogName) :
    (logAfter attr h n).handlers.length ≤ if n = [] then 2 else 1 := by
  suffices H : ∀ s : Loggers, (∀ n, (s n).handlers.length ≤ if n = [] then 2 else 1) →
      ∀ n, (h.foldl (logStep attr) s n).handlers.length ≤ if n = [] then 2 else 1 by
    refine H _ ?_ n
    intro n
    unfold freshLoggers
    split <;> simp
  have get : ∀ (m : LogName) (l : String) (s : Loggers),
      (∀ n, (s n).handlers.length ≤ if n = [] then 2 else 1) →
      ∀ n, (getLogger attr m l s n).handlers.length ≤ if n = [] then 2 else 1 := by
    intro m l s hs n
    unfold getLogger
    split
    · exact hs n
    · by_cases e : n = m
      · subst e
        simp only [Function.update_self, List.length_singleton]
        split <;> omega
      · simp only [Function.update_of_ne e]
        exact hs n
  induction h with
  | nil => exact fun s hs => hs
  | cons c h ih =>
    intro s hs
    refine ih (fun x hx => hd x (by simp [hx])) _ ?_
    have hc := hd c (by simp)
    cases c with
    | get m l => exact get m l s hs
    | log t l => exact get _ _ s hs
    | debug l f => simp [notDebugCall] at hc
    | setup c =>
      intro n
      by_cases e : n = []
      · subst e
        cases hf : c.toFile <;> simp [logStep, setupLogging, hf]
      · show (setupLogging attr c s n).handlers.length ≤ _
        rw [(C157_setup attr c c s).2.2.2.2 n e]
        exact hs n

/-- **C157** `setup_logging` of the debugging module does pile them up: `k` calls on a fresh
interpreter, and every message of sufficient level is written `k` times. -/
theorem C157_debug_setup_refuted (l : String) (v : Nat) (hl : attr l = some v) (k : Nat) (hk : 0 < k)
    (hv : 0 < v) (topic : String) (level : Nat) (hlev : v ≤ level) :
    let s := logAfter attr (List.replicate k (.debug l none))
    logEmits s [topic, "valori"] level = List.replicate k ⟨.stderr, 0⟩ := by
  intro s
  have key : ∀ k, 0 < k → logAfter attr (List.replicate k (.debug l none)) =
      Function.update freshLoggers ["valori"] ⟨v, List.replicate k ⟨.stderr, 0⟩⟩ := by
    intro k
    induction k with
    | zero => intro h; omega
    | succ k ih =>
      intro _
      rw [List.replicate_succ', logAfter, List.foldl_append]
      by_cases hk0 : k = 0
      · subst hk0
        simp [logStep, debugSetup, hl, freshLoggers]
      · have := ih (by omega)
        rw [logAfter] at this
        rw [this]
        simp [logStep, debugSetup, hl, List.replicate_succ']
  have hs : s = _ := key k hk
  have h1 : s [topic, "valori"] = ⟨0, []⟩ := by
    rw [hs, Function.update_of_ne (by simp)]; simp [freshLoggers]
  have h2 : s ["valori"] = ⟨v, List.replicate k ⟨.stderr, 0⟩⟩ := by rw [hs]; simp
  have h3 : s [] = ⟨30, []⟩ := by
    rw [hs, Function.update_of_ne (by simp)]; simp [freshLoggers]
  have he : effLevel s [topic, "valori"] = v := by
    unfold effLevel
    simp [List.tails, h1, h2, hv.ne']
  unfold logEmits
  rw [he, if_neg (by omega)]
  simp only [List.tails, List.flatMap_cons, h1, h2, h3, List.flatMap_nil, List.append_nil,
    List.nil_append]
  rw [if_neg (by simp; omega)]
  simp

example : exAttr "INFO" = some 20 ∧ 0 < 3 ∧ 20 ≤ 30 := by decide

/-- **C157** What one call of it does: with a known level it returns, gives the logger `valori` that
level, adds one handler for the console and, if a file is named, one for that file, neither of which
holds back any message; with an unknown level it raises `AttributeError` and changes nothing.  No other
logger is touched. -/
theorem C157_debug_setup (l : String) (file : Option String) (s : Loggers) :
    (∀ v, attr l = some v → (debugSetup attr l file s).1 = .ok () ∧
      ∃ added, (debugSetup attr l file s).2 ["valori"] = ⟨v, (s ["valori"]).handlers ++ added⟩ ∧
        (∀ h ∈ added, h.level = 0) ∧ added.map LogHandler.out = LogOut.stderr ::
          (match file with | some f => if f ≠ "" then [LogOut.file f] else [] | none => [])) ∧
    (attr l = none → debugSetup attr l file s = (.error .attribute, s)) ∧
    ∀ n ≠ ["valori"], (debugSetup attr l file s).2 n = s n := by
  refine ⟨fun v hv => ?_, fun hv => by simp [debugSetup, hv], fun n hn => ?_⟩
  · simp only [debugSetup, hv, true_and, Function.update_self]
    refine ⟨_, rfl, ?_, ?_⟩
    · rcases file with _ | f
      · simp
      · by_cases hf : f = "" <;> simp [hf]
    · rcases file with _ | f
      · simp
      · by_cases hf : f = "" <;> simp [hf]
  · cases hv : attr l with
    | none => simp [debugSetup, hv]
    | some v => simp [debugSetup, hv, Function.update_of_ne hn]

example : exAttr "INFO" = some 20 ∧ exAttr "LOUD" = none := by decide

/-! ## C158 -/

/-- **C158** Before anything is set up, a message on any logger reaches the console exactly from the
level WARNING on. -/
theorem C158_unset (n : LogName) (level : Nat) :
    logEmits freshLoggers n level = if 30 ≤ level then [⟨.lastResort, 30⟩] else [] := by
  have h1 : ∀ n : LogName, (n.tails.map fun a => (freshLoggers a).level).find? (· ≠ 0) = some 30 := by
    intro n
    induction n with
    | nil => simp [freshLoggers]
    | cons a n ih => simpa [freshLoggers] using ih
  have h2 : (n.tails.flatMap fun a => (freshLoggers a).handlers) = [] := by
    rw [List.flatMap_eq_nil_iff]
    intro a _
    unfold freshLoggers
    split <;> rfl
  unfold logEmits effLevel
  rw [h1, h2]
  by_cases h : level < 30
  · simp [h]
  · simp [h]


/-- A call of one of the helpers, with its own level. -/
def isHelperCall : LogCall → Bool
  | .log t l => helperLevel.contains (t, l)
  | _ => false

/-- After helper calls only, loggers are as in a fresh interpreter, or are the logger of a topic with
its one handler. -/
theorem helpers_inv (hi : attr "INFO" = some 20) (h : List LogCall)
    (hh : ∀ c ∈ h, isHelperCall c = true) (n : LogName) :
    logAfter attr h n = freshLoggers n ∨
      ∃ t, n = [t, "valori"] ∧ logAfter attr h n = ⟨20, [⟨.stdout, 20⟩]⟩ := by
  suffices H : ∀ s : Loggers, (∀ n, s n = freshLoggers n ∨
      ∃ t, n = [t, "valori"] ∧ s n = ⟨20, [⟨.stdout, 20⟩]⟩) →
      ∀ n, h.foldl (logStep attr) s n = freshLoggers n ∨
        ∃ t, n = [t, "valori"] ∧ h.foldl (logStep attr) s n = ⟨20, [⟨.stdout, 20⟩]⟩ from
    H _ (fun _ => .inl rfl) n
  induction h with
  | nil => exact fun s hs => hs
  | cons c h ih =>
    intro s hs
    refine ih (fun x hx => hh x (by simp [hx])) _ ?_
    have hc := hh c (by simp)
    cases c with
    | log t l =>
      intro n
      simp only [logStep, logVia, getLogger, hi, Option.getD_some]
      split
      · exact hs n
      · by_cases e : n = [t, "valori"]
        · subst e
          exact .inr ⟨t, rfl, by simp⟩
        · rw [Function.update_of_ne e]
          exact hs n
    | get _ _ => simp [isHelperCall] at hc
    | setup _ => simp [isHelperCall] at hc
    | debug _ _ => simp [isHelperCall] at hc

/-- **C158**, weaker form: as long as nobody sets up logging, every helper except `log_debug` writes
its message exactly once, to standard output, and `log_debug` writes nothing. -/
theorem C158_once_partial (hi : attr "INFO" = some 20) (h : List LogCall)
    (hh : ∀ c ∈ h, isHelperCall c = true) (t : String) (l : Nat) (ht : (t, l) ∈ helperLevel) :
    (logVia attr t l (logAfter attr h)).1 = if t = "debug" then [] else [⟨.stdout, 20⟩] := by
  have inv := helpers_inv attr hi h hh
  generalize logAfter attr h = s at inv
  have h0 : s [] = ⟨30, []⟩ := by
    rcases inv [] with e | ⟨t, e, -⟩
    · rw [e]; rfl
    · cases e
  have h1 : s ["valori"] = ⟨0, []⟩ := by
    rcases inv ["valori"] with e | ⟨t, e, -⟩
    · rw [e]; rfl
    · cases e
  have h2 : getLogger attr [t, "valori"] "INFO" s [t, "valori"] = ⟨20, [⟨.stdout, 20⟩]⟩ := by
    rcases inv [t, "valori"] with e | ⟨t', -, e⟩
    · simp [getLogger, e, freshLoggers, hi]
    · simp [getLogger, e]
  have h3 : ∀ m ≠ [t, "valori"], getLogger attr [t, "valori"] "INFO" s m = s m :=
    (C157_get_again attr [t, "valori"] "INFO" "INFO" s).2.2
  have h3a := (h3 ["valori"] (by simp)).trans h1
  have h3b := (h3 [] (by simp)).trans h0
  have he : effLevel (getLogger attr [t, "valori"] "INFO" s) [t, "valori"] = 20 := by
    unfold effLevel
    simp [List.tails, h2]
  simp only [logVia, logEmits, he, List.tails, List.flatMap_cons, h2, h3a, h3b, List.flatMap_nil]
  simp only [helperLevel, List.mem_cons, List.not_mem_nil, or_false, Prod.mk.injEq] at ht
  rcases ht with ⟨rfl, rfl⟩ | ⟨rfl, rfl⟩ | ⟨rfl, rfl⟩ | ⟨rfl, rfl⟩ | ⟨rfl, rfl⟩ | ⟨rfl, rfl⟩ |
    ⟨rfl, rfl⟩ | ⟨rfl, rfl⟩ | ⟨rfl, rfl⟩ <;> decide

example : (logVia exAttr "error" 40 (logAfter exAttr [.log "info" 20, .log "error" 40])).1 =
    [⟨.stdout, 20⟩] := by decide

/-- **C158** After `setup_logging` at level INFO or below every message of the helpers (but
`log_debug`) is written twice to the same standard output: by the topic's logger and by the root. -/
theorem C158_twice_refuted (hi : attr "INFO" = some 20) (h : List LogCall)
    (hh : ∀ c ∈ h, isHelperCall c = true) (c : LogSetup) (hc : c.toFile = false) (v : Nat)
    (hv : attr c.level = some v) (t : String) (l : Nat) (hl : 20 ≤ l) :
    (logVia attr t l (setupLogging attr c (logAfter attr h))).1 =
      ⟨.stdout, 20⟩ :: (if v ≤ l then [⟨.stdout, v⟩] else []) := by
  have inv := helpers_inv attr hi h hh
  generalize logAfter attr h = s at inv
  have e0 : setupLogging attr c s [] = ⟨v, [⟨.stdout, v⟩]⟩ := by simp [setupLogging, hv, hc]
  have e1 := (C157_setup attr c c s).2.2.2.2
  generalize setupLogging attr c s = s' at e0 e1
  have h1 : s' ["valori"] = ⟨0, []⟩ := by
    rw [e1 _ (by simp)]
    rcases inv ["valori"] with e | ⟨t, e, -⟩
    · rw [e]; rfl
    · cases e
  have h2 : getLogger attr [t, "valori"] "INFO" s' [t, "valori"] = ⟨20, [⟨.stdout, 20⟩]⟩ := by
    have := e1 [t, "valori"] (by simp)
    rcases inv [t, "valori"] with e | ⟨t', -, e⟩
    · simp [getLogger, this, e, freshLoggers, hi]
    · simp [getLogger, this, e]
  have h3 : ∀ m ≠ [t, "valori"], getLogger attr [t, "valori"] "INFO" s' m = s' m :=
    (C157_get_again attr [t, "valori"] "INFO" "INFO" s').2.2
  have h3a := (h3 ["valori"] (by simp)).trans h1
  have h3b := (h3 [] (by simp)).trans e0
  have he : effLevel (getLogger attr [t, "valori"] "INFO" s') [t, "valori"] = 20 := by
    unfold effLevel
    simp [List.tails, h2]
  simp only [logVia, logEmits, he, List.tails, List.flatMap_cons, h2, h3a, h3b, List.flatMap_nil]
  rw [if_neg (by omega), if_neg (by simp)]
  by_cases hvl : v ≤ l <;> simp [hl, hvl]

/-- At INFO messages come twice; at ERROR information still comes, once. -/
example : (logVia exAttr "info" 20 (setupLogging exAttr {} freshLoggers)).1 =
      [⟨.stdout, 20⟩, ⟨.stdout, 20⟩] ∧
    (logVia exAttr "info" 20 (setupLogging exAttr { level := "ERROR" } freshLoggers)).1 =
      [⟨.stdout, 20⟩] := by decide

/-- **C158** Debug messages of `log_debug` are never written, however logging is set up, unless the
caller gives the logger `valori.debug` another level before. -/
theorem C158_debug_refuted (hi : attr "INFO" = some 20) (h : List LogCall)
    (hg : ∀ n l, LogCall.get n l ∈ h → n ≠ ["debug", "valori"]) :
    (logVia attr "debug" 10 (logAfter attr h)).1 = [] := by
  have inv : ∀ s : Loggers, (s ["debug", "valori"] = ⟨0, []⟩ ∨ (s ["debug", "valori"]).level = 20 ∧
        (s ["debug", "valori"]).handlers ≠ []) →
      (h.foldl (logStep attr) s ["debug", "valori"] = ⟨0, []⟩ ∨
        (h.foldl (logStep attr) s ["debug", "valori"]).level = 20 ∧
        (h.foldl (logStep attr) s ["debug", "valori"]).handlers ≠ []) := by
    induction h with
    | nil => exact fun s hs => hs
    | cons c h ih =>
      intro s hs
      refine ih (fun n l hm => hg n l (by simp [hm])) _ ?_
      cases c with
      | get n l =>
        have hne := hg n l (by simp)
        rw [show logStep attr s (.get n l) ["debug", "valori"] = s ["debug", "valori"] from
          (C157_get_again attr n l l s).2.2 _ (Ne.symm hne)]
        exact hs
      | setup c =>
        rw [show logStep attr s (.setup c) ["debug", "valori"] = s ["debug", "valori"] from
          (C157_setup attr c c s).2.2.2.2 _ (by simp)]
        exact hs
      | debug l f =>
        have : logStep attr s (.debug l f) ["debug", "valori"] = s ["debug", "valori"] := by
          simp only [logStep, debugSetup]
          split
          · rfl
          · simp only
            rw [Function.update_of_ne (by simp)]
        rw [this]
        exact hs
      | log t l =>
        by_cases ht : t = "debug"
        · subst ht
          right
          rcases hs with hs | ⟨h1, h2⟩
          · simp [logStep, logVia, getLogger, hs, hi]
          · simp only [logStep, logVia, getLogger]
            rw [if_pos h2]
            exact ⟨h1, h2⟩
        · have : logStep attr s (.log t l) ["debug", "valori"] = s ["debug", "valori"] :=
            (C157_get_again attr [t, "valori"] "INFO" "INFO" s).2.2 _ (by simpa using Ne.symm ht)
          rw [this]
          exact hs
  have hs := inv freshLoggers (.inl rfl)
  change logAfter attr h ["debug", "valori"] = _ ∨ (logAfter attr h ["debug", "valori"]).level = 20 ∧
    (logAfter attr h ["debug", "valori"]).handlers ≠ [] at hs
  generalize logAfter attr h = s at hs
  have hl : (getLogger attr ["debug", "valori"] "INFO" s ["debug", "valori"]).level = 20 := by
    rcases hs with hs | ⟨h1, h2⟩
    · simp [getLogger, hs, hi]
    · simp [getLogger, h2, h1]
  have he : effLevel (getLogger attr ["debug", "valori"] "INFO" s) ["debug", "valori"] = 20 := by
    unfold effLevel
    simp [List.tails, hl]
  simp only [logVia, logEmits, he]
  rfl

example : ∀ n l, LogCall.get n l ∈ [LogCall.setup { level := "DEBUG" }, .debug "DEBUG" none,
    .get ["valori"] "DEBUG"] → n ≠ ["debug", "valori"] := by
  intro n l h
  simp at h
  simp [h]

end Valori.Props
