import Verif.Model.PipelineInfo
import Verif.Props.Pipeline

/-!
# Restarting a registry, errors of the pipeline, descriptions
-/

namespace Valori.Props

variable {σ D V M : Type}

/-! ## Restarting a registry -/

/-- A history of calls with their replies, newest first. -/
def regLog (R : Registry σ D) : List (RegOp σ D) → List (RegOp σ D × Except Err Unit)
  | [] => []
  | o :: ops => regLog (o.step R) ops ++ [(o, o.reply R)]

/-- The class known under a name after calls with these replies (newest first): the one of the last
successful `add_parser` or `remove_parser` of the name, a built-in one if there was none. -/
def classOf (B : Builtin σ D) (n : String) : List (RegOp σ D × Except Err Unit) → Option (ParserClass σ D)
  | [] => if n = "text" then some B.text else if n = "pdf" then some B.pdf else
      if n = "office" then some B.office else if n = "docling" then some B.docling else none
  | (.add m cls _, .ok ()) :: h => if n = m then some cls else classOf B n h
  | (.remove m, .ok ()) :: h => if n = m then none else classOf B n h
  | _ :: h => classOf B n h

theorem classes_step (R : Registry σ D) (hnd : R.classes.keys.Nodup) (o : RegOp σ D) :
    (o.step R).classes.keys.Nodup ∧ (o.step R).config = R.config ∧
    ∀ (B : Builtin σ D) h n, R.classes.get? n = classOf B n h →
      (o.step R).classes.get? n = classOf B n ((o, o.reply R) :: h) := by
  cases o with
  | start =>
    simp only [RegOp.step, RegOp.reply, Registry.start]
    split <;> exact ⟨hnd, rfl, fun B h n hh => by simpa [classOf] using hh⟩
  | add name cls cfg =>
    simp only [RegOp.step, RegOp.reply, Registry.add]
    cases cls cfg with
    | error e => exact ⟨hnd, rfl, fun B h n hh => by simpa [classOf] using hh⟩
    | ok p =>
      refine ⟨Dict.nodup_set hnd _ _, rfl, fun B h n hh => ?_⟩
      simp only [classOf, Dict.get?_set, hh]
  | remove name =>
    simp only [RegOp.step, RegOp.reply, Registry.remove]
    cases R.parsers.get? name with
    | none =>
      refine ⟨Dict.nodup_pop hnd _, rfl, fun B h n hh => ?_⟩
      simp only [classOf, Dict.get?_pop hnd, hh]
    | some p =>
      simp only
      cases p.close with
      | error e => exact ⟨hnd, rfl, fun B h n hh => by simpa [classOf] using hh⟩
      | ok u =>
        refine ⟨Dict.nodup_pop hnd _, rfl, fun B h n hh => ?_⟩
        simp only [classOf, Dict.get?_pop hnd, hh]
  | close =>
    simp only [RegOp.step, RegOp.reply, Registry.close]
    cases closeAll (R.parsers.vals.map ParserObj.close) <;>
      exact ⟨hnd, rfl, fun B h n hh => by simpa [classOf] using hh⟩

theorem classes_run (B : Builtin σ D) (R : Registry σ D) (hnd : R.classes.keys.Nodup)
    (h : List (RegOp σ D × Except Err Unit)) (hR : ∀ n, R.classes.get? n = classOf B n h)
    (ops : List (RegOp σ D)) :
    (ops.foldl RegOp.step R).config = R.config ∧ (ops.foldl RegOp.step R).classes.keys.Nodup ∧
    ∀ n, (ops.foldl RegOp.step R).classes.get? n = classOf B n (regLog R ops ++ h) := by
  induction ops generalizing R h with
  | nil => exact ⟨rfl, hnd, hR⟩
  | cons o ops ih =>
    obtain ⟨h1, h2, h3⟩ := classes_step R hnd o
    obtain ⟨g1, g2, g3⟩ := ih (o.step R) h1 ((o, o.reply R) :: h) fun n => h3 B h n (hR n)
    refine ⟨g1.trans h2, g2, fun n => ?_⟩
    simp only [List.foldl_cons, regLog, List.append_assoc, List.singleton_append]
    exact g3 n

theorem classes_after (B : Builtin σ D) (config : Conf) (ops : List (RegOp σ D)) :
    (regAfter B config ops).config = config ∧
    ∀ n, (regAfter B config ops).classes.get? n = classOf B n (regLog (.new B config) ops) := by
  obtain ⟨h1, -, h3⟩ := classes_run B (.new B config)
    (by simp [Registry.new, Dict.keys]) [] (by
      intro n
      simp only [Registry.new, classOf, Dict.get?]
      by_cases h1 : n = "text"
      · subst h1; rfl
      by_cases h2 : n = "pdf"
      · subst h2; rfl
      by_cases h3 : n = "office"
      · subst h3; rfl
      by_cases h4 : n = "docling"
      · subst h4; rfl
      simp [h1, h2, h3, h4, Ne.symm h1, Ne.symm h2, Ne.symm h3, Ne.symm h4]) ops
  refine ⟨h1, fun n => ?_⟩
  have := h3 n
  rw [List.append_nil] at this
  exact this

theorem closeAll_iff (l : List (Except Err Unit)) : closeAll l = .ok () ↔ ∀ x ∈ l, x = .ok () := by
  induction l with
  | nil => simp [closeAll]
  | cons x l ih =>
    cases x with
    | error e => simp [closeAll]
    | ok u => cases u; simp [closeAll, ih]

theorem startLoop_get (classes : Dict String (ParserClass σ D)) (items : List (String × Cfg))
    (hnd : (Dict.keys items).Nodup) (ps : Dict String (ParserObj σ D)) (n : String) (p : ParserObj σ D) :
    (startLoop classes items ps).get? n = some p ↔
      (∃ cfg cls, (n, cfg) ∈ items ∧ classes.get? n = some cls ∧ cls cfg = .ok p) ∨
      (ps.get? n = some p ∧ ∀ cfg cls, (n, cfg) ∈ items → classes.get? n = some cls →
        ∃ e, cls cfg = .error e) := by
  induction items generalizing ps with
  | nil => simp [startLoop]
  | cons it items ih =>
    obtain ⟨name, cfg⟩ := it
    have hnd' : name ∉ Dict.keys items ∧ (Dict.keys items).Nodup := by simpa [Dict.keys] using hnd
    have hno : ∀ c, (name, c) ∉ items := fun c hc => hnd'.1 (List.mem_map.2 ⟨_, hc, rfl⟩)
    unfold startLoop
    cases hc : classes.get? name with
    | none =>
      simp only
      rw [ih hnd'.2]
      by_cases hn : n = name
      · subst hn; simp [hc]
      · simp [hn]
    | some cls =>
      simp only
      cases hp : cls cfg with
      | error e =>
        simp only
        rw [ih hnd'.2]
        by_cases hn : n = name
        · subst hn
          simp [hc, hno, hp]
        · simp [hn]
      | ok q =>
        simp only
        rw [ih hnd'.2, Dict.get?_set]
        by_cases hn : n = name
        · subst hn
          simp [hc, hno, hp]
        · simp [hn]

/-- **C178.** A registry whose parsers all close without an error can be closed; if it is initialised
again, the parser available under a name is the one built with the entry of the configuration from the
class known under this name, whatever calls were made before. -/
theorem C178_restart (B : Builtin σ D) (config : Conf) (ops : List (RegOp σ D)) (items : Conf)
    (hc : getD config "parsers" (.dict []) = .dict items) (hnd : (Dict.keys items).Nodup) :
    let R := regAfter B config ops
    ((∀ q ∈ R.parsers, q.2.close = .ok ()) → R.close.1 = .ok ()) ∧
    ∀ R1, R.close = (.ok (), R1) → R1.start.1 = .ok () ∧
      ∀ path n p, n ≠ "" → (R1.start.2.getParser path (some n) = .ok p ↔
        ∃ cfg cls, (n, cfg) ∈ items ∧ classOf B n (regLog (.new B config) ops) = some cls ∧
          cls cfg = .ok p) := by
  intro R
  obtain ⟨h1, h2⟩ := classes_after B config ops
  refine ⟨fun hq => ?_, fun R1 hcl => ?_⟩
  · have : closeAll (R.parsers.vals.map ParserObj.close) = .ok () := by
      rw [closeAll_iff]
      intro x hx
      obtain ⟨p, hp, rfl⟩ := List.mem_map.1 hx
      obtain ⟨q, hq', rfl⟩ := List.mem_map.1 hp
      exact hq q hq'
    simp [Registry.close, this]
  · unfold Registry.close at hcl
    cases hcc : closeAll (R.parsers.vals.map ParserObj.close) with
    | error e => rw [hcc] at hcl; simp at hcl
    | ok u =>
      rw [hcc] at hcl
      simp only [Prod.mk.injEq, true_and] at hcl
      subst hcl
      have hcR : getD R.config "parsers" (.dict []) = .dict items := by
        show getD (regAfter B config ops).config _ _ = _
        rw [h1]; exact hc
      refine ⟨by simp [Registry.start, hcR], fun path n p hn => ?_⟩
      have hg : ({ R with parsers := [], init := false } : Registry σ D).start.2.getParser path (some n) =
          match (startLoop R.classes items []).get? n with
          | some p => .ok p
          | none => .error .parsing := by
        simp [Registry.start, hcR, Registry.getParser, hn]
        rfl
      rw [hg, ← h2 n]
      have hs := startLoop_get R.classes items hnd [] n p
      simp only [Dict.get?_nil, reduceCtorEq, false_and, or_false] at hs
      rw [← hs]
      cases (startLoop R.classes items []).get? n <;> simp

/-- **C178** (a parser that was added is still available after closing and initialising again): false;
without an entry in the configuration given to the constructor the name is unknown. -/
theorem C178_added_refuted (B : Builtin σ D) (config : Conf) (ops : List (RegOp σ D)) (items : Conf)
    (hc : getD config "parsers" (.dict []) = .dict items) (hnd : (Dict.keys items).Nodup)
    (n : String) (hn : n ≠ "") (hni : n ∉ Dict.keys items) (cls : ParserClass σ D) (cfg : Cfg)
    (R1 R2 R3 : Registry σ D) (hadd : (regAfter B config ops).add n cls cfg = (.ok (), R1))
    (hcl : R1.close = (.ok (), R2)) (hst : R2.start = (.ok (), R3)) (hinit : R1.init = true)
    (path : String) :
    (∃ p, R1.getParser path (some n) = .ok p) ∧ R3.getParser path (some n) = .error .parsing := by
  have hR1 : R1 = regAfter B config (ops ++ [.add n cls cfg]) := by
    simp only [regAfter, List.foldl_append, List.foldl_cons, List.foldl_nil, RegOp.step]
    simp only [regAfter] at hadd
    rw [hadd]
  constructor
  · obtain ⟨h, -⟩ := C119_registry B config ops n
    obtain ⟨p, -, hp, -, -⟩ := h cls cfg R1 hadd
    exact ⟨p, ((C70_choice R1 hinit path).1 n hn p).2 hp⟩
  · subst hR1
    obtain ⟨-, h⟩ := C178_restart B config (ops ++ [.add n cls cfg]) items hc hnd
    obtain ⟨-, h⟩ := h R2 hcl
    rw [hst] at h
    have h' := h path n
    cases hg : R3.getParser path (some n) with
    | ok p =>
      obtain ⟨c, -, hm, -⟩ := (h' p hn).1 hg
      exact absurd (List.mem_map.2 ⟨_, hm, rfl⟩) hni
    | error e =>
      have hR3 : R3.init = true := by
        have : R2.start.2.init = true := by
          unfold Registry.start at hst ⊢
          split at hst <;> simp_all
        rw [hst] at this
        exact this
      rw [(C70_choice R3 hR3 path).2.2.2.1 (some n) e hg]

/-- The configuration of the example registry. -/
def exRegConf : Conf := [("parsers", .dict [("text", .dict []), ("pdf", .dict [])])]

/-- "text" replaced, "csv" added, "pdf" removed. -/
def exRegOps : List (RegOp Nat String) :=
  [.start, .add "text" (fun _ => .ok (exParser "Mine" ["txt"])) .null,
    .add "csv" (fun _ => .ok (exParser "Csv" ["csv"])) .null, .add "bad" (fun _ => .error .other) .null,
    .remove "pdf"]

example : ∃ R1, (regAfter exBuiltin exRegConf exRegOps).close = (.ok (), R1) ∧
    ((regAfter exBuiltin exRegConf exRegOps).getParser "x" (some "csv")).map ParserObj.className = .ok "Csv" ∧
    (R1.start.2.getParser "x" (some "text")).map ParserObj.className = .ok "Mine" ∧
    (R1.start.2.getParser "x" (some "csv")).map ParserObj.className = .error .parsing ∧
    (R1.start.2.getParser "x" (some "pdf")).map ParserObj.className = .error .parsing :=
  ⟨_, rfl, by decide +kernel, by decide +kernel, by decide +kernel, by decide +kernel⟩

/-! ## Errors of the pipeline -/

/-- **C179.** Whatever goes wrong in a pipeline, callers see `ProcessingError`: when initialising, when
processing a document or a text, and in the entries of a batch.  A pipeline that is not initialised
refuses everything and touches nothing, and a failed `initialize` does not make a pipeline usable. -/
theorem C179_errors (E : PipeEnv σ D V M) (P : Pipe σ D) :
    (∀ e P', P.start E = (.error e, P') → e = .processing ∧ P'.init = P.init ∧ P'.config = P.config) ∧
    (∀ s path name e s', P.processDocument E s path name = (.error e, s') → e = .processing) ∧
    (∀ note s raw e s', P.processText note s raw = (.error e, s') → e = .processing) ∧
    (∀ s paths e s', P.batchProcess E s paths = (.error e, s') → e = .processing) ∧
    (∀ s paths es s', P.batchProcess E s paths = (.ok es, s') →
      ∀ path e, Entry.failed path e ∈ es → e = .processing ∧ path ∈ paths) ∧
    (P.init = false → ∀ s, (∀ path name, P.processDocument E s path name = (.error .processing, s)) ∧
      (∀ note raw, P.processText note s raw = (.error .processing, s)) ∧
      ∀ paths, P.batchProcess E s paths = (.error .processing, s)) := by
  have hdoc : ∀ s path name e s', P.processDocument E s path name = (.error e, s') → e = .processing := by
    intro s path name e s' h
    unfold Pipe.processDocument at h
    split_ifs at h
    · cases h; rfl
    · split at h
      · cases h; rfl
      · split at h
        · cases h; rfl
        · split at h
          · cases h; rfl
          · cases h
  refine ⟨?_, hdoc, ?_, ?_, ?_, ?_⟩
  · intro e P' h
    unfold Pipe.start at h
    split at h
    · split at h
      · cases h; exact ⟨rfl, rfl, rfl⟩
      · simp only at h
        split at h
        · split at h
          · cases h; exact ⟨rfl, rfl, rfl⟩
          · cases h
        · cases h; exact ⟨rfl, rfl, rfl⟩
    · cases h; exact ⟨rfl, rfl, rfl⟩
  · intro note s raw e s' h
    unfold Pipe.processText at h
    split_ifs at h
    · cases h; rfl
    · split at h
      · cases h; rfl
      · cases h
  · intro s paths e s' h
    unfold Pipe.batchProcess at h
    split_ifs at h
    · cases h; rfl
    · cases h
  · intro s paths es s' h
    unfold Pipe.batchProcess at h
    split_ifs at h
    · cases h
    simp only [Prod.mk.injEq, Except.ok.injEq] at h
    obtain ⟨rfl, -⟩ := h
    induction paths generalizing s with
    | nil => simp [batchDocs]
    | cons path paths ih =>
      intro p e hm
      unfold batchDocs at hm
      rcases hd : P.processDocument E s path none with ⟨e' | d, s1⟩
      · rw [hd] at hm
        simp only [List.mem_cons] at hm
        rcases hm with hm | hm
        · cases hm
          exact ⟨hdoc _ _ _ _ _ hd, List.mem_cons_self⟩
        · obtain ⟨h1, h2⟩ := ih s1 p e hm
          exact ⟨h1, List.mem_cons_of_mem _ h2⟩
      · rw [hd] at hm
        simp only [List.mem_cons, reduceCtorEq, false_or] at hm
        obtain ⟨h1, h2⟩ := ih s1 p e hm
        exact ⟨h1, List.mem_cons_of_mem _ h2⟩
  · intro hi s
    exact ⟨fun _ _ => by simp [Pipe.processDocument, hi], fun _ _ => by simp [Pipe.processText, hi],
      fun _ => by simp [Pipe.batchProcess, hi]⟩

/-- What the processors make of a document, in order, as a relation. -/
inductive Through : List (ProcObj σ D) → σ → D → σ → D → Prop
  | nil (s d) : Through [] s d s d
  | cons {p ps s d s1 d1 s2 d2} : p.run s d = (.ok d1, s1) → Through ps s1 d1 s2 d2 →
      Through (p :: ps) s d s2 d2

theorem runProcs_iff (ps : List (ProcObj σ D)) (s : σ) (d : D) (s' : σ) (d' : D) :
    runProcs ps s d = (.ok d', s') ↔ Through ps s d s' d' := by
  induction ps generalizing s d with
  | nil =>
    constructor
    · intro h; cases h; exact .nil _ _
    · intro h; cases h; rfl
  | cons p ps ih =>
    unfold runProcs
    constructor
    · intro h
      rcases hr : p.run s d with ⟨e | d1, s1⟩
      · rw [hr] at h; cases h
      · rw [hr] at h
        exact .cons hr ((ih s1 d1).1 h)
    · intro h
      cases h with
      | cons h1 h2 => rw [h1]; exact (ih _ _).2 h2

/-- **C180.** On an initialised pipeline `process_text` succeeds exactly when every processor in turn
succeeds, and answers the result of the last one with the list of processors added; `process_document`
does the same with what the parser answers.  So a text goes through the same processors as a file. -/
theorem C180_text (E : PipeEnv σ D V M) (P : Pipe σ D) (hP : P.init = true) :
    (∀ note s raw s' out, P.processText note s raw = (.ok out, s') ↔
      ∃ d, Through P.procs s raw s' d ∧ out = note d (P.procs.map ProcObj.kind)) ∧
    ∀ R, P.registry = some R → ∀ s path name s' out,
      (P.processDocument E s path name = (.ok out, s') ↔
        ∃ p s1 raw d, R.getParser path name = .ok p ∧ p.parse s path = (.ok raw, s1) ∧
          Through P.procs s1 raw s' d ∧
          out = E.annotate d ⟨path, P.parserName path name, P.procs.map ProcObj.kind⟩) := by
  constructor
  · intro note s raw s' out
    unfold Pipe.processText
    simp only [hP, Bool.not_true, Bool.false_eq_true, if_false]
    constructor
    · intro h
      rcases hr : runProcs P.procs s raw with ⟨e | d, s1⟩
      · rw [hr] at h; cases h
      · rw [hr] at h
        cases h
        exact ⟨d, (runProcs_iff _ _ _ _ _).1 hr, rfl⟩
    · rintro ⟨d, h, rfl⟩
      rw [(runProcs_iff _ _ _ _ _).2 h]
  · intro R hR s path name s' out
    unfold Pipe.processDocument
    simp only [hP, Bool.not_true, Bool.false_eq_true, if_false, hR, Registry.parseDocument]
    constructor
    · intro h
      cases hg : R.getParser path name with
      | error e => rw [hg] at h; cases h
      | ok p =>
        rw [hg] at h
        simp only at h
        rcases hp : p.parse s path with ⟨e | raw, s1⟩
        · rw [hp] at h; cases h
        · rw [hp] at h
          simp only at h
          rcases hr : runProcs P.procs s1 raw with ⟨e | d, s2⟩
          · rw [hr] at h; cases h
          · rw [hr] at h
            cases h
            exact ⟨p, s1, raw, d, rfl, hp, (runProcs_iff _ _ _ _ _).1 hr, rfl⟩
    · rintro ⟨p, s1, raw, d, h1, h2, h3, rfl⟩
      simp only [h1, h2, (runProcs_iff _ _ _ _ _).2 h3]

example : ∃ P', (Pipe.new exNested).start exPipe = (.ok (), P') ∧ P'.init = true ∧
    P'.processText (fun d ks => d ++ "@" ++ toString ks.length) 7 "hello" = (.ok "hello+cleaning@1", 7) :=
  ⟨_, rfl, rfl, by decide +kernel⟩

example : ∃ P', (Pipe.new [("processors", .dict [("cleaning", .dict []), ("chunking", .null)])]).start exPipe
    = (.error .processing, P') ∧ P'.init = false ∧ P'.procs.length = 1 ∧
    (P'.processText (fun d _ => d) 7 "hello") = (.error .processing, 7) :=
  ⟨_, rfl, rfl, rfl, by decide +kernel⟩

/-! ## Descriptions -/

theorem unavailable_get (ns : List String) (info : Dict String ParserInfo) (n : String) (x : ParserInfo) :
    (addUnavailable ns info).get? n = some x ↔
      info.get? n = some x ∨ (info.get? n = none ∧ n ∈ ns ∧ x = ⟨false, []⟩) := by
  induction ns generalizing info with
  | nil => simp [addUnavailable]
  | cons m ns ih =>
    unfold addUnavailable
    cases hm : info.get? m with
    | some y =>
      simp only
      rw [ih]
      by_cases hn : n = m
      · subst hn; simp [hm]
      · simp [hn]
    | none =>
      simp only
      rw [ih, Dict.get?_set]
      by_cases hn : n = m
      · subst hn
        rw [if_pos rfl]
        simp only [Option.some.injEq, hm]
        constructor
        · rintro (h | h)
          · exact .inr ⟨trivial, List.mem_cons_self, h.symm⟩
          · simp at h
        · rintro (h | h)
          · simp at h
          · exact .inl h.2.2.symm
      · simp [hn]

theorem info_get (ps : Dict String (ParserObj σ D)) (n : String) :
    Dict.get? (ps.map fun q => (q.1, (⟨true, q.2.formats⟩ : ParserInfo))) n =
      (ps.get? n).map fun p => ⟨true, p.formats⟩ := by
  induction ps with
  | nil => rfl
  | cons q ps ih =>
    obtain ⟨m, p⟩ := q
    by_cases h : m = n
    · simp [Dict.get?, h]
    · simp only [List.map_cons, Dict.get?, h, if_false]
      exact ih

/-- **C181.** After any calls, `get_parser_info` of an initialised registry lists as available exactly
the parsers that can be requested by name, with their formats, and as unavailable, without formats, the
other names of known classes; nothing else is listed.  Before initialisation and after closing the list
is empty. -/
theorem C181_parser_info (B : Builtin σ D) (config : Conf) (ops : List (RegOp σ D)) :
    let R := regAfter B config ops
    (R.init = false → R.info = []) ∧
    (R.init = true → ∀ n, n ≠ "" → ∀ x, (R.info.get? n = some x ↔
      (∃ p, (∀ path, R.getParser path (some n) = .ok p) ∧ x = ⟨true, p.formats⟩) ∨
      (∀ path, R.getParser path (some n) = .error .parsing) ∧
        (classOf B n (regLog (.new B config) ops)).isSome ∧ x = ⟨false, []⟩)) := by
  intro R
  obtain ⟨-, h2⟩ := classes_after B config ops
  refine ⟨fun hi => by simp [Registry.info, hi], fun hi n hn x => ?_⟩
  have hg : ∀ path, R.getParser path (some n) =
      match R.parsers.get? n with
      | some p => .ok p
      | none => .error .parsing := by
    intro path
    simp [Registry.getParser, hi, hn]
    rfl
  have hinfo : R.info = addUnavailable R.classes.keys (R.parsers.map fun q => (q.1, ⟨true, q.2.formats⟩)) := by
    simp [Registry.info, hi]
  rw [hinfo, unavailable_get, info_get, Dict.mem_keys, ← h2 n]
  simp only [hg]
  cases hp : R.parsers.get? n with
  | none =>
    simp only [Option.map_none, reduceCtorEq, true_and, false_or, forall_const, false_and, exists_false]
    exact Iff.rfl
  | some p =>
    simp only [Option.map_some, Option.some.injEq, reduceCtorEq, false_and, or_false, forall_const,
      Except.ok.injEq, exists_eq_left']
    exact eq_comm

/-- **C182.** The formats of a pipeline are those of its registry; a pipeline that is not initialised
supports none and describes itself as not initialised.  An initialised one names its processors in
order. -/
theorem C182_pipeline_info (P : Pipe σ D) :
    (P.init = false → P.formats = [] ∧ P.info = none) ∧
    (P.init = true → ∀ R, P.registry = some R → P.formats = R.formats ∧
      P.info = some ⟨P.procs.map ProcObj.kind, R.info, R.formats⟩) := by
  refine ⟨fun h => by simp [Pipe.formats, Pipe.info, h], fun h R hR => ?_⟩
  simp [Pipe.formats, Pipe.info, h, hR]

/-- **C182.** After a successful `initialize` with `parsers` nested as the registry reads it, the formats
are exactly those of the parsers that could be built; after `close` there are none. -/
theorem C182_formats (E : PipeEnv σ D V M) (P P' : Pipe σ D) (pc items : Conf)
    (h1 : getD P.config "parsers" (.dict []) = .dict pc) (h2 : getD pc "parsers" (.dict []) = .dict items)
    (hnd : (Dict.keys items).Nodup) (h : P.start E = (.ok (), P')) :
    (∀ x, x ∈ P'.formats ↔ ∃ n cfg cls p, (n, cfg) ∈ items ∧ classOf E.builtin n [] = some cls ∧
      cls cfg = .ok p ∧ x ∈ p.formats) ∧
    ∀ P2, P'.close = (.ok (), P2) → P2.formats = [] ∧ P2.info = none := by
  refine ⟨fun x => ?_, fun P2 hc => ?_⟩
  · have hreg : P'.init = true ∧ P'.registry = some
        { Registry.new E.builtin pc with
          parsers := startLoop (Registry.new E.builtin pc).classes items [], init := true } := by
      unfold Pipe.start at h
      rw [h1] at h
      simp only [Registry.start] at h
      rw [show getD (Registry.new E.builtin pc).config "parsers" (.dict []) = .dict items from h2] at h
      simp only at h
      split at h
      · split at h
        · cases h
        · cases h; exact ⟨rfl, rfl⟩
      · cases h
    rw [(C182_pipeline_info P').2 hreg.1 _ hreg.2 |>.1]
    simp only [Registry.formats, Bool.not_true, Bool.false_eq_true, if_false, List.mem_insertionSort,
      List.mem_dedup, List.mem_flatMap]
    have hcl := (classes_after E.builtin pc []).2
    have hnd2 := startLoop_nodup (Registry.new E.builtin pc).classes items [] List.nodup_nil
    constructor
    · rintro ⟨p, hp, hx⟩
      obtain ⟨⟨n, q⟩, hq, rfl⟩ := List.mem_map.1 hp
      have hg := Dict.get?_of_mem hnd2 hq
      rw [startLoop_get _ _ hnd] at hg
      simp only [Dict.get?_nil, reduceCtorEq, false_and, or_false] at hg
      obtain ⟨cfg, cls, g1, g2, g3⟩ := hg
      refine ⟨n, cfg, cls, q, g1, ?_, g3, hx⟩
      rw [← g2]; exact (hcl n).symm
    · rintro ⟨n, cfg, cls, p, g1, g2, g3, hx⟩
      refine ⟨p, ?_, hx⟩
      have hg : (startLoop (Registry.new E.builtin pc).classes items []).get? n = some p := by
        rw [startLoop_get _ _ hnd]
        refine .inl ⟨cfg, cls, g1, ?_, g3⟩
        rw [← g2]; exact hcl n
      exact List.mem_map.2 ⟨_, Dict.mem_of_get? hg, rfl⟩
  · obtain ⟨h1, h2⟩ := C117_close P' P2 hc
    have : P2.init = false := by simp_all
    exact (C182_pipeline_info P2).1 this

example : (regAfter exBuiltin exRegConf exRegOps).info =
    [("text", ⟨true, ["txt"]⟩), ("csv", ⟨true, ["csv"]⟩), ("office", ⟨false, []⟩), ("docling", ⟨false, []⟩)] := by
  decide +kernel

example : ∃ P', (Pipe.new exNested).start exPipe = (.ok (), P') ∧ P'.formats = ["md", "txt"] ∧
    P'.info.map PipeInfo.processors = some [.cleaning] := ⟨_, rfl, by decide +kernel, by decide +kernel⟩

end Valori.Props
