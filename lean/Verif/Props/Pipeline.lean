import Verif.Lemmas.Pipeline

/-!
# Properties of the parser registry and the processing pipeline (C68–C70, C117–C120)
-/

namespace Valori.Props
open Valori Spec

variable {σ D V M : Type}

/-! ## Batches of documents -/

/-- The entry for a path and the answer of processing it. -/
def IsEntry (path : String) (r : Except Err D) (e : Entry D) : Prop :=
  (∀ d, r = .ok d → e = .done d) ∧ ∀ x, r = .error x → e = .failed path x

/-- **C68.** An initialised pipeline answers a batch with one entry per path, in order: what processing
the path at that point answers, or an error record naming the path. -/
theorem C68_batch (E : PipeEnv σ D V M) (P : Pipe σ D) (hP : P.init = true) (s : σ) (paths : List String) :
    ∃ replies entries s', Calls (fun s path => P.processDocument E s path none) s paths replies s' ∧
      P.batchProcess E s paths = (.ok entries, s') ∧ entries.length = paths.length ∧
      ∀ (i : Nat) path, paths[i]? = some path →
        ∃ r e, replies[i]? = some r ∧ entries[i]? = some e ∧ IsEntry path r e := by
  obtain ⟨replies, hc, he⟩ := batchDocs_calls E P paths s
  have hlen : replies.length = paths.length := by
    have key : ∀ {t t' : σ} {as : List String} {rs : List (Except Err D)},
        Calls (fun s path => P.processDocument E s path none) t as rs t' → rs.length = as.length := by
      intro t t' as rs h
      induction h with
      | nil => rfl
      | cons _ _ ih => rw [List.length_cons, List.length_cons, ih]
    exact key hc
  refine ⟨replies, (batchDocs E P paths s).1, _, hc, ?_, ?_, ?_⟩
  · simp [Pipe.batchProcess, hP]
  · rw [he, List.length_zipWith, hlen, Nat.min_self]
  · intro i path hp
    have hi : i < replies.length := by rw [hlen]; exact (List.getElem?_eq_some_iff.1 hp).1
    have hr : replies[i]? = some replies[i] := List.getElem?_eq_getElem hi
    refine ⟨replies[i], _, hr, by rw [he, List.getElem?_zipWith, hp, hr], ?_⟩
    constructor
    · intro d hd; rw [hd]
    · intro x hx; rw [hx]

/-- **C68.** If the answer for a path does not depend on what was processed before (no processor
remembers), each entry is what processing its path alone answers, whatever the other paths are. -/
theorem C68_alone (E : PipeEnv σ D V M) (P : Pipe σ D) (hP : P.init = true)
    (hs : ∀ s s' path, (P.processDocument E s path none).1 = (P.processDocument E s' path none).1)
    (s : σ) (paths : List String) :
    ∃ entries s', P.batchProcess E s paths = (.ok entries, s') ∧ entries.length = paths.length ∧
      ∀ (i : Nat) path, paths[i]? = some path →
        ∃ e, entries[i]? = some e ∧ IsEntry path (P.processDocument E s path none).1 e := by
  obtain ⟨replies, entries, s', hc, hb, hl, hi⟩ := C68_batch E P hP s paths
  refine ⟨entries, s', hb, hl, fun i path hp => ?_⟩
  obtain ⟨r, e, hr, he, hie⟩ := hi i path hp
  refine ⟨e, he, ?_⟩
  have key : ∀ {t t' : σ} {as : List String} {rs : List (Except Err D)},
      Calls (fun s path => P.processDocument E s path none) t as rs t' →
      ∀ (i : Nat) a r, as[i]? = some a → rs[i]? = some r → r = (P.processDocument E s a none).1 := by
    intro t t' as rs h
    induction h with
    | nil => simp
    | @cons t t1 t2 a r as rs h _ ih =>
      intro i a' r' ha hr
      cases i with
      | zero =>
        simp only [List.getElem?_cons_zero, Option.some.injEq] at ha hr
        subst ha hr
        rw [← hs t s a]
        exact (congrArg Prod.fst h).symm
      | succ i =>
        simp only [List.getElem?_cons_succ] at ha hr
        exact ih i a' r' ha hr
  rw [← key hc i path r hp hr]
  exact hie

/-! ## Configuration of the parsers -/

/-- The parsers section as documented: the four parser names. -/
def DocumentedParsers (pc : Conf) : Prop := ∀ k ∈ pc.keys, k ∈ ["text", "pdf", "office", "docling"]

theorem pp_registry (B : Builtin σ D) (pc : Conf) (hd : pc.get? "parsers" = none) :
    ∃ R, (Registry.new B pc).start = (.ok (), R) ∧ R.parsers = [] ∧ R.init = true := by
  refine ⟨{ Registry.new B pc with parsers := [], init := true }, ?_, rfl, rfl⟩
  unfold Registry.start
  have : getD (Registry.new B pc).config "parsers" (.dict []) = .dict [] := by
    simp [getD, Registry.new, hd]
  rw [this]
  rfl

theorem pp_none (pc : Conf) (hd : DocumentedParsers pc) : pc.get? "parsers" = none := by
  rw [Dict.get?_eq_none]
  intro h
  have := hd _ h
  revert this
  decide

theorem pp_noparser (E : PipeEnv σ D V M) (P P' : Pipe σ D) (pc : Conf)
    (hp : P.config.get? "parsers" = some (.dict pc)) (hd : DocumentedParsers pc)
    (h : P.start E = (.ok (), P')) (s : σ) (path : String) (name : Option String) :
    P'.processDocument E s path name = (.error .processing, s) := by
  obtain ⟨pc', R, conf, h1, h2, -, -, -, h3, h4⟩ := pipeStart_ok E P P' h
  have : pc' = pc := by
    simp only [getD, hp, Option.getD_some, Cfg.dict.injEq] at h1
    exact h1.symm
  subst this
  obtain ⟨R', g1, g2, g3⟩ := pp_registry E.builtin pc' (pp_none pc' hd)
  have hR : R = R' := by
    rw [h2] at g1
    exact congrArg Prod.snd g1
  subst hR
  have hg : R.getParser path name = .error .parsing := by
    unfold Registry.getParser
    rw [g3, g2]
    simp only [Bool.not_true, Bool.false_eq_true, if_false]
    split_ifs with hn
    · rfl
    · have : R.suitable path = [] := by
        rw [suitable_nil, g2]
        simp
      rw [this]
      rfl
  unfold Pipe.processDocument
  rw [h4, h3]
  simp only [Bool.not_true, Bool.false_eq_true, if_false, Registry.parseDocument, hg]

/-- **C69 (refuted).** After initialising a pipeline with a parsers section as documented, every
document fails, whatever the file, the requested parser and the parser classes. -/
theorem C69_parse_refuted (E : PipeEnv σ D V M) (P P' : Pipe σ D) (pc : Conf)
    (hp : P.config.get? "parsers" = some (.dict pc)) (hd : DocumentedParsers pc)
    (h : P.start E = (.ok (), P')) (s : σ) (path : String) (name : Option String) :
    (P'.processDocument E s path name).1 = .error .processing := by
  rw [pp_noparser E P P' pc hp hd h]

/-- **C69 (partial).** With the section nested twice under "parsers", a file that some configured parser
accepts is parsed by a registered parser and goes through the processors, and fails only if one of
these raises. Missing: the documented configuration (`C69_parse_refuted`). -/
theorem C69_parse_partial (E : PipeEnv σ D V M) (P P' : Pipe σ D) (n : String) (cfg : Cfg)
    (hp : P.config.get? "parsers" = some (.dict [("parsers", .dict [(n, cfg)])]))
    (cls : ParserClass σ D) (hn : (Registry.new E.builtin []).classes.get? n = some cls)
    (p : ParserObj σ D) (hc : cls cfg = .ok p) (h : P.start E = (.ok (), P')) (s s1 s2 : σ) (path : String)
    (ha : p.canParse path = true) (d d' : D) (hparse : p.parse s path = (.ok d, s1))
    (hrun : runProcs P'.procs s1 d = (.ok d', s2)) :
    P'.processDocument E s path none =
      (.ok (E.annotate d' ⟨path, p.className, P'.procs.map ProcObj.kind⟩), s2) := by
  obtain ⟨pc', R, conf, h1, h2, -, -, -, h3, h4⟩ := pipeStart_ok E P P' h
  have hpc : pc' = [("parsers", .dict [(n, cfg)])] := by
    simp only [getD, hp, Option.getD_some, Cfg.dict.injEq] at h1
    exact h1.symm
  subst hpc
  have hR : R = { Registry.new E.builtin [("parsers", .dict [(n, cfg)])] with
      parsers := [(n, p)], init := true } := by
    have : (Registry.new E.builtin [("parsers", .dict [(n, cfg)])]).start = (.ok (),
        { Registry.new E.builtin [("parsers", .dict [(n, cfg)])] with
          parsers := [(n, p)], init := true }) := by
      have hl : startLoop (Registry.new E.builtin [("parsers", .dict [(n, cfg)])]).classes [(n, cfg)] [] =
          [(n, p)] := by
        have hn' : (Registry.new E.builtin [("parsers", .dict [(n, cfg)])]).classes.get? n = some cls := hn
        simp only [startLoop, hn', hc]
        rfl
      unfold Registry.start
      have hg : getD (Registry.new E.builtin [("parsers", .dict [(n, cfg)])]).config "parsers"
          (.dict []) = .dict [(n, cfg)] := rfl
      rw [hg]
      simp only
      rw [← hl]
      rfl
    rw [h2] at this
    exact congrArg Prod.snd this
  have hget : R.getParser path none = .ok p := by
    rw [hR]
    simp [Registry.getParser, Registry.suitable, ha]
  unfold Pipe.processDocument
  rw [h4, h3]
  simp only [Bool.not_true, Bool.false_eq_true, if_false, Registry.parseDocument, hget, hparse, hrun]
  have : P'.parserName path none = p.className := by
    simp [Pipe.parserName, h3, hget]
  rw [this]

/-! ## Choice of the parser -/

/-- `p` is the first of the parsers with greatest priority among those accepting the file. -/
def IsBest (prio : String → Int) (path : String) (ps : List (String × ParserObj σ D)) (p : ParserObj σ D) :
    Prop :=
  ∃ before name after, ps = before ++ (name, p) :: after ∧ p.canParse path = true ∧
    (∀ q ∈ before, q.2.canParse path = true → prio q.1 < prio name) ∧
    ∀ q ∈ after, q.2.canParse path = true → prio q.1 ≤ prio name

/-- **C70.** `get_parser` of an initialised registry: a requested parser is answered exactly when it is
registered; without a request the answer is the first of greatest priority (0 for names without one)
among those accepting the file, and it raises exactly when none does. -/
theorem C70_choice (R : Registry σ D) (hR : R.init = true) (path : String) :
    (∀ n, n ≠ "" → ∀ p, R.getParser path (some n) = .ok p ↔ R.parsers.get? n = some p) ∧
      (∀ p, R.getParser path none = .ok p →
        IsBest (fun n => (R.priorities.get? n).getD 0) path R.parsers p) ∧
      ((∃ e, R.getParser path none = .error e) ↔ ∀ q ∈ R.parsers, q.2.canParse path = false) ∧
      (∀ n e, R.getParser path n = .error e → e = .parsing) ∧
      R.getParser path (some "") = R.getParser path none := by
  have hnone : R.getParser path none = match (R.suitable path).insertionSort fun a b => b.1 ≤ a.1 with
      | [] => .error .parsing
      | (_, p) :: _ => .ok p := by
    unfold Registry.getParser
    rw [hR]
    rfl
  refine ⟨?_, ?_, ?_, ?_, rfl⟩
  · intro n hn p
    simp only [Registry.getParser, hR, Bool.not_true, Bool.false_eq_true, if_false, Option.getD_some, hn,
      ne_eq, not_false_eq_true, if_true]
    cases R.parsers.get? n <;> simp
  · intro p hp
    rw [hnone] at hp
    cases hs : (R.suitable path).insertionSort fun a b => b.1 ≤ a.1 with
    | nil => rw [hs] at hp; cases hp
    | cons x xs =>
      rw [hs] at hp
      obtain ⟨k, q⟩ := x
      simp only [Except.ok.injEq] at hp
      subst hp
      obtain ⟨pre, post, he, h1, h2⟩ := sort_head _ _ _ hs
      obtain ⟨before, name, after, g⟩ := suitable_split R path _ pre post he h1 h2
      exact ⟨before, name, after, g⟩
  · rw [← suitable_nil, hnone]
    have hlen := List.length_insertionSort (fun (a b : Int × ParserObj σ D) => b.1 ≤ a.1) (R.suitable path)
    cases hs : (R.suitable path).insertionSort fun a b => b.1 ≤ a.1 with
    | nil =>
      rw [hs] at hlen
      simp [List.length_eq_zero_iff.1 hlen.symm]
    | cons x xs =>
      rw [hs] at hlen
      simp only [reduceCtorEq, exists_false, false_iff]
      intro h
      rw [h] at hlen
      simp at hlen
  · intro n e h
    unfold Registry.getParser at h
    rw [hR] at h
    simp only [Bool.not_true, Bool.false_eq_true, if_false] at h
    split_ifs at h with hn
    · cases hg : R.parsers.get? (n.getD "") <;> rw [hg] at h <;> simp at h
      exact h.symm
    · cases hs : (R.suitable path).insertionSort fun a b => b.1 ≤ a.1 with
      | nil => rw [hs] at h; simp at h; exact h.symm
      | cons x xs => rw [hs] at h; simp at h

/-- A parser for one suffix, answering its own name. -/
def exParser (name : String) (accepts : List String) : ParserObj Nat String where
  className := name
  formats := accepts
  canParse := fun p => decide (p ∈ accepts)
  parse := fun s p => (.ok (name ++ ":" ++ p), s + 1)
  close := .ok ()

/-- Built-in classes: office does not initialise. -/
def exBuiltin : Builtin Nat String where
  text := fun _ => .ok (exParser "TextParser" ["txt", "md"])
  pdf := fun _ => .ok (exParser "PDFParser" ["pdf"])
  office := fun _ => .error .parsing
  docling := fun _ => .ok (exParser "DoclingParser" ["pdf", "md"])

/-- A registry with three parsers. -/
def exReg : Registry Nat String :=
  (Registry.new exBuiltin [("parsers", .dict [("text", .dict []), ("office", .dict []), ("pdf", .dict []),
    ("docling", .dict []), ("unknown", .dict [])])]).start.2

example : exReg.init = true ∧ exReg.parsers.keys = ["text", "pdf", "docling"] ∧
    (exReg.getParser "md" none).map ParserObj.className = .ok "DoclingParser" ∧
    (exReg.getParser "txt" none).map ParserObj.className = .ok "TextParser" ∧
    (exReg.getParser "txt" (some "pdf")).map ParserObj.className = .ok "PDFParser" ∧
    (exReg.getParser "doc" none).map ParserObj.className = .error .parsing := by decide +kernel

/-- An environment for the examples: processors append their name. -/
def exPipe : PipeEnv Nat String Nat Nat where
  builtin := exBuiltin
  mkProc := fun k c => if c = .null then .error .other else
    .ok ⟨k, fun s d => (.ok (d ++ "+" ++ k.key), s), .ok ()⟩
  annotate := fun d m => d ++ "@" ++ m.parserUsed
  embedding := fun d => some d.length
  info := fun d => some d.length

/-- The configuration of the README. -/
def exReadme : Conf :=
  [("parsers", .dict [("text", .dict [("chunk_size", .int 1000)])]),
   ("processors", .dict [("cleaning", .dict []), ("chunking", .dict []), ("embedding", .dict [])])]

example : DocumentedParsers [("text", .dict [("chunk_size", .int 1000)])] := by
  unfold DocumentedParsers; decide +kernel

example : ∃ P', (Pipe.new exReadme).start exPipe = (.ok (), P') ∧
    P'.batchProcess exPipe 0 ["txt", "pdf"] = (.ok [.failed "txt" .processing, .failed "pdf" .processing], 0) :=
  ⟨_, rfl, by decide +kernel⟩

/-- A configuration that works. -/
def exNested : Conf :=
  [("parsers", .dict [("parsers", .dict [("text", .dict [])])]), ("processors", .dict [("cleaning", .dict [])])]

example : ∃ P', (Pipe.new exNested).start exPipe = (.ok (), P') ∧
    P'.batchProcess exPipe 0 ["txt", "pdf", "md"] = (.ok [.done "TextParser:txt+cleaning@TextParser",
      .failed "pdf" .processing, .done "TextParser:md+cleaning@TextParser"], 2) :=
  ⟨_, rfl, by decide +kernel⟩

/-! ## Initialising the pipeline -/

/-- The processors a configuration asks for. -/
def wanted (config : Conf) : List ProcKind :=
  match config.get? "processors" with
  | some (.dict conf) => [.cleaning, .chunking, .embedding].filter fun k => (Dict.get? conf k.key).isSome
  | _ => []

theorem pp_wanted (config conf : Conf) (h : getD config "processors" (.dict []) = .dict conf) :
    wanted config = [.cleaning, .chunking, .embedding].filter fun k => (conf.get? k.key).isSome := by
  unfold wanted
  unfold getD at h
  cases hc : config.get? "processors" with
  | none =>
    rw [hc] at h
    simp only [Option.getD_none, Cfg.dict.injEq] at h
    subst h
    rfl
  | some c =>
    rw [hc] at h
    simp only [Option.getD_some] at h
    subst h
    rfl

/-- **C117 (partial).** A pipeline without processors (new, or closed) that initialises has exactly the
processors of the configuration, in the order cleaning, chunking, embedding. Missing: initialising
again, see `C117_again_refuted` and `C117_retry_refuted`. -/
theorem C117_init_partial (E : PipeEnv σ D V M) (hk : ∀ k c p, E.mkProc k c = .ok p → p.kind = k)
    (P P' : Pipe σ D) (hP : P.procs = []) (h : P.start E = (.ok (), P')) :
    P'.procs.map ProcObj.kind = wanted P.config ∧ P'.init = true := by
  obtain ⟨pc, R, conf, -, -, h1, h2, -, -, h3⟩ := pipeStart_ok E P P' h
  obtain ⟨new, g1, g2⟩ := startProcs_spec E hk conf _ _ _ h2
  rw [g1, hP, List.nil_append, g2, pp_wanted _ _ h1]
  exact ⟨rfl, h3⟩

/-- **C117.** Closing without an exception leaves a pipeline without processors. -/
theorem C117_close (P P' : Pipe σ D) (h : P.close = (.ok (), P')) :
    P'.procs = [] ∧ P'.init = false ∧ P'.config = P.config := by
  unfold Pipe.close at h
  cases hc : closeAll (P.procs.map ProcObj.close) with
  | error e => rw [hc] at h; simp at h
  | ok u =>
    rw [hc] at h
    simp only at h
    cases hr : P.registry with
    | none =>
      rw [hr] at h
      simp only [Prod.mk.injEq, true_and] at h
      subst h
      exact ⟨rfl, rfl, rfl⟩
    | some R =>
      rw [hr] at h
      simp only at h
      rcases hq : R.close with ⟨e | u, R'⟩
      · rw [hq] at h; simp at h
      · rw [hq] at h
        simp only [Prod.mk.injEq, true_and] at h
        subst h
        exact ⟨rfl, rfl, rfl⟩

/-- **C117 (refuted).** Initialising an initialised pipeline again gives every processor twice. -/
theorem C117_again_refuted (E : PipeEnv σ D V M) (hk : ∀ k c p, E.mkProc k c = .ok p → p.kind = k)
    (config : Conf) (P P' : Pipe σ D) (h1 : (Pipe.new config).start E = (.ok (), P))
    (h2 : P.start E = (.ok (), P')) :
    P'.procs.map ProcObj.kind = wanted config ++ wanted config := by
  obtain ⟨g1, -⟩ := C117_init_partial E hk _ P rfl h1
  obtain ⟨-, -, -, -, -, -, -, hc, -, -⟩ := pipeStart_ok E _ P h1
  obtain ⟨pc, R, conf, -, -, k1, k2, -, -, -⟩ := pipeStart_ok E P P' h2
  obtain ⟨new, k3, k4⟩ := startProcs_spec E hk conf _ _ _ k2
  rw [k3, List.map_append, g1, k4, ← pp_wanted _ _ k1, hc]
  rfl

/-- **C117 (refuted).** A configuration with all three processors whose embedding processor does not
initialise at first leaves the other two behind: initialising successfully afterwards gives them
twice. -/
theorem C117_retry_refuted (E E' : PipeEnv σ D V M) (hk : ∀ k c p, E.mkProc k c = .ok p → p.kind = k)
    (hk' : ∀ k c p, E'.mkProc k c = .ok p → p.kind = k) (config : Conf) (P P' : Pipe σ D)
    (c1 c2 c3 : Cfg) (p1 p2 : ProcObj σ D) (err : Err)
    (hc : config.get? "processors" = some (.dict [("cleaning", c1), ("chunking", c2), ("embedding", c3)]))
    (m1 : E.mkProc .cleaning c1 = .ok p1) (m2 : E.mkProc .chunking c2 = .ok p2)
    (m3 : E.mkProc .embedding c3 = .error err) (hreg : ∃ pc, config.get? "parsers" = some (.dict pc) ∧
      DocumentedParsers pc)
    (h1 : (Pipe.new config).start E = (.error .processing, P)) (h2 : P.start E' = (.ok (), P')) :
    P'.procs.map ProcObj.kind = [.cleaning, .chunking, .cleaning, .chunking, .embedding] := by
  obtain ⟨pc, hpc, hd⟩ := hreg
  obtain ⟨R, r1, -, -⟩ := pp_registry E.builtin pc (pp_none pc hd)
  have hP : P = { (Pipe.new config : Pipe σ D) with registry := some R, procs := [p1, p2] } := by
    have hs : startProcs E [("cleaning", c1), ("chunking", c2), ("embedding", c3)]
        [.cleaning, .chunking, .embedding] ([] : List (ProcObj σ D)) = (.error err, [p1, p2]) := by
      have e1 : Dict.get? [("cleaning", c1), ("chunking", c2), ("embedding", c3)] ProcKind.cleaning.key =
        some c1 := rfl
      have e2 : Dict.get? [("cleaning", c1), ("chunking", c2), ("embedding", c3)] ProcKind.chunking.key =
        some c2 := rfl
      have e3 : Dict.get? [("cleaning", c1), ("chunking", c2), ("embedding", c3)] ProcKind.embedding.key =
        some c3 := rfl
      simp only [startProcs, e1, e2, e3, m1, m2, m3]
      rfl
    unfold Pipe.start at h1
    have q1 : getD (Pipe.new config : Pipe σ D).config "parsers" (.dict []) = .dict pc := by
      simp [getD, Pipe.new, hpc]
    have q2 : getD config "processors" (.dict []) =
        .dict [("cleaning", c1), ("chunking", c2), ("embedding", c3)] := by
      simp [getD, hc]
    rw [q1] at h1
    simp only [r1, Pipe.new, q2, hs, Prod.mk.injEq, true_and] at h1
    exact h1.symm
  obtain ⟨pc', R', conf, -, -, k1, k2, -, -, -⟩ := pipeStart_ok E' P P' h2
  obtain ⟨new, k3, k4⟩ := startProcs_spec E' hk' conf _ _ _ k2
  have hconf : conf = [("cleaning", c1), ("chunking", c2), ("embedding", c3)] := by
    rw [hP] at k1
    simp only [getD, Pipe.new, hc, Option.getD_some, Cfg.dict.injEq] at k1
    exact k1.symm
  rw [k3, List.map_append, k4, hconf, hP]
  simp only [List.map_cons, List.map_nil, hk _ _ _ m1, hk _ _ _ m2]
  rfl

example : wanted exReadme = [.cleaning, .chunking, .embedding] := by decide +kernel

example : ∀ k c p, exPipe.mkProc k c = .ok p → p.kind = k := by
  intro k c p h
  unfold exPipe at h
  simp only at h
  split_ifs at h
  rw [Except.ok.injEq] at h
  rw [← h]

example : ∃ P P', (Pipe.new exReadme).start exPipe = (.ok (), P) ∧ P.start exPipe = (.ok (), P') ∧
    P'.procs.length = 6 := ⟨_, _, rfl, rfl, by decide +kernel⟩

/-! ## Vectors from files -/

/-- **C118 (refuted).** `create_vectors_from_files` never answers: for every list of files, parser and
model it raises, `ValueError` once its pipeline has been set up and closed. -/
theorem C118_files_refuted (E : PipeEnv σ D V M) (s : σ) (paths : List String) (name : Option String)
    (model : String) :
    (∃ e, (vectorsFromFiles E s paths name model).1 = .error e) ∧
      ∀ P P', (Pipe.new (filesConf model)).start E = (.ok (), P) → P.close = (.ok (), P') →
        (vectorsFromFiles E s paths name model).1 = .error .value := by
  have hdoc : DocumentedParsers [("text", .dict [("chunk_size", .int 1000)]),
      ("pdf", .dict [("chunk_size", .int 1000)]), ("office", .dict [("chunk_size", .int 1000)])] := by
    unfold DocumentedParsers
    decide +kernel
  have key : ∀ P, (Pipe.new (filesConf model)).start E = (.ok (), P) →
      (filesLoop E P name paths s ([], [])).1 = ([], []) := by
    intro P hP
    apply filesLoop_fail
    intro t path
    exact ⟨_, _, pp_noparser E _ P _ rfl hdoc hP t path name⟩
  unfold vectorsFromFiles
  rcases hst : (Pipe.new (filesConf model) : Pipe σ D).start E with ⟨e | u, P⟩
  · refine ⟨⟨e, rfl⟩, fun P P' h => ?_⟩
    simp at h
  · have hk := key P hst
    simp only [hk]
    rcases hcl : P.close with ⟨e | u, P1⟩
    · refine ⟨⟨e, rfl⟩, fun P2 P' h h' => ?_⟩
      simp only [Prod.mk.injEq, true_and] at h
      subst h
      rw [hcl] at h'
      simp at h'
    · exact ⟨⟨_, rfl⟩, fun _ _ _ _ => rfl⟩

example : (vectorsFromFiles exPipe 0 ["txt", "pdf"] none "m").1 = .error .value := by decide +kernel

/-! ## Adding and removing parsers -/

/-- A registry after a history of calls. -/
def regAfter (B : Builtin σ D) (config : Conf) (ops : List (RegOp σ D)) : Registry σ D :=
  ops.foldl RegOp.step (.new B config)

/-- **C119.** After any history: a successful `add_parser` makes exactly that name answer the new parser,
a successful `remove_parser` makes exactly that name unavailable, a failed one changes nothing, and
after a successful `close` nothing can be requested. -/
theorem C119_registry (B : Builtin σ D) (config : Conf) (ops : List (RegOp σ D)) (name : String) :
    let R := regAfter B config ops
    (∀ cls cfg R', R.add name cls cfg = (.ok (), R') → ∃ p, cls cfg = .ok p ∧
      R'.parsers.get? name = some p ∧ R'.init = R.init ∧
      ∀ n, n ≠ name → R'.parsers.get? n = R.parsers.get? n) ∧
    (∀ cls cfg e R', R.add name cls cfg = (.error e, R') → R' = R) ∧
    (∀ R', R.remove name = (.ok (), R') → R'.parsers.get? name = none ∧ R'.init = R.init ∧
      ∀ n, n ≠ name → R'.parsers.get? n = R.parsers.get? n) ∧
    (∀ e R', R.remove name = (.error e, R') → R' = R) ∧
    ∀ R', R.close = (.ok (), R') → ∀ path n, R'.getParser path n = .error .parsing := by
  intro R
  have hnd : R.parsers.keys.Nodup := run_nodup (.new B config) List.nodup_nil ops
  refine ⟨?_, ?_, ?_, ?_, ?_⟩
  · intro cls cfg R' h
    unfold Registry.add at h
    cases hc : cls cfg with
    | error e => rw [hc] at h; simp at h
    | ok p =>
      rw [hc] at h
      simp only [Prod.mk.injEq, true_and] at h
      subst h
      refine ⟨p, rfl, Dict.get?_set_self _ _ _, rfl, fun n hn => ?_⟩
      rw [Dict.get?_set, if_neg hn]
  · intro cls cfg e R' h
    unfold Registry.add at h
    cases hc : cls cfg with
    | error e =>
      rw [hc] at h
      simp only [Prod.mk.injEq] at h
      exact h.2.symm
    | ok p => rw [hc] at h; simp at h
  · intro R' h
    unfold Registry.remove at h
    cases hg : R.parsers.get? name with
    | none =>
      rw [hg] at h
      simp only [Prod.mk.injEq, true_and] at h
      subst h
      exact ⟨hg, rfl, fun _ _ => rfl⟩
    | some p =>
      rw [hg] at h
      simp only at h
      cases hc : p.close with
      | error e => rw [hc] at h; simp at h
      | ok u =>
        rw [hc] at h
        simp only [Prod.mk.injEq, true_and] at h
        subst h
        refine ⟨?_, rfl, fun n hn => Dict.get?_pop_ne _ hn⟩
        rw [Dict.get?_pop hnd, if_pos rfl]
  · intro e R' h
    unfold Registry.remove at h
    cases hg : R.parsers.get? name with
    | none => rw [hg] at h; simp at h
    | some p =>
      rw [hg] at h
      simp only at h
      cases hc : p.close with
      | error e =>
        rw [hc] at h
        simp only [Prod.mk.injEq] at h
        exact h.2.symm
      | ok u => rw [hc] at h; simp at h
  · intro R' h path n
    unfold Registry.close at h
    cases hc : closeAll (R.parsers.vals.map ParserObj.close) with
    | error e => rw [hc] at h; simp at h
    | ok u =>
      rw [hc] at h
      simp only [Prod.mk.injEq, true_and] at h
      subst h
      rfl

example : ∃ R', exReg.add "csv" (fun _ => .ok (exParser "Csv" ["csv", "md"])) .null = (.ok (), R') ∧
    (R'.getParser "csv" none).map ParserObj.className = .ok "Csv" ∧
    (R'.getParser "md" none).map ParserObj.className = .ok "DoclingParser" :=
  ⟨_, rfl, by decide +kernel, by decide +kernel⟩

/-- **C120.** If the parsers accept a file exactly by its suffix, as the built-in ones do,
`get_supported_formats` lists each accepted suffix once, in increasing order, and `get_parser` finds a
parser for a file exactly when its suffix is listed. -/
theorem C120_formats (R : Registry σ D) (hR : R.init = true) (suffix : String → String)
    (hs : ∀ q ∈ R.parsers, ∀ path, q.2.canParse path = true ↔ suffix path ∈ q.2.formats) :
    R.formats.Pairwise (· < ·) ∧ (∀ x, x ∈ R.formats ↔ ∃ q ∈ R.parsers, x ∈ q.2.formats) ∧
      ∀ path, (∃ p, R.getParser path none = .ok p) ↔ suffix path ∈ R.formats := by
  have hf : R.formats = ((R.parsers.vals.flatMap ParserObj.formats).dedup).insertionSort (· ≤ ·) := by
    simp [Registry.formats, hR]
  have hmem : ∀ x, x ∈ R.formats ↔ ∃ q ∈ R.parsers, x ∈ q.2.formats := by
    intro x
    rw [hf, List.mem_insertionSort, List.mem_dedup, List.mem_flatMap]
    constructor
    · rintro ⟨p, hp, hx⟩
      obtain ⟨q, hq, rfl⟩ := List.mem_map.1 hp
      exact ⟨q, hq, hx⟩
    · rintro ⟨q, hq, hx⟩
      exact ⟨q.2, List.mem_map.2 ⟨q, hq, rfl⟩, hx⟩
  refine ⟨?_, hmem, fun path => ?_⟩
  · have h1 : R.formats.Pairwise (· ≤ ·) := by
      rw [hf]
      exact List.pairwise_insertionSort _ _
    have h2 : R.formats.Nodup := by
      rw [hf]
      exact (List.perm_insertionSort _ _).nodup_iff.2 (List.nodup_dedup _)
    exact (h1.and h2).imp fun h => lt_of_le_of_ne h.1 h.2
  · obtain ⟨-, -, h3, -, -⟩ := C70_choice R hR path
    rw [hmem]
    constructor
    · rintro ⟨p, hp⟩
      by_contra hno
      have : ∀ q ∈ R.parsers, q.2.canParse path = false := by
        intro q hq
        rw [Bool.eq_false_iff]
        exact fun hc => hno ⟨q, hq, (hs q hq path).1 hc⟩
      obtain ⟨e, he⟩ := h3.2 this
      rw [hp] at he
      cases he
    · rintro ⟨q, hq, hx⟩
      cases hg : R.getParser path none with
      | ok p => exact ⟨p, rfl⟩
      | error e =>
        have := h3.1 ⟨e, hg⟩ q hq
        rw [(hs q hq path).2 hx] at this
        cases this

example : exReg.formats = ["md", "pdf", "txt"] := by decide +kernel

end Valori.Props
