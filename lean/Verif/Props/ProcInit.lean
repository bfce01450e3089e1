import Mathlib.Tactic.SplitIfs
import Verif.Model.ProcInit
import Verif.Props.Cleaning

/-!
# C189 and C190: starting parsers and processors
-/

namespace Valori.Props

open Valori Valori.Spec

/-! ## C189: parsers and the cleaning processor -/

theorem useAll_ok (lib : String → Use Unit) (ns : List String) :
    (∃ u, useAll lib ns = .ok u) ↔ ∀ n ∈ ns, lib n = .ok () := by
  induction ns with
  | nil => simp [useAll]
  | cons n ns ih =>
    unfold useAll
    cases h : lib n <;> simp_all

/-- **C189.** `initialize` of a parser succeeds exactly when everything it uses answers, and then the
parser is initialised.  When it fails, the first use that does not answer decides: a missing library is
reported as `ParsingError`, the exception of a library that is there but fails comes out as it is; the
parser stays initialised or not as it was. -/
theorem C189_parsers (k : ParserKind) (lib : String → Use Unit) (b : Bool) :
    ((∀ n ∈ k.needs, lib n = .ok ()) → parserInit k lib b = (.ok (), true)) ∧
    (∀ pre n post, k.needs = pre ++ n :: post → (∀ x ∈ pre, lib x = .ok ()) →
      (lib n = .missing → parserInit k lib b = (.error .parsing, b)) ∧
      (∀ e, lib n = .fails e → parserInit k lib b = (.error e, b))) := by
  constructor
  · intro h
    obtain ⟨u, hu⟩ := (useAll_ok lib k.needs).2 h
    unfold parserInit
    rw [hu]
  · intro pre n post hk hp
    have key : useAll lib k.needs = useAll lib (n :: post) := by
      rw [hk]
      clear hk
      induction pre with
      | nil => rfl
      | cons x xs ih =>
        rw [List.cons_append, useAll, hp x (by simp)]
        exact ih fun y hy => hp y (by simp [hy])
    constructor
    · intro h
      unfold parserInit
      rw [key, useAll, h]
    · intro e h
      unfold parserInit
      rw [key, useAll, h]

/-- The text parser always starts; the office parser needs all three libraries, whichever format the
files to come have. -/
example : parserInit .text (fun _ => .missing) false = (.ok (), true) ∧
    parserInit .office (fun n => if n = "pptx" then .missing else .ok ()) false = (.error .parsing, false) := by
  decide

/-- A failing library is not reported as `ParsingError`: docling's converter may raise anything. -/
theorem C189_parsing_refuted :
    ¬ ∀ k lib b e, (parserInit k lib b).1 = .error e → e = Err.parsing := by
  intro h
  have := h .docling (fun n => if n = "DocumentConverter()" then .fails .other else .ok ()) false .other (by decide)
  exact absurd this (by decide)

/-- **C189.** `initialize` of the cleaning processor: without stop-word removal it always succeeds and no
stop words are set; with it the words of nltk for the language are used, or, when nltk is missing, the
built-in English words whatever the language.  Other options never change. -/
theorem C189_cleaning (words : String → Use (List Text)) (p : Cleaner) :
    (p.cfg.removeStop = false →
      p.init words = (.ok (), { p with cfg := { p.cfg with stopwords := [] }, inited := true })) ∧
    (p.cfg.removeStop = true → ∀ ws, words p.language = .ok ws →
      p.init words = (.ok (), { p with cfg := { p.cfg with stopwords := ws }, inited := true })) ∧
    (p.cfg.removeStop = true → words p.language = .missing →
      p.init words = (.ok (), { p with cfg := { p.cfg with stopwords := fallbackStop }, inited := true })) ∧
    ((∃ u, (p.init words).1 = .ok u) ↔ (p.cfg.removeStop = true → ∀ e, words p.language ≠ .fails e)) := by
  refine ⟨?_, ?_, ?_, ?_⟩
  · intro h; simp [Cleaner.init, h]
  · intro h ws hw; simp [Cleaner.init, h, hw]
  · intro h hw; simp [Cleaner.init, h, hw]
  · unfold Cleaner.init
    cases hr : p.cfg.removeStop <;> cases hw : words p.language <;> simp [hr, hw]

example : (Cleaner.init (fun _ => .missing) ⟨{ removeStop := true }, "german", false⟩).2.cfg.stopwords.length = 24 := by
  decide +kernel

/-- **C189, as users expect it, fails twice.** When nltk is there but its corpus is not, `initialize`
raises that exception itself, not `ProcessingError`; and the stop words set before are gone, so a
processor that was initialised before goes on cleaning documents without removing any stop word. -/
theorem C189_cleaning_refuted (words : String → Use (List Text)) (p : Cleaner) (e : Err)
    (hr : p.cfg.removeStop = true) (hw : words p.language = .fails e) :
    (p.init words).1 = .error e ∧ (p.init words).2.inited = p.inited ∧
      ∀ (L : CleanLib) t, cleanText L (p.init words).2.cfg t = cleanText L { p.cfg with removeStop := false } t := by
  have h : p.init words = (.error e, { p with cfg := { p.cfg with stopwords := [] } }) := by
    simp [Cleaner.init, hr, hw]
  rw [h]
  refine ⟨rfl, rfl, fun L t => ?_⟩
  simp [cleanText, hr]

/-- Before the failed call "the" is removed, after it "the" stays. -/
example : cleanText exClLib { removeStop := true, stopwords := ["the".toList] } "the cat".toList = "cat".toList ∧
    cleanText exClLib (Cleaner.init (fun _ => .fails .other)
      ⟨{ removeStop := true, stopwords := ["the".toList] }, "english", true⟩).2.cfg "the cat".toList =
        "the cat".toList ∧
    (Cleaner.init (fun _ => .fails .other)
      ⟨{ removeStop := true, stopwords := ["the".toList] }, "english", true⟩).2.inited = true := by decide +kernel

/-! ## C190: the embedding processor -/

variable {Mod : Type}

/-- The device a processor works on, given what it was configured with and whether cuda is there. -/
def deviceFor (configured : String) (cuda : Bool) : String :=
  if configured = "auto" then (if cuda then "cuda" else "cpu") else configured

theorem settle_device (p : EmbProc Mod) (c : Bool) :
    (p.settle c).device = deviceFor p.device c ∧ (p.settle c).modelType = p.modelType ∧
      (p.settle c).inited = p.inited ∧ (p.settle c).tokenizer = p.tokenizer ∧ (p.settle c).model = p.model := by
  unfold EmbProc.settle deviceFor
  split_ifs <;> simp

/-- **C190.** Whatever the libraries do, `initialize` either succeeds or raises `ProcessingError`; a
failure leaves the processor initialised or not as it was, and the model type never changes.  A model
type other than the three known ones is refused and nothing changes. -/
theorem C190_outcome (L : EmbLibs Mod) (p : EmbProc Mod) :
    (p.init L).2.modelType = p.modelType ∧
    (((p.init L).1 = .ok () ∧ (p.init L).2.inited = true) ∨
      ((p.init L).1 = .error .processing ∧ (p.init L).2.inited = p.inited)) ∧
    (p.modelType ≠ "sentence_transformers" → p.modelType ≠ "openai" → p.modelType ≠ "huggingface" →
      p.init L = (.error .processing, p)) := by
  have hm : ∀ (q : EmbProc Mod) m, (q.move L m).2.modelType = q.modelType ∧ (q.move L m).2.inited = q.inited := by
    intro q m
    unfold EmbProc.move
    cases L.move m q.device <;> simp
  have h1 : (p.initSt L).2.modelType = p.modelType ∧ (p.initSt L).2.inited = p.inited := by
    unfold EmbProc.initSt
    cases L.st <;> cases L.stLoad <;> simp
    split_ifs
    · cases L.torch <;> simp [hm, settle_device]
    · simp [hm]
  have h2 : (p.initOpenai L).2.modelType = p.modelType ∧ (p.initOpenai L).2.inited = p.inited := by
    unfold EmbProc.initOpenai
    cases L.openai <;> simp
  have h3 : (p.initHf L).2.modelType = p.modelType ∧ (p.initHf L).2.inited = p.inited := by
    unfold EmbProc.initHf
    cases L.torch <;> cases L.transformers <;> cases L.tokenizer <;> cases L.hfLoad <;>
      simp [hm, settle_device]
  refine ⟨?_, ?_, ?_⟩
  · unfold EmbProc.init
    simp only
    split_ifs <;> simp_all
  · unfold EmbProc.init
    simp only
    split_ifs <;> simp_all
  · intro a b c
    simp [EmbProc.init, a, b, c]

/-- **C190.** Without the OpenAI module the call is refused and nothing changes. -/
theorem C190_openai_missing (L : EmbLibs Mod) (p : EmbProc Mod) (ht : p.modelType = "openai")
    (hm : ∀ m, L.openai ≠ .ok m) : p.init L = (.error .processing, p) := by
  have : p.initOpenai L = (false, p) := by
    unfold EmbProc.initOpenai
    cases h : L.openai with
    | ok m => exact absurd h (hm m)
    | missing => rfl
    | fails e => rfl
  simp [EmbProc.init, ht, this]

example : EmbProc.init (Mod := Nat) ⟨.missing, .missing, .missing, .missing, .missing, .missing, .missing, fun _ _ => .missing⟩
    ⟨"openai", "auto", some 1, none, true⟩ = (.error .processing, ⟨"openai", "auto", some 1, none, true⟩) := by
  decide

/-- **C190.** A successful `initialize` with a local model leaves the loaded model, moved to the device:
the configured one, or for "auto" the graphics card when there is one and the processor otherwise; the
device is from then on that one.  With OpenAI nothing but the module is needed. -/
theorem C190_ready (L : EmbLibs Mod) (p : EmbProc Mod) :
    (p.modelType = "openai" → ∀ m, L.openai = .ok m →
      p.init L = (.ok (), { p with model := some m, inited := true })) ∧
    (p.modelType = "sentence_transformers" → ∀ m m' c, L.st = .ok () → L.stLoad = .ok m →
      (p.device = "auto" → L.torch = .ok c) → L.move m (deviceFor p.device c) = .ok m' →
      p.init L = (.ok (), { p with model := some m', device := deviceFor p.device c, inited := true })) ∧
    (p.modelType = "huggingface" → ∀ t m m' c, L.torch = .ok c → L.transformers = .ok () →
      L.tokenizer = .ok t → L.hfLoad = .ok m → L.move m (deviceFor p.device c) = .ok m' →
      p.init L = (.ok (), { p with model := some m', tokenizer := some t, device := deviceFor p.device c, inited := true })) ∧
    ((p.init L).1 = .ok () → p.modelType ≠ "openai" → ∃ m m' c,
      L.move m (deviceFor p.device c) = .ok m' ∧ (p.init L).2.model = some m' ∧
      (p.init L).2.device = deviceFor p.device c ∧ (p.device = "auto" → L.torch = .ok c) ∧
      (L.stLoad = .ok m ∨ L.hfLoad = .ok m)) := by
  refine ⟨?_, ?_, ?_, ?_⟩
  · intro ht m hm
    simp [EmbProc.init, EmbProc.initOpenai, ht, hm]
  · intro ht m m' c hs hl hc hm
    by_cases ha : p.device = "auto"
    · have hc := hc ha
      simp only [deviceFor, ha, if_true] at hm
      simp [EmbProc.init, EmbProc.initSt, EmbProc.settle, EmbProc.move, deviceFor, ht, hs, hl, hc, hm, ha]
    · simp only [deviceFor, ha, if_false] at hm
      simp [EmbProc.init, EmbProc.initSt, EmbProc.move, deviceFor, ht, hs, hl, hm, ha]
  · intro ht t m m' c hc htr htok hl hm
    by_cases ha : p.device = "auto"
    · simp only [deviceFor, ha, if_true] at hm
      simp [EmbProc.init, EmbProc.initHf, EmbProc.settle, EmbProc.move, deviceFor, ht, hc, htr, htok, hl, hm, ha]
    · simp only [deviceFor, ha, if_false] at hm
      simp [EmbProc.init, EmbProc.initHf, EmbProc.settle, EmbProc.move, deviceFor, ht, hc, htr, htok, hl, hm, ha]
  · have hmv : ∀ (q : EmbProc Mod) m, (q.move L m).1 = true →
        ∃ m', L.move m q.device = .ok m' ∧ (q.move L m).2.model = some m' ∧ (q.move L m).2.device = q.device := by
      intro q m h
      unfold EmbProc.move at h ⊢
      cases hh : L.move m q.device with
      | ok m' => exact ⟨m', rfl, rfl, rfl⟩
      | missing => rw [hh] at h; simp at h
      | fails e => rw [hh] at h; simp at h
    intro hok hno
    by_cases h1 : p.modelType = "sentence_transformers"
    · have hr : (p.initSt L).1 = true ∧ (p.init L).2 = { (p.initSt L).2 with inited := true } := by
        unfold EmbProc.init at hok ⊢
        simp only [h1, if_true] at hok ⊢
        cases hb : (p.initSt L).1 <;> simp_all
      rw [hr.2]
      have hr := hr.1
      unfold EmbProc.initSt at hr ⊢
      cases hs : L.st with
      | missing => simp [hs] at hr
      | fails e => simp [hs] at hr
      | ok u =>
        cases hl : L.stLoad with
        | missing => simp [hs, hl] at hr
        | fails e => simp [hs, hl] at hr
        | ok m =>
          simp only [hs, hl] at hr ⊢
          by_cases ha : p.device = "auto"
          · rw [if_pos ha] at hr ⊢
            cases hc : L.torch with
            | missing => simp [hc] at hr
            | fails e => simp [hc] at hr
            | ok c =>
              simp only [hc] at hr ⊢
              obtain ⟨m', h3, h4, h5⟩ := hmv _ _ hr
              have hd := (settle_device ({ p with model := some m } : EmbProc Mod) c).1
              exact ⟨m, m', c, by rw [← hd]; exact h3, h4, by rw [← hd]; exact h5, fun _ => rfl, Or.inl rfl⟩
          · rw [if_neg ha] at hr ⊢
            obtain ⟨m', h3, h4, h5⟩ := hmv _ _ hr
            have hd : deviceFor p.device false = p.device := by simp [deviceFor, ha]
            exact ⟨m, m', false, by rw [hd]; exact h3, h4, by rw [hd]; exact h5, fun h => absurd h ha, Or.inl rfl⟩
    · by_cases h2 : p.modelType = "huggingface"
      · have hr : (p.initHf L).1 = true ∧ (p.init L).2 = { (p.initHf L).2 with inited := true } := by
          unfold EmbProc.init at hok ⊢
          simp only [h1, h2, hno, if_false, if_true] at hok ⊢
          cases hb : (p.initHf L).1 <;> simp_all
        rw [hr.2]
        have hr := hr.1
        unfold EmbProc.initHf at hr ⊢
        cases hc : L.torch with
        | missing => simp [hc] at hr
        | fails e => simp [hc] at hr
        | ok c =>
          cases htr : L.transformers with
          | missing => simp [hc, htr] at hr
          | fails e => simp [hc, htr] at hr
          | ok u =>
            cases htok : L.tokenizer with
            | missing => simp [hc, htr, htok] at hr
            | fails e => simp [hc, htr, htok] at hr
            | ok t =>
              cases hl : L.hfLoad with
              | missing => simp [hc, htr, htok, hl] at hr
              | fails e => simp [hc, htr, htok, hl] at hr
              | ok m =>
                simp only [hc, htr, htok, hl] at hr ⊢
                obtain ⟨m', h3, h4, h5⟩ := hmv _ _ hr
                have hd := (settle_device ({ p with tokenizer := some t, model := some m } : EmbProc Mod) c).1
                exact ⟨m, m', c, by rw [← hd]; exact h3, h4, by rw [← hd]; exact h5, fun _ => rfl, Or.inr rfl⟩
      · rw [(C190_outcome L p).2.2 h1 hno h2] at hok
        cases hok

/-- Libraries that all answer; a model is a number, moving it to the graphics card adds 100. -/
def exLibs (cuda : Bool) : EmbLibs Nat where
  st := .ok ()
  stLoad := .ok 1
  torch := .ok cuda
  transformers := .ok ()
  tokenizer := .ok 2
  hfLoad := .ok 3
  openai := .ok 4
  move := fun m d => if d = "cuda" then (if cuda then .ok (m + 100) else .fails .other) else .ok m

example : EmbProc.init (exLibs true) ⟨"sentence_transformers", "auto", none, none, false⟩ =
      (.ok (), ⟨"sentence_transformers", "cuda", some 101, none, true⟩) ∧
    EmbProc.init (exLibs false) ⟨"huggingface", "auto", none, none, false⟩ =
      (.ok (), ⟨"huggingface", "cpu", some 3, some 2, true⟩) ∧
    EmbProc.init (exLibs false) ⟨"huggingface", "cuda", none, none, false⟩ =
      (.error .processing, ⟨"huggingface", "cuda", some 3, some 2, false⟩) := by decide

/-- **C190, as users expect it, fails:** "auto" is looked up once.  After a successful start the device
found is kept by every later one, whatever cards are there by then. -/
theorem C190_auto_refuted (L L' : EmbLibs Mod) (p : EmbProc Mod) (hok : (p.init L).1 = .ok ())
    (ht : p.modelType ≠ "openai") (hok' : (((p.init L).2).init L').1 = .ok ()) :
    (((p.init L).2).init L').2.device = (p.init L).2.device := by
  have ht' : (p.init L).2.modelType ≠ "openai" := by rw [(C190_outcome L p).1]; exact ht
  obtain ⟨-, -, c, -, -, hd, -⟩ := (C190_ready L p).2.2.2 hok ht
  obtain ⟨-, -, c', -, -, hd', -⟩ := (C190_ready L' (p.init L).2).2.2.2 hok' ht'
  have hne : (p.init L).2.device ≠ "auto" := by
    rw [hd]
    unfold deviceFor
    split_ifs with h1 h2 <;> first | decide | exact h1
  rw [hd']
  simp [deviceFor, hne]

/-- Started without a card, started again with one: still on the processor. -/
example : (EmbProc.init (exLibs true) (EmbProc.init (exLibs false)
    ⟨"sentence_transformers", "auto", none, none, false⟩).2).2.device = "cpu" := by decide

/-- **C190, as users expect it, fails:** a failed start does not leave the processor as it was.  When the
new model loads and moving it fails, the processor that was working before still counts as initialised
and now holds the model that could not be moved. -/
theorem C190_unchanged_refuted (L : EmbLibs Mod) (p : EmbProc Mod) (m : Mod)
    (ht : p.modelType = "sentence_transformers") (hd : p.device ≠ "auto") (hs : L.st = .ok ())
    (hl : L.stLoad = .ok m) (hm : ∀ m', L.move m p.device ≠ .ok m') :
    p.init L = (.error .processing, { p with model := some m }) := by
  unfold EmbProc.init EmbProc.initSt EmbProc.move
  cases h : L.move m p.device with
  | ok m' => exact absurd h (hm m')
  | missing => simp [ht, hd, hs, hl, h]
  | fails e => simp [ht, hd, hs, hl, h]

example : EmbProc.init (exLibs false) ⟨"sentence_transformers", "cuda", some 101, none, true⟩ =
    (.error .processing, ⟨"sentence_transformers", "cuda", some 1, none, true⟩) := by decide

end Valori.Props
