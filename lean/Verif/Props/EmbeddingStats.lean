import Verif.Props.Embedding

/-!
# Property C220: what the embedding processor counts
-/

namespace Valori.Props
open Valori Spec

variable {K : Type}

/-- How many of the texts are not blank. -/
def nonBlanks (ts : List Text) : Nat := ts.countP fun t => !t.all isSpace

/-- Both counters rise by the same number, and with the hits of the cache, if there is one, by `n`. -/
def Rises (E : EmbEnv K) (s s' : EmbSt K) (n : Nat) : Prop :=
  ∃ d, s'.texts = s.texts + d ∧ s'.generated = s.generated + d ∧ s'.hits + d = s.hits + n ∧
    (E.cached = false → s'.hits = s.hits)

theorem embed_rises (E : EmbEnv K) (s : EmbSt K) (t : Text) :
    (∀ v s', embed E s t = (.ok v, s') → Rises E s s' (nonBlanks [t])) ∧
    ∀ e s', embed E s t = (.error e, s') → s' = s := by
  have hb : (strip t = [] ↔ t.all isSpace = true) := by
    rw [em_blank, List.all_eq_true]; rfl
  unfold embed generate
  by_cases hs : strip t = []
  · rw [if_pos hs]
    constructor
    · intro v s' h
      obtain rfl := (congrArg Prod.snd h).symm
      have hn : nonBlanks [t] = 0 := by simp [nonBlanks, hb.1 hs]
      exact ⟨0, rfl, rfl, by rw [hn]; rfl, fun _ => rfl⟩
    · intro e s' h
      exact absurd (congrArg Prod.fst h) (fun h => by cases h)
  · rw [if_neg hs]
    have hn : nonBlanks [t] = 1 := by
      have : t.all isSpace = false := Bool.eq_false_iff.2 fun h => hs (hb.2 h)
      simp [nonBlanks, this]
    rw [hn]
    cases hl : (if E.cached then s.cache.get? (cacheKey E t) else none) with
    | some r =>
      constructor
      · intro v s' h
        simp only [Prod.mk.injEq] at h
        obtain ⟨-, rfl⟩ := h
        refine ⟨0, rfl, rfl, rfl, fun hc => ?_⟩
        rw [hc] at hl
        cases hl
      · intro e s' h
        simp at h
    | none =>
      cases he : E.encode t with
      | error e' =>
        constructor
        · intro v s' h; simp at h
        · intro e s' h
          simp only [Prod.mk.injEq] at h
          exact h.2.symm
      | ok v' =>
        constructor
        · intro v s' h
          simp only [EmbSt.alloc, Prod.mk.injEq] at h
          obtain ⟨-, rfl⟩ := h
          refine ⟨1, ?_, ?_, ?_, fun hc => ?_⟩ <;> (split <;> rfl)
        · intro e s' h
          simp [EmbSt.alloc] at h

theorem nonBlanks_append (a b : List Text) : nonBlanks (a ++ b) = nonBlanks a + nonBlanks b := by
  simp [nonBlanks]

theorem Rises.trans {E : EmbEnv K} {s1 s2 s3 : EmbSt K} {a b : Nat} (h : Rises E s1 s2 a)
    (h' : Rises E s2 s3 b) : Rises E s1 s3 (a + b) := by
  obtain ⟨d, e1, e2, e3, e4⟩ := h
  obtain ⟨d', f1, f2, f3, f4⟩ := h'
  exact ⟨d + d', by omega, by omega, by omega, fun hc => (f4 hc).trans (e4 hc)⟩

theorem Rises.refl (E : EmbEnv K) (s : EmbSt K) : Rises E s s 0 := ⟨0, rfl, rfl, rfl, fun _ => rfl⟩

theorem embedEach_rises (E : EmbEnv K) : ∀ (ts : List Text) (s : EmbSt K) (r : Except Err (List (List K)))
    (s' : EmbSt K), embedEach E s ts = (r, s') → ∃ n, Rises E s s' n ∧ n ≤ nonBlanks ts ∧
      ((∃ vs, r = .ok vs) → n = nonBlanks ts)
  | [], s, r, s', h => by
    simp only [embedEach, Prod.mk.injEq] at h
    obtain ⟨-, rfl⟩ := h
    exact ⟨0, .refl _ _, Nat.zero_le _, fun _ => rfl⟩
  | t :: ts, s, r, s', h => by
    obtain ⟨h1, h2⟩ := embed_rises E s t
    rcases he : embed E s t with ⟨e | v, s1⟩
    · simp only [embedEach, he, Prod.mk.injEq] at h
      obtain ⟨rfl, rfl⟩ := h
      rw [h2 _ _ he]
      exact ⟨0, .refl _ _, Nat.zero_le _, fun ⟨_, h⟩ => by cases h⟩
    · have r1 := h1 _ _ he
      rcases hr : embedEach E s1 ts with ⟨e | vs, s2⟩
      all_goals
        obtain ⟨n, g1, g2, g3⟩ := embedEach_rises E ts s1 _ _ hr
        simp only [embedEach, he, hr, Prod.mk.injEq] at h
        obtain ⟨rfl, rfl⟩ := h
        have hc : nonBlanks (t :: ts) = nonBlanks [t] + nonBlanks ts := nonBlanks_append [t] ts
        refine ⟨_, r1.trans g1, by omega, ?_⟩
      · rintro ⟨_, h⟩; cases h
      · intro _; rw [hc, g3 ⟨_, rfl⟩]

theorem batchLoop_rises (E : EmbEnv K) (texts : List Text) : ∀ (is : List Nat) (s : EmbSt K)
    (out : List (List K)) (r : Except Err (List (List K))) (s' : EmbSt K),
    batchEmbedLoop E texts is s out = (r, s') →
    (E.modelType = .sentenceTransformers → s' = s) ∧
    (E.modelType ≠ .sentenceTransformers → ∃ n, Rises E s s' n ∧
      ((∃ vs, r = .ok vs) → n = nonBlanks (is.flatMap fun i => batchAt texts i E.batchSize)))
  | [], s, out, r, s', h => by
    simp only [batchEmbedLoop, Prod.mk.injEq] at h
    obtain ⟨-, rfl⟩ := h
    exact ⟨fun _ => rfl, fun _ => ⟨0, .refl _ _, fun _ => rfl⟩⟩
  | i :: is, s, out, r, s', h => by
    constructor
    · intro hty
      simp only [batchEmbedLoop, hty] at h
      cases hm : E.encodeMany (batchAt texts i E.batchSize) with
      | error e =>
        simp only [hm, Prod.mk.injEq] at h
        exact h.2.symm
      | ok rows =>
        simp only [hm] at h
        exact (batchLoop_rises E texts is s _ r s' h).1 hty
    · intro hty
      have h : (match embedEach E s (batchAt texts i E.batchSize) with
          | (.error e, s) => (.error e, s)
          | (.ok rows, s) =>
            if E.raggedRaises && !sameLengths rows then (.error .value, s)
            else batchEmbedLoop E texts is s (out ++ rows)) = (r, s') := by
        rw [← h]
        cases hmt : E.modelType with
        | sentenceTransformers => exact absurd hmt hty
        | _ => simp only [batchEmbedLoop, hmt]; rfl
      rcases he : embedEach E s (batchAt texts i E.batchSize) with ⟨e | rows, s1⟩
      · obtain ⟨n, g1, -, -⟩ := embedEach_rises E _ s _ _ he
        simp only [he, Prod.mk.injEq] at h
        obtain ⟨rfl, rfl⟩ := h
        exact ⟨n, g1, fun ⟨_, h⟩ => by cases h⟩
      · obtain ⟨n, g1, -, g3⟩ := embedEach_rises E _ s _ _ he
        simp only [he] at h
        split at h
        · simp only [Prod.mk.injEq] at h
          obtain ⟨rfl, rfl⟩ := h
          exact ⟨n, g1, fun ⟨_, h⟩ => by cases h⟩
        · obtain ⟨m, k1, k2⟩ := (batchLoop_rises E texts is s1 _ r s' h).2 hty
          refine ⟨_, g1.trans k1, fun hr => ?_⟩
          rw [List.flatMap_cons, nonBlanks_append, g3 ⟨_, rfl⟩, k2 hr]

theorem batch_all (E : EmbEnv K) (hb : E.batchSize ≠ 0) (ts : List Text) :
    ((starts ts.length E.batchSize).flatMap fun i => batchAt ts i E.batchSize) = ts := by
  rw [List.flatMap_def]
  exact slices_flatten E.batchSize (Nat.pos_of_ne_zero hb) ts

theorem step_equal (E : EmbEnv K) (s : EmbSt K) (h : s.texts = s.generated) (o : EmbOp K) :
    (o.step E s).2.texts = (o.step E s).2.generated := by
  have he : ∀ t, (embed E s t).2.texts = (embed E s t).2.generated := by
    intro t
    obtain ⟨h1, h2⟩ := embed_rises E s t
    rcases hc : embed E s t with ⟨e | v, s'⟩
    · rw [h2 _ _ hc]; exact h
    · obtain ⟨d, e1, e2, -, -⟩ := h1 _ _ hc
      show s'.texts = s'.generated
      omega
  cases o with
  | embed t => exact he t
  | clear => exact h
  | write r v => exact h
  | stats =>
    have := he "test".toList
    show (embStats E s).2.texts = (embStats E s).2.generated
    unfold embStats
    rcases hc : embed E s "test".toList with ⟨e | v, s'⟩ <;> rw [hc] at this <;> exact this
  | batch ts =>
    show (batchEmbed E s ts).2.texts = (batchEmbed E s ts).2.generated
    unfold batchEmbed
    split
    · exact h
    · rcases hl : batchEmbedLoop E ts (starts ts.length E.batchSize) s [] with ⟨r, s'⟩
      have : s'.texts = s'.generated := by
        obtain ⟨h1, h2⟩ := batchLoop_rises E ts _ s [] r s' hl
        by_cases hm : E.modelType = .sentenceTransformers
        · rw [h1 hm]; exact h
        · obtain ⟨n, ⟨d, e1, e2, -, -⟩, -⟩ := h2 hm
          omega
      cases r with
      | error e => exact this
      | ok out => show s'.texts + _ = s'.generated + _; rw [this]

/-- **C220** After every history of calls the number of texts processed and the number of embeddings
generated are the same number. -/
theorem C220_equal (E : EmbEnv K) (ops : List (EmbOp K)) :
    (embAfter E ops).texts = (embAfter E ops).generated := by
  have : ∀ (ops : List (EmbOp K)) (s : EmbSt K), s.texts = s.generated →
      (embRun E s ops).2.texts = (embRun E s ops).2.generated := by
    intro ops
    induction ops with
    | nil => intro s h; exact h
    | cons o os ih => intro s h; exact ih _ (step_equal E s h o)
  exact this ops .fresh rfl

/-- **C220** What `get_stats` reports is what is counted: the two counters, the size of the cache and the
number of hits as they were before the call, and a rate which is the number of hits for each embedding
generated. -/
theorem C220_reported (E : EmbEnv K) (s s' : EmbSt K) (a : EmbStats) (h : embStats E s = (.ok a, s')) :
    a.texts = s.texts ∧ a.generated = s.generated ∧ a.hits = s.hits ∧ a.cacheSize = s.cache.length ∧
    a.rate * a.generated = if a.generated = 0 then 0 else (a.hits : ℚ) := by
  unfold embStats at h
  rcases hc : embed E s "test".toList with ⟨e | v, s1⟩ <;> rw [hc] at h
  · simp at h
  · simp only [Prod.mk.injEq, Except.ok.injEq] at h
    obtain ⟨rfl, -⟩ := h
    refine ⟨rfl, rfl, rfl, rfl, ?_⟩
    by_cases hg : s.generated = 0
    · simp [hg]
    · have : (s.generated : ℚ) ≠ 0 := Nat.cast_ne_zero.2 hg
      simp only [Nat.pos_of_ne_zero hg, gt_iff_lt, if_true, if_neg hg]
      exact div_mul_cancel₀ _ this

/-- **C220** After `clear_cache` the statistics show an empty cache without hits; what was counted of
texts and embeddings and every array handed out stay; the next text that is not blank is no hit. -/
theorem C220_clear (E : EmbEnv K) (s : EmbSt K) :
    (∀ a s', embStats E (clearCache s) = (.ok a, s') →
      a.cacheSize = 0 ∧ a.hits = 0 ∧ a.texts = s.texts ∧ a.generated = s.generated ∧ a.rate = 0) ∧
    (clearCache s).heap = s.heap ∧
    ∀ t v s', ¬ Blank t → embed E (clearCache s) t = (.ok v, s') →
      s'.hits = 0 ∧ s'.texts = s.texts + 1 ∧ s'.generated = s.generated + 1 := by
  refine ⟨fun a s' h => ?_, rfl, fun t v s' hb h => ?_⟩
  · obtain ⟨h1, h2, h3, h4, h5⟩ := C220_reported E _ s' a h
    have h3 : a.hits = 0 := h3
    refine ⟨h4, h3, h1, h2, ?_⟩
    rw [h3, Nat.cast_zero, ite_self] at h5
    unfold embStats at h
    rcases hc : embed E (clearCache s) "test".toList with ⟨e | v, s1⟩ <;> rw [hc] at h
    · simp at h
    · simp only [Prod.mk.injEq, Except.ok.injEq] at h
      obtain ⟨rfl, -⟩ := h
      simp [clearCache]
  · have hs : strip t ≠ [] := fun h => hb ((em_blank t).1 h)
    unfold embed generate at h
    rw [if_neg hs] at h
    have hl : (if E.cached then (clearCache s).cache.get? (cacheKey E t) else none) = none := by
      split <;> rfl
    rw [hl] at h
    cases he : E.encode t with
    | error e => simp [he] at h
    | ok w =>
      simp only [he, EmbSt.alloc, Prod.mk.injEq] at h
      obtain ⟨-, rfl⟩ := h
      refine ⟨?_, ?_, ?_⟩ <;> (split <;> rfl)

/-- **C220** Embedding one text: a blank text is not counted at all, any other text is counted once, as
generated or as a hit of the cache; a text for which the model raises is not counted. -/
theorem C220_one (E : EmbEnv K) (s : EmbSt K) (t : Text) :
    (∀ v s', embed E s t = (.ok v, s') →
      (Blank t → s'.texts + s'.hits = s.texts + s.hits) ∧
      (¬ Blank t → s'.texts + s'.hits = s.texts + s.hits + 1)) ∧
    ∀ e s', embed E s t = (.error e, s') → s' = s := by
  obtain ⟨h1, h2⟩ := embed_rises E s t
  refine ⟨fun v s' h => ?_, h2⟩
  obtain ⟨d, e1, e2, e3, -⟩ := h1 v s' h
  constructor
  · intro hb
    have : t.all isSpace = true := List.all_eq_true.2 hb
    have : nonBlanks [t] = 0 := by simp [nonBlanks, this]
    omega
  · intro hb
    have : t.all isSpace = false := Bool.eq_false_iff.2 fun h => hb (List.all_eq_true.1 h)
    have : nonBlanks [t] = 1 := by simp [nonBlanks, this]
    omega

/-- **C220** (partial: sentence-transformers) A batch adds the number of its texts to both counters and
leaves the cache and its hits as they were; a batch that raises adds nothing. -/
theorem C220_batch_partial (E : EmbEnv K) (hm : E.modelType = .sentenceTransformers) (s s' : EmbSt K)
    (ts : List Text) :
    (∀ vs, batchEmbed E s ts = (.ok vs, s') →
      s'.texts = s.texts + ts.length ∧ s'.generated = s.generated + ts.length ∧
      s'.hits = s.hits ∧ s'.cache = s.cache) ∧
    ∀ e, batchEmbed E s ts = (.error e, s') → s' = s := by
  unfold batchEmbed
  split
  · exact ⟨fun vs h => by simp at h, fun e h => by simp only [Prod.mk.injEq] at h; exact h.2.symm⟩
  · rcases hl : batchEmbedLoop E ts (starts ts.length E.batchSize) s [] with ⟨r, s1⟩
    obtain rfl := (batchLoop_rises E ts _ s [] r s1 hl).1 hm
    cases r with
    | error e => exact ⟨fun vs h => by simp at h, fun e h => by simp only [Prod.mk.injEq] at h; exact h.2.symm⟩
    | ok out =>
      refine ⟨fun vs h => ?_, fun e h => by simp at h⟩
      obtain rfl := (congrArg Prod.snd h).symm
      exact ⟨rfl, rfl, rfl, rfl⟩

/-- **C220** is false of the code for every batch given to any other model: its texts are counted when
they are embedded, and all of them once more at the end. With the hits of the cache the counter rises by
the number of texts and by the number of texts that are not blank. -/
theorem C220_batch_refuted (E : EmbEnv K) (hm : E.modelType ≠ .sentenceTransformers) (s s' : EmbSt K)
    (ts : List Text) (vs : List (List K)) (h : batchEmbed E s ts = (.ok vs, s')) :
    s'.texts + s'.hits = s.texts + s.hits + ts.length + (ts.filter fun t => !t.all isSpace).length ∧
    (E.cached = false → (∀ t ∈ ts, ¬ Blank t) → s'.texts = s.texts + 2 * ts.length) := by
  have key : s'.texts + s'.hits = s.texts + s.hits + ts.length + nonBlanks ts ∧
      (E.cached = false → s'.hits = s.hits) := by
    unfold batchEmbed at h
    split at h
    · simp at h
    · rename_i hb
      rcases hl : batchEmbedLoop E ts (starts ts.length E.batchSize) s [] with ⟨e | out, s1⟩ <;>
        rw [hl] at h
      · simp at h
      · obtain ⟨n, ⟨d, e1, e2, e3, e4⟩, hn⟩ := (batchLoop_rises E ts _ s [] _ s1 hl).2 hm
        have hn := hn ⟨_, rfl⟩
        rw [batch_all E hb] at hn
        obtain rfl := (congrArg Prod.snd h).symm
        exact ⟨by show s1.texts + ts.length + s1.hits = _; omega, e4⟩
  obtain ⟨h1, h2⟩ := key
  refine ⟨by rw [h1, nonBlanks, List.countP_eq_length_filter], fun hc ht => ?_⟩
  have : nonBlanks ts = ts.length := by
    rw [nonBlanks, List.countP_eq_length]
    intro t h
    simp only [Bool.not_eq_true', Bool.eq_false_iff]
    exact fun h' => ht t h (List.all_eq_true.1 h')
  have := h2 hc
  omega

/-! Two texts given to an OpenAI model: four texts processed. To a sentence-transformers model: two. A
blank text is counted once by the first and in a batch only. -/
example : (batchEmbed { exEmb with modelType := .openai } .fresh ["ab".toList, "ba".toList]).2.texts = 4 ∧
    (batchEmbed exEmb .fresh ["ab".toList, "ba".toList]).2.texts = 2 ∧
    (batchEmbed { exEmb with modelType := .openai } .fresh [" ".toList]).2.texts = 1 ∧
    (embed exEmb .fresh " ".toList).2.texts = 0 := by decide

example : ∃ vs s', batchEmbed { exEmb with modelType := .openai, cached := false } .fresh
    ["ab".toList, "ba".toList] = (.ok vs, s') ∧ s'.texts = 4 := ⟨_, _, rfl, rfl⟩

example : ∃ a s', embStats exEmb (embAfter exEmb [.embed "ab".toList, .embed "ab".toList, .clear,
    .embed "ab".toList, .embed "ab".toList]) = (.ok a, s') ∧ a.texts = 2 ∧ a.generated = 2 ∧ a.hits = 1 ∧
    a.cacheSize = 1 ∧ a.rate = 1 / 2 :=
  ⟨_, _, rfl, rfl, rfl, rfl, rfl, by decide +kernel⟩

end Valori.Props
