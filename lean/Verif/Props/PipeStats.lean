import Verif.Props.DocPipe

/-!
# C214: the statistics of the processors of a pipeline
-/

namespace Valori.Props
open Valori Spec

variable {K X : Type}

/-! ## What went in and what came out, from the calls and the answers alone -/

/-- The answers to calls made one after the other. -/
def answersOf (P : DocPipe K) : List (DocCall K X) → List (Except Err (RichDoc K X))
  | [] => []
  | c :: cs => (c.run P).1 :: answersOf (c.run P).2 cs

/-- The document a call gives to the processors, unless the parser failed. -/
def givenDoc : DocCall K X → Option (RichDoc K X)
  | .text t r => some { text := some t, rest := r }
  | .parsed (.ok d) => some d
  | .parsed (.error _) => none

/-- The texts given to the processors. -/
def readTexts (calls : List (DocCall K X)) : List Text := (calls.filterMap givenDoc).filterMap (·.text)

/-- The characters of some texts. -/
def charsOf (ts : List Text) : Nat := (ts.map List.length).sum

/-- The chunks callers got. -/
def gotChunks (rs : List (Except Err (RichDoc K X))) : List Chunk :=
  rs.flatMap fun r => match r with | .ok d => d.chunks.getD [] | .error _ => []

/-- The texts callers got an embedding of: the text of a document, then those of its chunks. -/
def gotTexts (rs : List (Except Err (RichDoc K X))) : List Text :=
  rs.flatMap fun r => match r with
    | .ok d => d.text.toList ++ (d.chunks.getD []).map (·.text)
    | .error _ => []

/-- Those with a visible character. -/
def notBlank (ts : List Text) : List Text := ts.filter fun t => decide (strip t ≠ [])

/-! ## One call -/

theorem ps_step (L : CleanLib) (cc : CleanCfg) (E : EmbEnv K) (cl : CleanStats) (p : Chunker) (st : EmbSt K)
    (hi : p.inited = true) (c : DocCall K X) :
    let P : DocPipe K := ⟨[.clean L cc cl, .chunk p, .embed E st], true⟩
    (givenDoc c = none → (c.run P).2 = P ∧ (c.run P).1 = .error .processing) ∧
    (∀ d, givenDoc c = some d → d.text = none →
      (c.run P).2 = ⟨[.clean L cc ⟨cl.docs + 1, cl.before, cl.after⟩, .chunk p, .embed E st], true⟩ ∧
      (c.run P).1 = .error .processing) ∧
    ∀ d t raw, givenDoc c = some d → d.text = some t → p.raw (cleanText L cc t) = .ok raw →
      ∀ o, o = embedProcess E st (some (cleanText L cc t))
        (some (((filterBySize p.cfg raw).map (·.text)).map some)) →
      (c.run P).2 = ⟨[.clean L cc ⟨cl.docs + 1, cl.before + t.length, cl.after + (cleanText L cc t).length⟩,
        .chunk { p with chars := p.chars + (cleanText L cc t).length,
                        created := p.created + (filterBySize p.cfg raw).length },
        .embed E o.2], true⟩ ∧
      (∀ e, o.1 = .error e → (c.run P).1 = .error .processing) ∧
      (∀ v, o.1 = .ok v → ∃ d', (c.run P).1 = .ok d' ∧ d'.text = some (cleanText L cc t) ∧
        d'.chunks = some (filterBySize p.cfg raw)) := by
  obtain ⟨pc, pi, pn, pm⟩ := p
  simp only at hi
  subst hi
  have key : ∀ d : RichDoc K X, ∀ P : DocPipe K,
      P = ⟨[.clean L cc cl, .chunk ⟨pc, true, pn, pm⟩, .embed E st], true⟩ →
      (d.text = none → (P.processParsed (.ok d)).2 =
          ⟨[.clean L cc ⟨cl.docs + 1, cl.before, cl.after⟩, .chunk ⟨pc, true, pn, pm⟩, .embed E st], true⟩ ∧
        (P.processParsed (.ok d)).1 = .error .processing) ∧
      ∀ t raw, d.text = some t → (⟨pc, true, pn, pm⟩ : Chunker).raw (cleanText L cc t) = .ok raw →
        ∀ o, o = embedProcess E st (some (cleanText L cc t))
          (some (((filterBySize pc raw).map (·.text)).map some)) →
        (P.processParsed (.ok d)).2 =
          ⟨[.clean L cc ⟨cl.docs + 1, cl.before + t.length, cl.after + (cleanText L cc t).length⟩,
            .chunk ⟨pc, true, pn + (filterBySize pc raw).length, pm + (cleanText L cc t).length⟩,
            .embed E o.2], true⟩ ∧
        (∀ e, o.1 = .error e → (P.processParsed (.ok d)).1 = .error .processing) ∧
        (∀ v, o.1 = .ok v → ∃ d', (P.processParsed (.ok d)).1 = .ok d' ∧
          d'.text = some (cleanText L cc t) ∧ d'.chunks = some (filterBySize pc raw)) := by
    rintro ⟨text, chunks, emb, cemb, used, rest⟩ P rfl
    refine ⟨?_, ?_⟩
    · rintro rfl
      simp only [DocPipe.processParsed, Bool.not_true, Bool.false_eq_true, if_false, runStages,
        Stage.process, cleanProcess, Option.map_none, Chunker.process, Bool.true_eq_false]
      exact ⟨trivial, trivial⟩
    · rintro t raw ht hraw o ho
      simp only at ht
      subst ht
      replace hraw := (raw_cfg ⟨pc, true, pn, pm + (cleanText L cc t).length⟩ ⟨pc, true, pn, pm⟩ rfl _).trans hraw
      simp only [DocPipe.processParsed, Bool.not_true, Bool.false_eq_true, if_false, runStages,
        Stage.process, cleanProcess, Option.map_some, Chunker.process, Bool.true_eq_false, hraw]
      rw [List.map_map] at ho
      have hcomp : (fun ch : Chunk => some ch.text) = some ∘ fun ch => ch.text := rfl
      rw [hcomp, ← ho]
      rcases o with ⟨e | ⟨v, vs⟩, st'⟩
      · exact ⟨rfl, fun _ _ => rfl, fun v h => (by cases h)⟩
      · exact ⟨rfl, fun e h => (by cases h), fun _ _ => ⟨_, rfl, rfl, rfl⟩⟩
  intro P
  cases c with
  | text t r =>
    refine ⟨fun h => (by simp [givenDoc] at h), ?_, ?_⟩
    · intro d hd ht
      simp only [givenDoc, Option.some.injEq] at hd
      subst hd
      simp at ht
    · intro d t' raw hd ht hraw
      simp only [givenDoc, Option.some.injEq] at hd
      subst hd
      exact (key _ P rfl).2 t' raw ht hraw
  | parsed r =>
    cases r with
    | error e => exact ⟨fun _ => ⟨rfl, rfl⟩, fun d hd => (by simp [givenDoc] at hd),
        fun d t raw hd => (by simp [givenDoc] at hd)⟩
    | ok d0 =>
      refine ⟨fun h => (by simp [givenDoc] at h), ?_, ?_⟩
      · intro d hd ht
        simp only [givenDoc, Option.some.injEq] at hd
        subst hd
        exact (key _ P rfl).1 ht
      · intro d t' raw hd ht hraw
        simp only [givenDoc, Option.some.injEq] at hd
        subst hd
        exact (key _ P rfl).2 t' raw ht hraw

/-! ## Embeddings -/

/-- What the counters of an embedding processor say after the texts `seen`, none of them blank. -/
structure EmbCount (E : EmbEnv K) (st : EmbSt K) (seen : List Text) : Prop where
  texts : st.texts = st.generated
  total : st.hits + st.generated = seen.length
  plain : E.cached = false → st.hits = 0 ∧ st.cache = []
  nodup : st.cache.keys.Nodup
  size : E.cached = true → st.cache.length = st.generated
  keys : E.cached = true → ∀ k, k ∈ st.cache.keys ↔ ∃ t ∈ seen, cacheKey E t = k

theorem count_embed (E : EmbEnv K) (st : EmbSt K) (seen : List Text) (h : EmbCount E st seen) (t : Text)
    (hok : ∀ e, E.encode t ≠ .error e) :
    EmbCount E (embed E st t).2 (seen ++ notBlank [t]) ∧ ∃ v, (embed E st t).1 = .ok v := by
  obtain ⟨h1, h2, h3, h4, h5, h6⟩ := h
  by_cases hb : strip t = []
  · have hn : notBlank [t] = [] := by simp [notBlank, hb]
    rw [hn, List.append_nil]
    simp only [embed, generate, if_pos hb, EmbSt.alloc]
    exact ⟨⟨h1, h2, h3, h4, h5, h6⟩, _, rfl⟩
  · have hn : notBlank [t] = [t] := by simp [notBlank, hb]
    rw [hn]
    obtain ⟨v, hv⟩ : ∃ v, E.encode t = .ok v := by
      cases he : E.encode t with
      | error e => exact absurd he (hok e)
      | ok v => exact ⟨v, rfl⟩
    cases hc : E.cached with
    | false =>
      simp only [embed, generate, if_neg hb, hc, Bool.false_eq_true, if_false, hv, EmbSt.alloc]
      obtain ⟨k1, k2⟩ := h3 hc
      refine ⟨⟨?_, ?_, fun _ => ⟨k1, k2⟩, h4, fun h => (by rw [hc] at h; cases h),
        fun h => (by rw [hc] at h; cases h)⟩, _, rfl⟩
      · simp only [h1]
      · simp only [List.length_append, List.length_singleton]; omega
    | true =>
      cases hg : st.cache.get? (cacheKey E t) with
      | some r =>
        simp only [embed, generate, if_neg hb, hc, if_true, hg]
        refine ⟨⟨h1, ?_, fun h => (by rw [hc] at h; cases h), h4, h5, fun _ k => ?_⟩, _, rfl⟩
        · simp only [List.length_append, List.length_singleton]; omega
        · rw [h6 hc k]
          have hk : cacheKey E t ∈ st.cache.keys := by rw [Dict.mem_keys, hg]; rfl
          constructor
          · rintro ⟨u, hu, rfl⟩; exact ⟨u, List.mem_append_left _ hu, rfl⟩
          · rintro ⟨u, hu, rfl⟩
            rcases List.mem_append.1 hu with hu | hu
            · exact ⟨u, hu, rfl⟩
            · rw [List.mem_singleton] at hu
              subst hu
              exact (h6 hc _).1 hk
      | none =>
        have hk : cacheKey E t ∉ st.cache.keys := (Dict.get?_eq_none _ _).1 hg
        simp only [embed, generate, if_neg hb, hc, if_true, hg, hv, EmbSt.alloc]
        have hks : ∀ r, (st.cache.set (cacheKey E t) r).keys = st.cache.keys ++ [cacheKey E t] := by
          intro r
          rw [Dict.keys_set, if_neg hk]
        refine ⟨⟨by simp only [h1], ?_, fun h => (by rw [hc] at h; cases h), ?_, fun _ => ?_,
          fun _ k => ?_⟩, _, rfl⟩
        · simp only [List.length_append, List.length_singleton]; omega
        · exact Dict.nodup_set h4 _ _
        · show (st.cache.set (cacheKey E t) st.heap.length).length = st.generated + 1
          rw [← Dict.length_keys, hks, List.length_append, Dict.length_keys, h5 hc]
          rfl
        · show k ∈ (st.cache.set (cacheKey E t) st.heap.length).keys ↔ _
          rw [hks, List.mem_append, h6 hc k, List.mem_singleton]
          constructor
          · rintro (⟨u, hu, rfl⟩ | rfl)
            · exact ⟨u, List.mem_append_left _ hu, rfl⟩
            · exact ⟨t, by simp, rfl⟩
          · rintro ⟨u, hu, rfl⟩
            rcases List.mem_append.1 hu with hu | hu
            · exact .inl ⟨u, hu, rfl⟩
            · rw [List.mem_singleton] at hu
              subst hu
              exact .inr rfl

theorem count_each (E : EmbEnv K) (hok : ∀ t e, E.encode t ≠ .error e) (ts : List Text) (st : EmbSt K)
    (seen : List Text) (h : EmbCount E st seen) :
    EmbCount E (embedEach E st ts).2 (seen ++ notBlank ts) ∧ ∃ vs, (embedEach E st ts).1 = .ok vs := by
  induction ts generalizing st seen with
  | nil => exact ⟨by simpa [embedEach, notBlank] using h, [], rfl⟩
  | cons t ts ih =>
    obtain ⟨h1, v, h2⟩ := count_embed E st seen h t (hok t)
    rcases hq : embed E st t with ⟨r, s1⟩
    rw [hq] at h1 h2
    simp only at h1 h2
    subst h2
    obtain ⟨k1, vs, k2⟩ := ih s1 _ h1
    rcases hr : embedEach E s1 ts with ⟨r', s2⟩
    rw [hr] at k1 k2
    simp only at k1 k2
    subst k2
    simp only [embedEach, hq, hr]
    refine ⟨?_, _, rfl⟩
    have : notBlank (t :: ts) = notBlank [t] ++ notBlank ts := by
      unfold notBlank; rw [← List.filter_append]; rfl
    rw [this, ← List.append_assoc]
    exact k1

theorem count_process (E : EmbEnv K) (hok : ∀ t e, E.encode t ≠ .error e) (t : Text) (ts : List Text)
    (st : EmbSt K) (seen : List Text) (h : EmbCount E st seen) :
    EmbCount E (embedProcess E st (some t) (some (ts.map some))).2 (seen ++ notBlank (t :: ts)) ∧
      ∃ v, (embedProcess E st (some t) (some (ts.map some))).1 = .ok v := by
  have hfm : (ts.map some).filterMap id = ts := by
    rw [List.filterMap_map]
    simp
  obtain ⟨h1, v, h2⟩ := count_embed E st seen h t (hok t)
  rcases hq : embed E st t with ⟨r, s1⟩
  rw [hq] at h1 h2
  simp only at h1 h2
  subst h2
  obtain ⟨k1, vs, k2⟩ := count_each E hok ts s1 _ h1
  rcases hr : embedEach E s1 ts with ⟨r', s2⟩
  rw [hr] at k1 k2
  simp only at k1 k2
  subst k2
  simp only [embedProcess, hq, hfm, hr]
  refine ⟨?_, _, rfl⟩
  have : notBlank (t :: ts) = notBlank [t] ++ notBlank ts := by
    unfold notBlank; rw [← List.filter_append]; rfl
  rw [this, ← List.append_assoc]
  exact k1

theorem embed_never (E : EmbEnv K) (hok : ∀ t e, E.encode t ≠ .error e) (s : EmbSt K) (t : Text) :
    ∃ v, (embed E s t).1 = .ok v := by
  by_cases hb : strip t = []
  · exact ⟨_, by simp only [embed, generate, if_pos hb, EmbSt.alloc]; rfl⟩
  · cases hg : (if E.cached then s.cache.get? (cacheKey E t) else none) with
    | some r => exact ⟨_, by simp only [embed, generate, if_neg hb, hg]; rfl⟩
    | none =>
      cases he : E.encode t with
      | error e => exact absurd he (hok t e)
      | ok v => exact ⟨_, by simp only [embed, generate, if_neg hb, hg, he, EmbSt.alloc]; rfl⟩

theorem each_never (E : EmbEnv K) (hok : ∀ t e, E.encode t ≠ .error e) (ts : List Text) (s : EmbSt K) :
    ∃ vs, (embedEach E s ts).1 = .ok vs := by
  induction ts generalizing s with
  | nil => exact ⟨[], rfl⟩
  | cons t ts ih =>
    obtain ⟨v, h1⟩ := embed_never E hok s t
    rcases hq : embed E s t with ⟨r, s1⟩
    rw [hq] at h1
    simp only at h1
    subst h1
    obtain ⟨vs, h2⟩ := ih s1
    rcases hr : embedEach E s1 ts with ⟨r, s2⟩
    rw [hr] at h2
    simp only at h2
    subst h2
    exact ⟨_, by simp only [embedEach, hq, hr]; rfl⟩

theorem process_never (E : EmbEnv K) (hok : ∀ t e, E.encode t ≠ .error e) (t : Text) (ts : List Text)
    (s : EmbSt K) : ∃ v, (embedProcess E s (some t) (some (ts.map some))).1 = .ok v := by
  have hfm : (ts.map some).filterMap id = ts := by
    rw [List.filterMap_map]
    simp
  obtain ⟨v, h1⟩ := embed_never E hok s t
  rcases hq : embed E s t with ⟨r, s1⟩
  rw [hq] at h1
  simp only at h1
  subst h1
  obtain ⟨vs, h2⟩ := each_never E hok ts s1
  rcases hr : embedEach E s1 ts with ⟨r, s2⟩
  rw [hr] at h2
  simp only at h2
  subst h2
  exact ⟨_, by simp only [embedProcess, hq, hfm, hr]; rfl⟩

/-! ## Any calls -/

/-- The chunks of a cleaned text that are kept. -/
def KeptChunks (L : CleanLib) (cc : CleanCfg) (ck : ChunkCfg) (t : Text) (cs : List Chunk) : Prop :=
  ∃ raw, RawChunks ck (cleanText L cc t) raw ∧
    cs = raw.filter fun ch => decide (ck.minChunkSize ≤ (ch.text.length : Int) ∧
      (ch.text.length : Int) ≤ ck.maxChunkSize)

theorem readTexts_cons (c : DocCall K X) (cs : List (DocCall K X)) :
    readTexts (c :: cs) = ((givenDoc c).bind (·.text)).toList ++ readTexts cs := by
  unfold readTexts
  cases h : givenDoc c with
  | none => simp [h]
  | some d => cases ht : d.text <;> simp [h, ht]

theorem ps_run (L : CleanLib) (cc : CleanCfg) (ck : ChunkCfg) (hck : GoodChunking ck) (E : EmbEnv K)
    (calls : List (DocCall K X)) (cl : CleanStats) (n m : Nat) (st : EmbSt K) :
    ∃ P css st', P = (⟨[.clean L cc cl, .chunk ⟨ck, true, n, m⟩, .embed E st], true⟩ : DocPipe K) ∧
      List.Forall₂ (KeptChunks L cc ck) (readTexts calls) css ∧
      P.after calls = ⟨[.clean L cc ⟨cl.docs + (calls.filterMap givenDoc).length,
          cl.before + charsOf (readTexts calls),
          cl.after + charsOf ((readTexts calls).map (cleanText L cc))⟩,
        .chunk ⟨ck, true, n + css.flatten.length, m + charsOf ((readTexts calls).map (cleanText L cc))⟩,
        .embed E st'], true⟩ ∧
      (gotChunks (answersOf P calls)).length ≤ css.flatten.length ∧
      ((∀ t e, E.encode t ≠ .error e) →
        gotChunks (answersOf P calls) = css.flatten ∧
        ∀ seen, EmbCount E st seen → EmbCount E st' (seen ++ notBlank (gotTexts (answersOf P calls)))) := by
  induction calls generalizing cl n m st with
  | nil =>
    exact ⟨_, [], st, rfl, .nil, by simp [DocPipe.after, charsOf, readTexts], by simp [answersOf, gotChunks],
      fun _ => ⟨rfl, fun seen h => by simpa [answersOf, gotTexts, notBlank] using h⟩⟩
  | cons c cs ih =>
    refine ⟨⟨[.clean L cc cl, .chunk ⟨ck, true, n, m⟩, .embed E st], true⟩, ?_⟩
    obtain ⟨s1, s2, s3⟩ := ps_step L cc E cl ⟨ck, true, n, m⟩ st rfl c
    have haft : ∀ P : DocPipe K, P.after (c :: cs) = (c.run P).2.after cs := fun P => rfl
    have hgc : ∀ (r : Except Err (RichDoc K X)) rs, gotChunks (r :: rs) = gotChunks [r] ++ gotChunks rs := by
      intro r rs; simp [gotChunks]
    have hgt : ∀ (r : Except Err (RichDoc K X)) rs, gotTexts (r :: rs) = gotTexts [r] ++ gotTexts rs := by
      intro r rs; simp [gotTexts]
    have hans : ∀ P : DocPipe K, answersOf P (c :: cs) = (c.run P).1 :: answersOf (c.run P).2 cs :=
      fun P => rfl
    cases hg : givenDoc c with
    | none =>
      obtain ⟨a1, a2⟩ := s1 hg
      obtain ⟨P, css, st', rfl, i1, i2, i3, i4⟩ := ih cl n m st
      have hrt : readTexts (c :: cs) = readTexts cs := by rw [readTexts_cons, hg]; rfl
      refine ⟨css, st', rfl, hrt ▸ i1, ?_, ?_, ?_⟩
      · rw [haft, a1, i2, hrt, List.filterMap_cons, hg]
      · rw [hans, a1, a2, hgc]; simpa [gotChunks] using i3
      · rw [hans, a1, a2, hgc, hgt]
        simpa [gotChunks, gotTexts] using i4
    | some d =>
      cases ht : d.text with
      | none =>
        obtain ⟨a1, a2⟩ := s2 d hg ht
        obtain ⟨P, css, st', rfl, i1, i2, i3, i4⟩ := ih ⟨cl.docs + 1, cl.before, cl.after⟩ n m st
        have hrt : readTexts (c :: cs) = readTexts cs := by rw [readTexts_cons, hg, Option.bind_some, ht]; rfl
        refine ⟨css, st', rfl, hrt ▸ i1, ?_, ?_, ?_⟩
        · rw [haft, a1, i2, hrt, List.filterMap_cons, hg]
          simp only [List.length_cons]
          rw [Nat.add_assoc, Nat.add_comm 1]
        · rw [hans, a1, a2, hgc]; simpa [gotChunks] using i3
        · rw [hans, a1, a2, hgc, hgt]
          simpa [gotChunks, gotTexts] using i4
      | some t =>
        obtain ⟨raw, hr1, hr2⟩ := dp_raw ck hck (cleanText L cc t)
        replace hr2 := (raw_cfg ⟨ck, true, n, m⟩ ⟨ck, true, 0, 0⟩ rfl _).trans hr2
        obtain ⟨o, ho⟩ : ∃ o, o = embedProcess E st (some (cleanText L cc t))
          (some (((filterBySize ck raw).map (·.text)).map some)) := ⟨_, rfl⟩
        obtain ⟨a1, a2, a3⟩ := s3 d t raw hg ht hr2 o ho
        simp only at a1 a2 a3
        obtain ⟨P, css, st', rfl, i1, i2, i3, i4⟩ := ih
          ⟨cl.docs + 1, cl.before + t.length, cl.after + (cleanText L cc t).length⟩
          (n + (filterBySize ck raw).length) (m + (cleanText L cc t).length) o.2
        have hrt : readTexts (c :: cs) = t :: readTexts cs := by
          rw [readTexts_cons, hg, Option.bind_some, ht]; rfl
        refine ⟨filterBySize ck raw :: css, st', rfl, ?_, ?_, ?_, ?_⟩
        · rw [hrt]
          exact .cons ⟨raw, hr1, ck_filter ck raw⟩ i1
        · rw [haft, a1, i2, hrt, List.filterMap_cons, hg]
          simp only [List.length_cons, charsOf, List.map_cons, List.sum_cons, List.flatten_cons,
            List.length_append, Nat.add_assoc, Nat.add_comm 1]
        · rw [hans, a1, hgc, List.length_append, List.flatten_cons, List.length_append]
          have : (gotChunks [(c.run ⟨[.clean L cc cl, .chunk ⟨ck, true, n, m⟩, .embed E st], true⟩).1]).length ≤
              (filterBySize ck raw).length := by
            cases ho1 : o.1 with
            | error e => rw [a2 e ho1]; simp [gotChunks]
            | ok v =>
              obtain ⟨d', b1, -, b3⟩ := a3 v ho1
              rw [b1]; simp [gotChunks, b3]
          omega
        · intro hok
          obtain ⟨i5, i6⟩ := i4 hok
          have hv : ∃ v, o.1 = .ok v := by
            rw [ho]; exact process_never E hok _ _ _
          obtain ⟨v, hv⟩ := hv
          obtain ⟨d', b1, b2, b3⟩ := a3 v hv
          rw [hans, a1, b1, hgc, hgt, i5]
          refine ⟨by simp [gotChunks, b3], fun seen hs => ?_⟩
          obtain ⟨q1, -⟩ := count_process E hok (cleanText L cc t) ((filterBySize ck raw).map (·.text)) st seen hs
          rw [← ho] at q1
          have := i6 _ q1
          have hn : gotTexts [(Except.ok d' : Except Err (RichDoc K X))] =
              cleanText L cc t :: (filterBySize ck raw).map (·.text) := by simp [gotTexts, b2, b3]
          rw [hn]
          unfold notBlank at this ⊢
          rw [List.filter_append, ← List.append_assoc]
          exact this

/-! ## C214 -/

/-- The state of the three processors as `get_pipeline_info` reads it: the counters of cleaning and of
chunking, and the embedding processor. -/
def pipeCounts (P : DocPipe K) : Option (CleanStats × Chunker × EmbSt K) :=
  match P.stages with
  | [.clean _ _ cl, .chunk ck, .embed _ em] => some (cl, ck, em)
  | _ => none

/-- **C214.** Whatever calls a new pipeline got, and whichever of them failed: `documents_processed`
counts the documents the parser delivered (those without text included), the character counters add up
the texts before and after cleaning, `total_characters_processed` of chunking is the latter, and
`chunks_created` is the number of chunks of the cleaned texts, at least that of the chunks callers got. -/
theorem C214_counts (L : CleanLib) (cc : CleanCfg) (ck : ChunkCfg) (hck : GoodChunking ck) (E : EmbEnv K)
    (calls : List (DocCall K X)) :
    ∃ cl p em css, pipeCounts ((docPipe L cc ck E).after calls) = some (cl, p, em) ∧
      cl.docs = (calls.filterMap givenDoc).length ∧
      cl.before = charsOf (readTexts calls) ∧
      cl.after = charsOf ((readTexts calls).map (cleanText L cc)) ∧
      p.chars = charsOf ((readTexts calls).map (cleanText L cc)) ∧
      List.Forall₂ (KeptChunks L cc ck) (readTexts calls) css ∧ p.created = css.flatten.length ∧
      (gotChunks (answersOf (docPipe L cc ck E) calls)).length ≤ p.created := by
  obtain ⟨P, css, st', rfl, h1, h2, h3, -⟩ := ps_run L cc ck hck E calls ⟨0, 0, 0⟩ 0 0 .fresh
  refine ⟨_, _, _, css, congrArg pipeCounts h2, ?_⟩
  simp only [Nat.zero_add, true_and]
  exact ⟨h1, h3⟩

theorem count_fresh (E : EmbEnv K) : EmbCount E (.fresh : EmbSt K) [] :=
  ⟨rfl, rfl, fun _ => ⟨rfl, rfl⟩, List.nodup_nil, fun _ => rfl, fun _ k => by simp [EmbSt.fresh, Dict.keys]⟩

/-- **C214.** When the model answers every text, the counters are those of what callers got:
`chunks_created` counts the chunks in the answers, and of the embeddings in the answers that belong to
texts with a visible character (of documents and chunks) each was generated or came out of the cache.
With the cache one is generated for each different text, and the cache holds these; without, all are. -/
theorem C214_answers (L : CleanLib) (cc : CleanCfg) (ck : ChunkCfg) (hck : GoodChunking ck) (E : EmbEnv K)
    (hd : Function.Injective E.digest) (hok : ∀ t e, E.encode t ≠ .error e) (calls : List (DocCall K X)) :
    ∃ cl p em ts, pipeCounts ((docPipe L cc ck E).after calls) = some (cl, p, em) ∧
      p.created = (gotChunks (answersOf (docPipe L cc ck E) calls)).length ∧
      ts = notBlank (gotTexts (answersOf (docPipe L cc ck E) calls)) ∧
      em.texts = em.generated ∧ em.hits + em.generated = ts.length ∧
      (E.cached = false → em.generated = ts.length ∧ em.cache = []) ∧
      (E.cached = true → em.generated = ts.dedup.length ∧ em.cache.length = ts.dedup.length) := by
  obtain ⟨P, css, st', rfl, h1, h2, h3, h4⟩ := ps_run L cc ck hck E calls ⟨0, 0, 0⟩ 0 0 .fresh
  obtain ⟨h5, h6⟩ := h4 hok
  have h7 := h6 [] (count_fresh E)
  rw [List.nil_append] at h7
  refine ⟨_, _, _, _, congrArg pipeCounts h2, ?_, rfl, h7.texts, h7.total, fun hc => ?_, fun hc => ?_⟩
  · simp only [Nat.zero_add]
    rw [← h5]
    rfl
  · obtain ⟨k1, k2⟩ := h7.plain hc
    have := h7.total
    rw [k1, Nat.zero_add] at this
    exact ⟨this, k2⟩
  · have hlen : st'.cache.length = (notBlank (gotTexts (answersOf (docPipe L cc ck E) calls))).dedup.length := by
      rw [← Dict.length_keys]
      have hp : List.Perm st'.cache.keys
          ((notBlank (gotTexts (answersOf (docPipe L cc ck E) calls))).dedup.map (cacheKey E)) := by
        rw [List.perm_ext_iff_of_nodup h7.nodup
          ((List.nodup_dedup _).map fun _ _ h => cacheKey_inj E hd h)]
        intro k
        rw [h7.keys hc k, List.mem_map]
        simp only [List.mem_dedup]
        rfl
      rw [hp.length_eq, List.length_map]
    exact ⟨(h7.size hc).symm.trans hlen, hlen⟩

/-- When the model fails the counters are not those of what callers got: cutting comes before embedding,
so that the chunks of a document that was refused are counted. -/
theorem C214_failed_refuted :
    ¬ ∀ (L : CleanLib) (cc : CleanCfg) (ck : ChunkCfg) (E : EmbEnv Int) (calls : List (DocCall Int Unit)),
      GoodChunking ck → ∃ cl p em, pipeCounts ((docPipe L cc ck E).after calls) = some (cl, p, em) ∧
        p.created = (gotChunks (answersOf (docPipe L cc ck E) calls)).length := by
  intro h
  obtain ⟨cl, p, em, h1, h2⟩ := h exClLib {} { exCkCfg "fixed_size" 10 0 with minChunkSize := 1 } exEmb
    [.text "bad".toList ()] ⟨by decide, by decide, by decide⟩
  have h3 : (pipeCounts ((docPipe exClLib {} { exCkCfg "fixed_size" 10 0 with minChunkSize := 1 } exEmb).after
      [.text "bad".toList ()])).map (fun x => x.2.1.created) ≠
      some (gotChunks (answersOf (docPipe exClLib {} { exCkCfg "fixed_size" 10 0 with minChunkSize := 1 } exEmb)
        [.text "bad".toList ()])).length := by decide +kernel
  rw [h1] at h3
  exact h3 (by rw [← h2]; rfl)

/-- Two documents, the second twice, and one that cannot be parsed. -/
def exPipeCalls : List (DocCall Int Unit) :=
  [.text " A<b>a</b>a \n b  ".toList (), .parsed (.error .parsing), .text "one two three".toList (),
    .text "one two three".toList ()]

/-- An embedding model that answers every text. -/
def exEmbAll : EmbEnv Int := { exEmb with encode := fun t => .ok [(t.length : Int), 1] }

example : Function.Injective exEmbAll.digest ∧ (∀ t e, exEmbAll.encode t ≠ .error e) ∧
    (pipeCounts ((docPipe exClLib {} { exCkCfg "fixed_size" 10 0 with minChunkSize := 1 } exEmbAll).after
      exPipeCalls)).map (fun x => (x.1, x.2.1.created, x.2.1.chars, x.2.2.generated, x.2.2.hits)) =
      some (⟨3, 43, 31⟩, 5, 31, 4, 4) := by
  refine ⟨fun _ _ h => h, fun t e h => by simp [exEmbAll] at h, ?_⟩
  decide +kernel

end Valori.Props
