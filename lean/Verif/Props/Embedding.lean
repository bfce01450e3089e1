import Verif.Lemmas.Embedding
import Mathlib.Tactic.NormNum

/-!
# Properties of the embedding processor (C67, C111–C116)
-/

namespace Valori.Props
open Valori Spec

variable {K : Type}

/-- White space only, or empty. -/
def Blank (t : Text) : Prop := ∀ c ∈ t, isSpace c = true

/-- What the embedding of `t` should be: zeros for a blank text, otherwise the model's answer, divided
by its norm when asked for. -/
def IsEmbedding (E : EmbEnv K) (t : Text) (r : Except Err (List K)) : Prop :=
  (Blank t → r = .ok (List.replicate 384 E.zero)) ∧
    (¬ Blank t → (∀ e, E.encode t = .error e → r = .error e) ∧
      ∀ v, E.encode t = .ok v → E.normalize = false → r = .ok v) ∧
    (¬ Blank t → ∀ v, E.encode t = .ok v → E.normalize = true →
      r = .ok (v.map fun x => E.div x (E.norm v)))

/-- A processor after a history. -/
def embAfter (E : EmbEnv K) (ops : List (EmbOp K)) : EmbSt K := (embRun E .fresh ops).2

theorem em_blank (t : Text) : strip t = [] ↔ Blank t := by
  refine ⟨strip_eq_nil, fun h => ?_⟩
  have : t.dropWhile isSpace = [] := by
    induction t with
    | nil => rfl
    | cons c t ih =>
      rw [List.dropWhile_cons_of_pos (h c (by simp))]
      exact ih fun x hx => h x (by simp [hx])
  rw [strip, this]
  rfl

theorem em_pure (E : EmbEnv K) (t : Text) : IsEmbedding E t (pureEmb E t) := by
  refine ⟨fun h => ?_, fun h => ⟨fun e he => ?_, fun v he hn => ?_⟩, fun h v he hn => ?_⟩
  · rw [pureEmb, if_pos ((em_blank t).2 h)]
  · rw [pureEmb, if_neg (fun hb => h ((em_blank t).1 hb)), he]
    rfl
  · rw [pureEmb, if_neg (fun hb => h ((em_blank t).1 hb)), he]
    simp [Except.map, finish, hn]
  · rw [pureEmb, if_neg (fun hb => h ((em_blank t).1 hb)), he]
    simp [Except.map, finish, hn]

theorem em_unique (E : EmbEnv K) (t : Text) (r : Except Err (List K)) (h : IsEmbedding E t r) :
    r = pureEmb E t := by
  have hp := em_pure E t
  by_cases hb : Blank t
  · rw [h.1 hb, hp.1 hb]
  · cases he : E.encode t with
    | error e => rw [(h.2.1 hb).1 e he, (hp.2.1 hb).1 e he]
    | ok v =>
      cases hn : E.normalize with
      | false => rw [(h.2.1 hb).2 v he hn, (hp.2.1 hb).2 v he hn]
      | true => rw [h.2.2 hb v he hn, hp.2.2 hb v he hn]

theorem em_reads {ops : List (EmbOp K)} (h : ∀ r v, EmbOp.write r v ∉ ops) : ∀ o ∈ ops, o.reads := by
  intro o ho
  cases o with
  | write r v => exact absurd ho (h r v)
  | _ => trivial

/-- **C67.** In every history of embeddings, batches, cache clears and statistics calls, the answers
with caching are those without, for a model that is a function and a digest without collisions. -/
theorem C67_cache (E : EmbEnv K) (hd : Function.Injective E.digest) (ops : List (EmbOp K))
    (hw : ∀ r v, EmbOp.write r v ∉ ops) :
    (embRun { E with cached := true } .fresh ops).1 = (embRun { E with cached := false } .fresh ops).1 := by
  rw [(run_spec { E with cached := true } (fun _ => hd) ops (fun _ => em_reads hw) _ (embInv_fresh _)).1,
    (run_spec { E with cached := false } (fun h => by cases h) ops (fun h => by cases h) _
      (embInv_fresh _)).1]
  apply List.map_congr_left
  intro o _
  exact (pure_cached E true o).trans (pure_cached E false o).symm

/-- **C67.** At every point of such a history a text gets the embedding it should: zeros of length 384
when blank, otherwise what the model says. -/
theorem C67_value (E : EmbEnv K) (hd : Function.Injective E.digest) (ops : List (EmbOp K))
    (hw : ∀ r v, EmbOp.write r v ∉ ops) (t : Text) :
    IsEmbedding E t (embed E (embAfter E ops) t).1 := by
  obtain ⟨-, h⟩ := run_spec E (fun _ => hd) ops (fun _ => em_reads hw) _ (embInv_fresh _)
  rw [embAfter, (embed_spec E (fun _ => hd) _ h t).1]
  exact em_pure E t

/-- **C67.** The string that is digested determines the text. -/
theorem C67_key (E : EmbEnv K) (t u : Text) (h : keyText E t = keyText E u) : t = u := keyText_inj E h

/-- Vectors of length 3 over the integers: the number of characters, of `a`, and one. -/
def exEmb : EmbEnv Int where
  modelName := "m".toList
  modelType := .sentenceTransformers
  batchSize := 2
  cached := true
  normalize := false
  encode := fun t => if t = "bad".toList then .error .other else
    .ok [(t.length : Int), (t.count 'a' : Int), 1]
  encodeMany := fun ts => allOk (ts.map fun t => if t = "bad".toList then .error .other else
    .ok [(t.length : Int), (t.count 'a' : Int), 1])
  norm := fun _ => 1
  div := fun x _ => x
  zero := 0
  digest := id
  raggedRaises := true

example : Function.Injective exEmb.digest := fun _ _ h => h

example : (embRun exEmb .fresh [.embed "aba".toList, .embed "aba".toList, .clear, .embed "bad".toList,
      .batch ["b".toList, "a".toList, "aa".toList]]).1 =
    [some (.ok [[3, 2, 1]]), some (.ok [[3, 2, 1]]), none, some (.error .other),
      some (.ok [[1, 0, 1], [1, 1, 1], [2, 2, 1]])] := by decide +kernel

/-- **C111 (partial).** If the model's vectors all have length `d`, the embedding of a text that is not
blank has length `d`; if `d` is 384, of every text. Missing: blank texts for other models, see
`C111_dims_refuted`. -/
theorem C111_dims_partial (E : EmbEnv K) (hd : Function.Injective E.digest) (d : Nat)
    (hm : ∀ t v, E.encode t = .ok v → v.length = d) (ops : List (EmbOp K))
    (hw : ∀ r v, EmbOp.write r v ∉ ops) (t : Text) (ht : ¬ Blank t ∨ d = 384) (v : List K)
    (hv : (embed E (embAfter E ops) t).1 = .ok v) : v.length = d := by
  obtain ⟨h1, h2, h3⟩ := C67_value E hd ops hw t
  rw [hv] at h1 h2 h3
  by_cases hb : Blank t
  · have := h1 hb
    rw [Except.ok.injEq] at this
    rw [this, List.length_replicate]
    rcases ht with ht | ht
    · exact absurd hb ht
    · exact ht.symm
  · cases he : E.encode t with
    | error e => exact absurd ((h2 hb).1 e he) (by simp)
    | ok u =>
      cases hn : E.normalize with
      | false =>
        have := (h2 hb).2 u he hn
        rw [Except.ok.injEq] at this
        rw [this]
        exact hm t u he
      | true =>
        have := h3 hb u he hn
        rw [Except.ok.injEq] at this
        rw [this, List.length_map]
        exact hm t u he

/-- **C111 (refuted).** With a model of any other length, a blank text and any other text get vectors
of different lengths, at every point of every history. -/
theorem C111_dims_refuted (E : EmbEnv K) (hd : Function.Injective E.digest) (d : Nat) (h384 : d ≠ 384)
    (hm : ∀ t v, E.encode t = .ok v → v.length = d) (ops : List (EmbOp K))
    (hw : ∀ r v, EmbOp.write r v ∉ ops) (t u : Text) (ht : Blank t) (hu : ¬ Blank u) (v w : List K)
    (hv : (embed E (embAfter E ops) t).1 = .ok v) (hw' : (embed E (embAfter E ops) u).1 = .ok w) :
    v.length ≠ w.length := by
  have h1 := (C67_value E hd ops hw t).1 ht
  rw [hv, Except.ok.injEq] at h1
  rw [h1, List.length_replicate, C111_dims_partial E hd d hm ops hw u (Or.inl hu) w hw']
  exact Ne.symm h384

example : ∀ t v, exEmb.encode t = .ok v → v.length = 3 := by
  intro t v h
  unfold exEmb at h
  simp only at h
  split_ifs at h
  rw [Except.ok.injEq] at h
  rw [← h]
  rfl

example : Blank " \n".toList ∧ ¬ Blank "aba".toList := by unfold Blank; decide +kernel

/-- **C112 (partial).** For texts none of which is blank, `batch_process` answers what embedding them
one after the other answers, stopping at the first exception, for every batch size from 1. It is
assumed that the model treats a list as its texts one by one, and that its vectors have one length.
Missing: blank texts, see `C112_blank_refuted` and `C112_ragged_refuted`. -/
theorem C112_batch_partial (E : EmbEnv K) (hd : Function.Injective E.digest) (hb : 0 < E.batchSize)
    (hm : ∀ ts, E.encodeMany ts = allOk (ts.map E.encode)) (d : Nat)
    (hl : ∀ t v, E.encode t = .ok v → v.length = d) (ops : List (EmbOp K))
    (hw : ∀ r v, EmbOp.write r v ∉ ops) (texts : List Text) (ht : ∀ t ∈ texts, ¬ Blank t) :
    ∃ replies s', Calls (embed E) (embAfter E ops) texts replies s' ∧
      (batchEmbed E (embAfter E ops) texts).1 = allOk replies := by
  obtain ⟨-, hinv⟩ := run_spec E (fun _ => hd) ops (fun _ => em_reads hw) _ (embInv_fresh _)
  obtain ⟨s', hc⟩ := allOk_calls (f := embed E) (g := pureEmb E) (P := EmbInv E)
    (fun s a hs => embed_spec E (fun _ => hd) s hs a) texts (embAfter E ops) hinv
  refine ⟨_, s', hc, ?_⟩
  rw [embAfter, (batch_spec E (fun _ => hd) texts _ hinv).1, if_neg (by omega)]
  have hpure : ∀ t, ¬ Blank t → pureEmb E t = (E.encode t).map (finish E) := by
    intro t h
    rw [pureEmb, if_neg fun hs => h ((em_blank t).1 hs)]
  rw [pureBatch_allOk, slices_flatten _ hb]
  · cases allOk (texts.map (pureEmb E)) <;> simp [Except.map]
  · intro i _
    have hsub : ∀ t ∈ batchAt texts i E.batchSize, ¬ Blank t := by
      intro t htm
      exact ht t (List.mem_of_mem_drop (List.mem_of_mem_take htm))
    generalize batchAt texts i E.batchSize = bt at hsub
    have hmap : bt.map (pureEmb E) = (bt.map E.encode).map fun r => r.map (finish E) := by
      rw [List.map_map]
      exact List.map_congr_left fun t htm => hpure t (hsub t htm)
    have hapi : ∀ rows, allOk (bt.map (pureEmb E)) = .ok rows → sameLengths rows = true := by
      intro rows hr
      refine sameLengths_of (d := d) (allOk_lengths _ _ (fun v hv => ?_) hr)
      rw [hmap, List.map_map, List.mem_map] at hv
      obtain ⟨t, -, hv⟩ := hv
      simp only [Function.comp_apply] at hv
      cases he : E.encode t with
      | error e => rw [he] at hv; cases hv
      | ok u =>
        rw [he] at hv
        simp only [Except.map, Except.ok.injEq] at hv
        rw [← hv]
        unfold finish
        split_ifs
        · rw [List.length_map]; exact hl t u he
        · exact hl t u he
    unfold pureRows
    cases hty : E.modelType with
    | sentenceTransformers =>
      simp only
      rw [hmap, hm, allOk_map]
    | openai =>
      simp only
      cases hr : allOk (bt.map (pureEmb E)) with
      | error e => rfl
      | ok rows => simp [hapi rows hr]
    | huggingface =>
      simp only
      cases hr : allOk (bt.map (pureEmb E)) with
      | error e => rfl
      | ok rows => simp [hapi rows hr]

example : ∀ ts, exEmb.encodeMany ts = allOk (ts.map exEmb.encode) := fun _ => rfl

/-- **C112 (refuted for sentence-transformers).** With a model whose vectors do not have length 384, a
blank text gets zeros of length 384 on its own, and a vector of the model's length in a batch. -/
theorem C112_blank_refuted (E : EmbEnv K) (hty : E.modelType = .sentenceTransformers)
    (hb : 0 < E.batchSize) (s : EmbSt K) (t : Text) (ht : Blank t) (v : List K) (hv : v.length ≠ 384)
    (hm : E.encodeMany [t] = .ok [v]) :
    (∃ w, (embed E s t).1 = .ok w ∧ w.length = 384) ∧
      ∃ w, (batchEmbed E s [t]).1 = .ok [w] ∧ w.length ≠ 384 := by
  have hbl : strip t = [] := (em_blank t).2 ht
  refine ⟨⟨_, ?_, List.length_replicate (n := 384) (a := E.zero)⟩, ⟨finish E v, ?_, ?_⟩⟩
  · simp only [embed, generate, if_pos hbl, EmbSt.alloc]
    rw [read_new]
  · have h1 : starts 1 E.batchSize = [0] := by
      rw [starts_pos hb (by omega), show 1 - E.batchSize = 0 by omega, starts_zero _ hb]
      rfl
    have h2 : batchAt [t] 0 E.batchSize = [t] := by
      unfold batchAt
      rw [List.drop_zero, List.take_of_length_le (by simp only [List.length_singleton]; omega)]
    unfold batchEmbed
    rw [if_neg (by omega)]
    simp only [List.length_singleton, h1, batchEmbedLoop, hty, h2, hm]
    rfl
  · unfold finish
    split_ifs
    · rw [List.length_map]; exact hv
    · exact hv

/-- **C112 (refuted for the other model types).** With a model whose vectors do not have length 384,
`batch_process` raises `ValueError` for a blank text beside another one, though each has an embedding
on its own; numpy from 1.24. -/
theorem C112_ragged_refuted (E : EmbEnv K) (hty : E.modelType ≠ .sentenceTransformers)
    (hr : E.raggedRaises = true) (hb : 2 ≤ E.batchSize) (hd : Function.Injective E.digest) (t u : Text)
    (ht : Blank t) (hu : ¬ Blank u) (v : List K) (hv : v.length ≠ 384) (he : E.encode u = .ok v) :
    (batchEmbed E .fresh [t, u]).1 = .error .value ∧
      (∃ w, (embed E .fresh t).1 = .ok w) ∧ ∃ w, (embed E .fresh u).1 = .ok w := by
  have hinv := embInv_fresh E
  have hpt : pureEmb E t = .ok (List.replicate 384 E.zero) := by
    rw [pureEmb, if_pos ((em_blank t).2 ht)]
  have hpu : pureEmb E u = .ok (finish E v) := by
    rw [pureEmb, if_neg fun h => hu ((em_blank u).1 h), he]
    rfl
  refine ⟨?_, ⟨_, by rw [(embed_spec E (fun _ => hd) _ hinv t).1, hpt]⟩,
    ⟨_, by rw [(embed_spec E (fun _ => hd) _ hinv u).1, hpu]⟩⟩
  have h1 : starts 2 E.batchSize = [0] := by
    rw [starts_pos (by omega) (by omega), show 2 - E.batchSize = 0 by omega, starts_zero _ (by omega)]
    rfl
  have h2 : batchAt [t, u] 0 E.batchSize = [t, u] := by
    unfold batchAt
    rw [List.drop_zero, List.take_of_length_le (by simpa using hb)]
  rw [(batch_spec E (fun _ => hd) [t, u] _ hinv).1, if_neg (by omega)]
  have h3 : ([t, u] : List Text).length = 2 := rfl
  have hlen : (finish E v).length ≠ 384 := by
    unfold finish
    split_ifs
    · rw [List.length_map]; exact hv
    · exact hv
  have hne : sameLengths [List.replicate 384 E.zero, finish E v] = false := by
    simp only [sameLengths]
    rw [List.all_cons, List.length_replicate, beq_false_of_ne hlen, Bool.false_and]
  have h4 : pureRows E [t, u] = .error .value := by
    unfold pureRows
    cases h : E.modelType with
    | sentenceTransformers => exact absurd h hty
    | openai => simp only [List.map_cons, List.map_nil, hpt, hpu, allOk, hr, hne, Bool.not_false,
        Bool.and_self, if_true]
    | huggingface => simp only [List.map_cons, List.map_nil, hpt, hpu, allOk, hr, hne, Bool.not_false,
        Bool.and_self, if_true]
  rw [h3, h1, pureBatch, h2, h4]

example : (batchEmbed { exEmb with modelType := .openai } .fresh [" ".toList, "ab".toList]).1 =
    .error .value := by decide +kernel

theorem em_test : ¬ Blank "test".toList := by unfold Blank; decide +kernel

theorem em_step (E : EmbEnv K) (s s' : EmbSt K) (t : Text) (ht : ¬ Blank t) (v : List K)
    (h : embed E s t = (.ok v, s')) :
    (s'.hits = s.hits + 1 ∧ s'.texts = s.texts ∧ s'.generated = s.generated) ∨
      (s'.hits = s.hits ∧ s'.texts = s.texts + 1 ∧ s'.generated = s.generated + 1) := by
  have hb : ¬ strip t = [] := fun hb => ht ((em_blank t).1 hb)
  unfold embed generate at h
  rw [if_neg hb] at h
  cases hl : (if E.cached then s.cache.get? (cacheKey E t) else none) with
  | some r =>
    rw [hl] at h
    simp only [Prod.mk.injEq] at h
    rw [← h.2]
    exact Or.inl ⟨rfl, rfl, rfl⟩
  | none =>
    rw [hl] at h
    cases he : E.encode t with
    | error e => rw [he] at h; simp at h
    | ok u =>
      rw [he] at h
      simp only [Prod.mk.injEq, EmbSt.alloc] at h
      rw [← h.2]
      right
      cases E.cached <;> exact ⟨rfl, rfl, rfl⟩

/-- **C113 (refuted).** `get_stats` is never read-only: two successive calls never answer the same. -/
theorem C113_stats_refuted (E : EmbEnv K) (s s1 s2 : EmbSt K) (a b : EmbStats)
    (h1 : embStats E s = (.ok a, s1)) (h2 : embStats E s1 = (.ok b, s2)) : a ≠ b := by
  have key : ∀ (s s' : EmbSt K) (a : EmbStats), embStats E s = (.ok a, s') →
      a.texts = s.texts ∧ a.hits = s.hits ∧ ∃ v, embed E s "test".toList = (.ok v, s') := by
    intro s s' a h
    unfold embStats at h
    rcases hq : embed E s "test".toList with ⟨e | v, s3⟩
    · rw [hq] at h; simp at h
    · rw [hq] at h
      simp only [Prod.mk.injEq, Except.ok.injEq] at h
      rw [← h.1]
      exact ⟨rfl, rfl, v, by rw [h.2]⟩
  obtain ⟨g1, g2, v, g3⟩ := key s s1 a h1
  obtain ⟨k1, k2, -⟩ := key s1 s2 b h2
  rintro rfl
  rcases em_step E s s1 _ em_test v g3 with h | h <;> omega

/-- **C113 (partial).** A `get_stats` in between does not change any embedding answered later. Missing:
its effect on the counters, see `C113_stats_refuted`. -/
theorem C113_stats_partial (E : EmbEnv K) (hd : Function.Injective E.digest) (ops ops' : List (EmbOp K))
    (hw : ∀ r v, EmbOp.write r v ∉ ops) (hw' : ∀ r v, EmbOp.write r v ∉ ops') :
    (embRun E .fresh (ops ++ .stats :: ops')).1.eraseIdx ops.length =
      (embRun E .fresh (ops ++ ops')).1 := by
  have h1 : ∀ r v, EmbOp.write r v ∉ ops ++ .stats :: ops' := by
    intro r v
    simp [hw r v, hw' r v]
  have h2 : ∀ r v, EmbOp.write r v ∉ ops ++ ops' := by
    intro r v
    simp [hw r v, hw' r v]
  rw [(run_spec E (fun _ => hd) _ (fun _ => em_reads h1) _ (embInv_fresh _)).1,
    (run_spec E (fun _ => hd) _ (fun _ => em_reads h2) _ (embInv_fresh _)).1]
  rw [List.map_append, List.map_cons, List.map_append,
    List.eraseIdx_append_of_length_le (by simp)]
  simp

example : ∃ a b s1 s2, embStats exEmb .fresh = (.ok a, s1) ∧ embStats exEmb s1 = (.ok b, s2) ∧
    a.texts = 0 ∧ b.texts = 1 := ⟨_, _, _, _, rfl, rfl, by decide +kernel, by decide +kernel⟩

/-- **C114 (partial).** Over any sequence of embedding calls, cache hits and generated embeddings
together are the calls answered for texts that are not blank. Missing: `cache_hit_rate` divides the
hits by the generated ones instead of the sum, see `C114_rate_refuted`. -/
theorem C114_count_partial (E : EmbEnv K) (texts : List Text) (replies : List (Except Err (List K)))
    (s s' : EmbSt K) (h : Calls (embed E) s texts replies s') :
    s'.hits + s'.generated = s.hits + s.generated +
      (texts.zip replies).countP fun p => !p.1.all isSpace && !isErr p.2 := by
  induction h with
  | nil s => simp
  | @cons s s1 s2 t r ts rs h _ ih =>
    rw [List.zip_cons_cons, List.countP_cons, ih]
    have hone : s1.hits + s1.generated = s.hits + s.generated +
        if (!t.all isSpace && !isErr r) = true then 1 else 0 := by
      by_cases hb : Blank t
      · have : t.all isSpace = true := List.all_eq_true.2 hb
        rw [this]
        have hs : strip t = [] := (em_blank t).2 hb
        simp only [embed, generate, if_pos hs, EmbSt.alloc, Prod.mk.injEq] at h
        rw [← h.2]
        simp
      · have : t.all isSpace = false := by
          rw [Bool.eq_false_iff]
          exact fun ha => hb (List.all_eq_true.1 ha)
        rw [this]
        cases r with
        | ok v =>
          rcases em_step E s s1 t hb v h with h' | h'
          · simp only [isErr, Bool.not_false, Bool.and_self, if_true]; omega
          · simp only [isErr, Bool.not_false, Bool.and_self, if_true]; omega
        | error e =>
          have hs : ¬ strip t = [] := fun hs => hb ((em_blank t).1 hs)
          have : s1 = s := by
            unfold embed generate at h
            rw [if_neg hs] at h
            cases hl : (if E.cached then s.cache.get? (cacheKey E t) else none) with
            | some r => rw [hl] at h; simp at h
            | none =>
              rw [hl] at h
              cases he : E.encode t with
              | error e' =>
                rw [he] at h
                simp only [Prod.mk.injEq] at h
                exact h.2.symm
              | ok v => rw [he] at h; simp at h
          rw [this]
          simp [isErr]
    rw [hone]
    simp only
    omega

/-- **C114 (refuted).** Embedding one text three times makes the reported `cache_hit_rate` 2. -/
theorem C114_rate_refuted (E : EmbEnv K) (hc : E.cached = true) (t : Text) (ht : ¬ Blank t) (v : List K)
    (he : E.encode t = .ok v) (a : EmbStats) (s : EmbSt K)
    (h : embStats E (embAfter E [.embed t, .embed t, .embed t]) = (.ok a, s)) : a.rate = 2 := by
  have hs : ¬ strip t = [] := fun hs => ht ((em_blank t).1 hs)
  have h1 : embed E .fresh t = (.ok (finish E v), ⟨[finish E v], [(cacheKey E t, 0)], 0, 1, 1⟩) := by
    simp only [embed, generate, if_neg hs, he, EmbSt.alloc, hc, if_true, EmbSt.fresh, Dict.get?_nil]
    rfl
  have h2 : ∀ n, embed E ⟨[finish E v], [(cacheKey E t, 0)], n, 1, 1⟩ t =
      (.ok (finish E v), ⟨[finish E v], [(cacheKey E t, 0)], n + 1, 1, 1⟩) := by
    intro n
    have hg : Dict.get? [(cacheKey E t, 0)] (cacheKey E t) = some 0 := by
      simp [Dict.get?]
    simp only [embed, generate, if_neg hs, hc, if_true, hg]
    rfl
  have h3 : embAfter E [.embed t, .embed t, .embed t] =
      ⟨[finish E v], [(cacheKey E t, 0)], 2, 1, 1⟩ := by
    simp only [embAfter, embRun, EmbOp.step, h1, h2]
  rw [h3] at h
  unfold embStats at h
  rcases hq : embed E ⟨[finish E v], [(cacheKey E t, 0)], 2, 1, 1⟩ "test".toList with ⟨e | w, s3⟩
  · rw [hq] at h; simp at h
  · rw [hq] at h
    simp only [Prod.mk.injEq, Except.ok.injEq] at h
    rw [← h.1]
    norm_num [show (1 : Nat) > 0 by decide]

example : (embStats exEmb (embAfter exEmb [.embed "ab".toList, .embed "ab".toList, .embed "ab".toList])).1 =
    .ok ⟨1, 1, 1, 2, 2, 3⟩ := by decide +kernel

/-- **C115 (refuted).** With caching, writing into a returned embedding changes the later answers for
that text: the array returned is the one in the cache. -/
theorem C115_alias_refuted (E : EmbEnv K) (hc : E.cached = true) (t : Text) (ht : ¬ Blank t) (v w : List K)
    (he : E.encode t = .ok v) :
    ∃ r0, (embRun E .fresh [.embed t, .write 0 w, .embed t]).1 = [r0, none, some (.ok [w])] := by
  have hs : ¬ strip t = [] := fun hs => ht ((em_blank t).1 hs)
  have h1 : embed E .fresh t = (.ok (finish E v), ⟨[finish E v], [(cacheKey E t, 0)], 0, 1, 1⟩) := by
    simp only [embed, generate, if_neg hs, he, EmbSt.alloc, hc, if_true, EmbSt.fresh, Dict.get?_nil]
    rfl
  have h2 : embed E ⟨[w], [(cacheKey E t, 0)], 0, 1, 1⟩ t =
      (.ok w, ⟨[w], [(cacheKey E t, 0)], 1, 1, 1⟩) := by
    have hg : Dict.get? [(cacheKey E t, 0)] (cacheKey E t) = some 0 := by
      simp [Dict.get?]
    simp only [embed, generate, if_neg hs, hc, if_true, hg]
    rfl
  refine ⟨some (.ok [finish E v]), ?_⟩
  simp only [embRun, EmbOp.step, h1]
  have h3 : List.set [finish E v] 0 w = [w] := rfl
  rw [h3]
  simp only [h2]
  rfl

/-- **C115 (partial).** Without caching every text gets its embedding whatever callers write into the
arrays they were given. Missing: caching, see `C115_alias_refuted`. -/
theorem C115_alias_partial (E : EmbEnv K) (hc : E.cached = false) (ops : List (EmbOp K)) (t : Text) :
    IsEmbedding E t (embed E (embAfter E ops) t).1 := by
  obtain ⟨-, h⟩ := run_spec E (fun h => by rw [hc] at h; cases h) ops
    (fun h => by rw [hc] at h; cases h) _ (embInv_fresh _)
  rw [embAfter, (embed_spec E (fun h => by rw [hc] at h; cases h) _ h t).1]
  exact em_pure E t

example : (embRun exEmb .fresh [.embed "aa".toList, .write 0 [9], .embed "aa".toList]).1 =
    [some (.ok [[2, 2, 1]]), none, some (.ok [[9]])] := by decide +kernel

/-- **C116 (partial).** When every chunk has a text, `process` answers one chunk embedding per chunk, in
order, each the embedding of its chunk's text. Missing: chunks without a text, see
`C116_chunks_refuted`. -/
theorem C116_chunks_partial (E : EmbEnv K) (hd : Function.Injective E.digest) (ops : List (EmbOp K))
    (hw : ∀ r v, EmbOp.write r v ∉ ops) (text : Option Text) (chunks : List Text) (v : Option (List K))
    (vs : Option (List (List K)))
    (h : (embedProcess E (embAfter E ops) text (some (chunks.map some))).1 = .ok (v, vs)) :
    (∀ t, text = some t → ∃ x, v = some x ∧ IsEmbedding E t (.ok x)) ∧ (text = none → v = none) ∧
      ∃ l, vs = some l ∧ l.length = chunks.length ∧
        ∀ (i : Nat) t, chunks[i]? = some t → ∃ x, l[i]? = some x ∧ IsEmbedding E t (.ok x) := by
  obtain ⟨-, hinv⟩ := run_spec E (fun _ => hd) ops (fun _ => em_reads hw) _ (embInv_fresh _)
  have hfm : (chunks.map some).filterMap id = chunks := by
    rw [List.filterMap_map]
    simp
  have key : ∀ s, EmbInv E s → ∀ l, (embedEach E s chunks).1 = .ok l →
      l.length = chunks.length ∧ ∀ (i : Nat) t, chunks[i]? = some t →
        ∃ x, l[i]? = some x ∧ IsEmbedding E t (.ok x) := by
    intro s hs l hl
    rw [(embedEach_spec E (fun _ => hd) chunks s hs).1] at hl
    have := allOk_ok _ _ hl
    refine ⟨by simpa using (congrArg List.length this).symm, fun i t hit => ?_⟩
    have h2 := congrArg (fun l => l[i]?) this
    simp only [List.getElem?_map, hit, Option.map_some] at h2
    cases hx : l[i]? with
    | none => rw [hx] at h2; cases h2
    | some x =>
      rw [hx] at h2
      refine ⟨x, rfl, ?_⟩
      simp only [Option.map_some, Option.some.injEq] at h2
      rw [← h2]
      exact em_pure E t
  unfold embedProcess at h
  cases text with
  | none =>
    simp only [hfm] at h
    rcases hq : embedEach E (embAfter E ops) chunks with ⟨e | l, s3⟩
    · rw [hq] at h; simp at h
    · rw [hq] at h
      simp only [Except.ok.injEq, Prod.mk.injEq] at h
      exact ⟨by simp, fun _ => h.1.symm, l, h.2.symm, key (embAfter E ops) hinv l (by rw [hq])⟩
  | some t =>
    obtain ⟨g1, g2⟩ := embed_spec E (fun _ => hd) _ hinv t
    change (embed E (embAfter E ops) t).1 = _ at g1
    change EmbInv E (embed E (embAfter E ops) t).2 at g2
    rcases hq : embed E (embAfter E ops) t with ⟨e | x, s3⟩
    · simp only [hq] at h; cases h
    · rw [hq] at g1 g2
      simp only [hq, hfm] at h
      rcases hr : embedEach E s3 chunks with ⟨e | l, s4⟩
      · rw [hr] at h; simp at h
      · rw [hr] at h
        simp only [Except.ok.injEq, Prod.mk.injEq] at h
        refine ⟨fun u hu => ⟨x, h.1.symm, ?_⟩, by simp, l, h.2.symm, key _ g2 l (by rw [hr])⟩
        obtain rfl := Option.some.inj hu
        simp only at g1
        rw [g1]
        exact em_pure E t

/-- **C116 (refuted).** A chunk without a text shifts the embeddings of the chunks after it. -/
theorem C116_chunks_refuted (E : EmbEnv K) (t : Text) (s s' : EmbSt K) (v : Option (List K))
    (vs : Option (List (List K))) (h : embedProcess E s none (some [none, some t]) = (.ok (v, vs), s')) :
    ∃ x, vs = some [x] ∧ embed E s t = (.ok x, s') := by
  simp only [embedProcess, List.filterMap_cons, id, List.filterMap_nil, embedEach] at h
  rcases hq : embed E s t with ⟨e | x, s3⟩
  · rw [hq] at h; simp at h
  · rw [hq] at h
    simp only [Prod.mk.injEq, Except.ok.injEq] at h
    exact ⟨x, h.1.2.symm, by rw [h.2]⟩

example : (embedProcess exEmb .fresh (some "aaa".toList) (some [some "a".toList, some "aa".toList])).1 =
    .ok (some [3, 3, 1], some [[1, 1, 1], [2, 2, 1]]) := by decide +kernel

end Valori.Props
