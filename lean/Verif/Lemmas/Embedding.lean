import Verif.Model.Embedding
import Verif.Spec.Embedding
import Verif.Lemmas.Batch
import Verif.Lemmas.Dict
import Verif.Lemmas.Chunking

/-!
# Lemmas on embedding
-/

namespace Valori
open Spec

variable {K : Type}

/-- The embedding of a text by a processor without memory. -/
def pureEmb (E : EmbEnv K) (t : Text) : Except Err (List K) :=
  if strip t = [] then .ok (List.replicate 384 E.zero) else (E.encode t).map (finish E)

/-- Every cached array belongs to a text and holds its embedding. -/
def EmbInv (E : EmbEnv K) (s : EmbSt K) : Prop :=
  E.cached = true → ∀ k r, s.cache.get? k = some r →
    r < s.heap.length ∧ ∃ t, strip t ≠ [] ∧ k = cacheKey E t ∧ pureEmb E t = .ok (s.read r)

theorem embInv_fresh (E : EmbEnv K) : EmbInv E EmbSt.fresh := by
  intro _ k r h
  simp [EmbSt.fresh] at h

theorem keyText_inj (E : EmbEnv K) {t u : Text} (h : keyText E t = keyText E u) : t = u := by
  unfold keyText at h
  rw [List.append_assoc, List.append_assoc] at h
  exact List.append_cancel_right h

theorem cacheKey_inj (E : EmbEnv K) (hd : Function.Injective E.digest) {t u : Text}
    (h : cacheKey E t = cacheKey E u) : t = u := keyText_inj E (hd h)

theorem read_append (s : EmbSt K) (v : List K) (r : Nat) (h : r < s.heap.length) :
    ({ s with heap := s.heap ++ [v] } : EmbSt K).read r = s.read r := by
  unfold EmbSt.read
  rw [List.getElem?_append_left h]

theorem read_new (s : EmbSt K) (v : List K) :
    ({ s with heap := s.heap ++ [v] } : EmbSt K).read s.heap.length = v := by
  unfold EmbSt.read
  simp

theorem embed_spec (E : EmbEnv K) (hd : E.cached = true → Function.Injective E.digest) (s : EmbSt K)
    (hs : EmbInv E s) (t : Text) :
    (embed E s t).1 = pureEmb E t ∧ EmbInv E (embed E s t).2 := by
  by_cases hb : strip t = []
  · have h1 : embed E s t = (.ok (({ s with heap := s.heap ++ [List.replicate 384 E.zero] } :
        EmbSt K).read s.heap.length), { s with heap := s.heap ++ [List.replicate 384 E.zero] }) := by
      simp only [embed, generate, if_pos hb, EmbSt.alloc]
    rw [h1]
    refine ⟨?_, ?_⟩
    · rw [read_new, pureEmb, if_pos hb]
    · intro hc k r hk
      obtain ⟨hr, u, hu, hku, hv⟩ := hs hc k r hk
      refine ⟨by simp only [List.length_append]; omega, u, hu, hku, ?_⟩
      rw [read_append _ _ _ hr]
      exact hv
  · cases hl : (if E.cached then s.cache.get? (cacheKey E t) else none) with
    | some r =>
      have h1 : embed E s t = (.ok (s.read r), { s with hits := s.hits + 1 }) := by
        simp only [embed, generate, if_neg hb, hl]
        rfl
      rw [h1]
      split_ifs at hl with hc
      obtain ⟨hr, u, hu, hku, hv⟩ := hs hc _ _ hl
      obtain rfl := cacheKey_inj E (hd hc) hku
      exact ⟨hv.symm, hs⟩
    | none =>
      cases he : E.encode t with
      | error e =>
        have h1 : embed E s t = (.error e, s) := by
          simp only [embed, generate, if_neg hb, hl, he]
        rw [h1]
        refine ⟨?_, hs⟩
        rw [pureEmb, if_neg hb, he]
        rfl
      | ok v =>
        have hp : pureEmb E t = .ok (finish E v) := by
          rw [pureEmb, if_neg hb, he]
          rfl
        cases hc : E.cached with
        | false =>
          have h1 : embed E s t = (.ok (({ s with heap := s.heap ++ [finish E v] } :
              EmbSt K).read s.heap.length), ⟨s.heap ++ [finish E v], s.cache, s.hits, s.texts + 1,
                s.generated + 1⟩) := by
            simp only [embed, generate, if_neg hb, he, EmbSt.alloc, hc, Bool.false_eq_true, if_false]
            rfl
          rw [h1]
          refine ⟨?_, ?_⟩
          · rw [read_new, hp]
          · intro h
            rw [hc] at h
            cases h
        | true =>
          have h1 : embed E s t = (.ok (({ s with heap := s.heap ++ [finish E v] } :
              EmbSt K).read s.heap.length), ⟨s.heap ++ [finish E v],
                s.cache.set (cacheKey E t) s.heap.length, s.hits, s.texts + 1, s.generated + 1⟩) := by
            rw [if_pos hc] at hl
            simp only [embed, generate, if_neg hb, he, EmbSt.alloc, hc, if_true, hl]
            rfl
          rw [h1]
          refine ⟨?_, ?_⟩
          · rw [read_new, hp]
          · intro _ k r hk
            simp only [Dict.get?_set] at hk
            split_ifs at hk with hkk
            · obtain rfl := Option.some.inj hk
              refine ⟨by simp, t, hb, hkk, ?_⟩
              rw [hp]
              exact congrArg Except.ok (read_new s (finish E v)).symm
            · obtain ⟨hr, u, hu, hku, hv⟩ := hs hc k r hk
              refine ⟨by simp only [List.length_append]; omega, u, hu, hku, ?_⟩
              rw [hv]
              exact congrArg Except.ok (read_append s (finish E v) r hr).symm

theorem embedEach_spec (E : EmbEnv K) (hd : E.cached = true → Function.Injective E.digest) (ts : List Text)
    (s : EmbSt K) (hs : EmbInv E s) :
    (embedEach E s ts).1 = allOk (ts.map (pureEmb E)) ∧ EmbInv E (embedEach E s ts).2 := by
  induction ts generalizing s with
  | nil => exact ⟨rfl, hs⟩
  | cons t ts ih =>
    obtain ⟨h1, h2⟩ := embed_spec E hd s hs t
    rcases hr : embed E s t with ⟨e | v, s1⟩
    · rw [hr] at h1 h2
      simp only [embedEach, hr]
      refine ⟨?_, h2⟩
      simp only at h1
      rw [List.map_cons, ← h1, allOk]
    · rw [hr] at h1 h2
      obtain ⟨g1, g2⟩ := ih s1 h2
      simp only at h1
      rw [List.map_cons, ← h1]
      rcases hq : embedEach E s1 ts with ⟨e | vs, s2⟩
      · rw [hq] at g1 g2
        simp only at g1
        simp only [embedEach, hr, hq, allOk, ← g1]
        exact ⟨trivial, g2⟩
      · rw [hq] at g1 g2
        simp only at g1
        simp only [embedEach, hr, hq, allOk, ← g1]
        exact ⟨trivial, g2⟩

/-- One batch of `batch_process` by a processor without memory. -/
def pureRows (E : EmbEnv K) (bt : List Text) : Except Err (List (List K)) :=
  match E.modelType with
  | .sentenceTransformers => (E.encodeMany bt).map fun rows => rows.map (finish E)
  | _ =>
    match allOk (bt.map (pureEmb E)) with
    | .error e => .error e
    | .ok rows => if E.raggedRaises && !sameLengths rows then .error .value else .ok rows

/-- The loop of `batch_process` by a processor without memory. -/
def pureBatch (E : EmbEnv K) (texts : List Text) : List Nat → List (List K) → Except Err (List (List K))
  | [], out => .ok out
  | i :: is, out =>
    match pureRows E (batchAt texts i E.batchSize) with
    | .error e => .error e
    | .ok rows => pureBatch E texts is (out ++ rows)

theorem batchLoop_spec (E : EmbEnv K) (hd : E.cached = true → Function.Injective E.digest)
    (texts : List Text) (is : List Nat) (s : EmbSt K) (hs : EmbInv E s) (out : List (List K)) :
    (batchEmbedLoop E texts is s out).1 = pureBatch E texts is out ∧
      EmbInv E (batchEmbedLoop E texts is s out).2 := by
  induction is generalizing s out with
  | nil => exact ⟨rfl, hs⟩
  | cons i is ih =>
    by_cases hm : E.modelType = .sentenceTransformers
    · cases he : E.encodeMany (batchAt texts i E.batchSize) with
      | error e =>
        simp only [batchEmbedLoop, hm, he, pureBatch, pureRows]
        exact ⟨rfl, hs⟩
      | ok rows =>
        simp only [batchEmbedLoop, hm, he, pureBatch, pureRows]
        exact ih s hs _
    · obtain ⟨h1, h2⟩ := embedEach_spec E hd (batchAt texts i E.batchSize) s hs
      have hp : pureRows E (batchAt texts i E.batchSize) =
          match allOk ((batchAt texts i E.batchSize).map (pureEmb E)) with
          | .error e => .error e
          | .ok rows => if E.raggedRaises && !sameLengths rows then .error .value else .ok rows := by
        unfold pureRows
        cases h : E.modelType with
        | sentenceTransformers => exact absurd h hm
        | openai => rfl
        | huggingface => rfl
      have hl : batchEmbedLoop E texts (i :: is) s out =
          match embedEach E s (batchAt texts i E.batchSize) with
          | (.error e, s) => (.error e, s)
          | (.ok rows, s) =>
            if E.raggedRaises && !sameLengths rows then (.error .value, s)
            else batchEmbedLoop E texts is s (out ++ rows) := by
        rw [batchEmbedLoop]
        cases h : E.modelType with
        | sentenceTransformers => exact absurd h hm
        | openai => rfl
        | huggingface => rfl
      rw [hl, pureBatch, hp, ← h1]
      rcases hq : embedEach E s (batchAt texts i E.batchSize) with ⟨e | rows, s1⟩
      · rw [hq] at h2
        exact ⟨rfl, h2⟩
      · rw [hq] at h2
        simp only
        by_cases hr : (E.raggedRaises && !sameLengths rows) = true
        · rw [if_pos hr, if_pos hr]
          exact ⟨rfl, h2⟩
        · rw [if_neg hr, if_neg hr]
          exact ih s1 h2 _

theorem batch_spec (E : EmbEnv K) (hd : E.cached = true → Function.Injective E.digest)
    (texts : List Text) (s : EmbSt K) (hs : EmbInv E s) :
    (batchEmbed E s texts).1 =
        (if E.batchSize = 0 then .error .value else
          pureBatch E texts (starts texts.length E.batchSize) []) ∧
      EmbInv E (batchEmbed E s texts).2 := by
  unfold batchEmbed
  by_cases h0 : E.batchSize = 0
  · rw [if_pos h0, if_pos h0]
    exact ⟨rfl, hs⟩
  · rw [if_neg h0, if_neg h0]
    obtain ⟨h1, h2⟩ := batchLoop_spec E hd texts (starts texts.length E.batchSize) s hs []
    rw [← h1]
    rcases hq : batchEmbedLoop E texts (starts texts.length E.batchSize) s [] with ⟨e | rows, s1⟩
    · rw [hq] at h2
      exact ⟨rfl, h2⟩
    · rw [hq] at h2
      exact ⟨rfl, h2⟩

/-- What a processor without memory answers. -/
def EmbOp.pure (E : EmbEnv K) : EmbOp K → Option (Except Err (List (List K)))
  | .embed t => some ((pureEmb E t).map fun v => [v])
  | .batch ts => some (if E.batchSize = 0 then .error .value else
      pureBatch E ts (starts ts.length E.batchSize) [])
  | .clear => none
  | .stats => none
  | .write _ _ => none

/-- The caller does not write into an array it was given. -/
def EmbOp.reads : EmbOp K → Prop
  | .write _ _ => False
  | _ => True

theorem step_spec (E : EmbEnv K) (hd : E.cached = true → Function.Injective E.digest) (s : EmbSt K)
    (hs : EmbInv E s) (o : EmbOp K) (ho : E.cached = true → o.reads) :
    (o.step E s).1 = o.pure E ∧ EmbInv E (o.step E s).2 := by
  cases o with
  | embed t =>
    obtain ⟨h1, h2⟩ := embed_spec E hd s hs t
    refine ⟨?_, h2⟩
    simp only [EmbOp.step, EmbOp.pure, h1]
  | batch ts =>
    obtain ⟨h1, h2⟩ := batch_spec E hd ts s hs
    refine ⟨?_, h2⟩
    simp only [EmbOp.step, EmbOp.pure, h1]
  | clear =>
    refine ⟨rfl, ?_⟩
    intro _ k r h
    simp [EmbOp.step, clearCache] at h
  | stats =>
    refine ⟨rfl, ?_⟩
    obtain ⟨-, h2⟩ := embed_spec E hd s hs "test".toList
    simp only [EmbOp.step, embStats]
    rcases hq : embed E s "test".toList with ⟨e | rows, s1⟩ <;> rw [hq] at h2 <;> exact h2
  | write r v =>
    refine ⟨rfl, ?_⟩
    intro hc
    exact absurd (ho hc) (by simp [EmbOp.reads])

theorem run_spec (E : EmbEnv K) (hd : E.cached = true → Function.Injective E.digest) (ops : List (EmbOp K))
    (ho : E.cached = true → ∀ o ∈ ops, o.reads) (s : EmbSt K) (hs : EmbInv E s) :
    (embRun E s ops).1 = ops.map (EmbOp.pure E) ∧ EmbInv E (embRun E s ops).2 := by
  induction ops generalizing s with
  | nil => exact ⟨rfl, hs⟩
  | cons o os ih =>
    obtain ⟨h1, h2⟩ := step_spec E hd s hs o fun hc => ho hc o (by simp)
    obtain ⟨g1, g2⟩ := ih (fun hc x hx => ho hc x (by simp [hx])) _ h2
    refine ⟨?_, g2⟩
    rw [List.map_cons, ← h1, ← g1]
    rfl

theorem pureRows_cached (E : EmbEnv K) (b : Bool) (bt : List Text) :
    pureRows { E with cached := b } bt = pureRows E bt := rfl

theorem pureBatch_cached (E : EmbEnv K) (b : Bool) (texts : List Text) (is : List Nat)
    (out : List (List K)) : pureBatch { E with cached := b } texts is out = pureBatch E texts is out := by
  induction is generalizing out with
  | nil => rfl
  | cons i is ih =>
    simp only [pureBatch, pureRows_cached]
    cases pureRows E (batchAt texts i E.batchSize) with
    | error e => rfl
    | ok rows => exact ih _

theorem pure_cached (E : EmbEnv K) (b : Bool) (o : EmbOp K) :
    o.pure { E with cached := b } = o.pure E := by
  cases o with
  | batch ts =>
    simp only [EmbOp.pure, pureBatch_cached]
  | _ => rfl

theorem allOk_append {β : Type} (l m : List (Except Err β)) :
    allOk (l ++ m) = match allOk l with
      | .error e => .error e
      | .ok a => match allOk m with
        | .error e => .error e
        | .ok b => .ok (a ++ b) := by
  induction l with
  | nil =>
    simp only [List.nil_append, allOk]
    cases allOk m <;> rfl
  | cons r l ih =>
    cases r with
    | error e => rfl
    | ok v =>
      simp only [List.cons_append, allOk, ih]
      cases allOk l with
      | error e => rfl
      | ok a =>
        cases allOk m with
        | error e => rfl
        | ok b => rfl

theorem allOk_lengths {d : Nat} (l : List (Except Err (List K))) (vs : List (List K))
    (h : ∀ v, Except.ok v ∈ l → v.length = d) (he : allOk l = .ok vs) : ∀ v ∈ vs, v.length = d := by
  induction l generalizing vs with
  | nil =>
    simp only [allOk, Except.ok.injEq] at he
    subst he
    simp
  | cons r l ih =>
    cases r with
    | error e => cases he
    | ok v =>
      simp only [allOk] at he
      cases hl : allOk l with
      | error e => rw [hl] at he; cases he
      | ok ws =>
        rw [hl] at he
        simp only [Except.ok.injEq] at he
        subst he
        intro x hx
        rcases List.mem_cons.1 hx with rfl | hx
        · exact h _ (by simp)
        · exact ih ws (fun v hv => h v (by simp [hv])) hl x hx

theorem sameLengths_of {d : Nat} {rows : List (List K)} (h : ∀ v ∈ rows, v.length = d) :
    sameLengths rows = true := by
  cases rows with
  | nil => rfl
  | cons r rs =>
    simp only [sameLengths, List.all_eq_true, beq_iff_eq]
    intro q hq
    rw [h q (by simp [hq]), h r (by simp)]

theorem allOk_map {α β : Type} (f : α → β) (l : List (Except Err α)) :
    allOk (l.map fun r => r.map f) = (allOk l).map fun vs => vs.map f := by
  induction l with
  | nil => rfl
  | cons r l ih =>
    cases r with
    | error e => rfl
    | ok v =>
      simp only [List.map_cons, Except.map, allOk] at ih ⊢
      rw [ih]
      cases allOk l <;> rfl

theorem allOk_calls {σ α β : Type} {f : σ → α → Except Err β × σ} {g : α → Except Err β} {P : σ → Prop}
    (hf : ∀ s a, P s → (f s a).1 = g a ∧ P (f s a).2) (as : List α) (s : σ) (hs : P s) :
    ∃ s', Calls f s as (as.map g) s' := by
  induction as generalizing s with
  | nil => exact ⟨s, .nil s⟩
  | cons a as ih =>
    obtain ⟨h1, h2⟩ := hf s a hs
    obtain ⟨s', h⟩ := ih _ h2
    exact ⟨s', .cons (by rw [← h1]) h⟩

theorem pureBatch_allOk (E : EmbEnv K) (texts : List Text) (is : List Nat) (out : List (List K))
    (h : ∀ i ∈ is, pureRows E (batchAt texts i E.batchSize) =
      allOk ((batchAt texts i E.batchSize).map (pureEmb E))) :
    pureBatch E texts is out =
      (allOk (((is.map fun i => batchAt texts i E.batchSize).flatten).map (pureEmb E))).map (out ++ ·) := by
  induction is generalizing out with
  | nil => simp [pureBatch, allOk, Except.map]
  | cons i is ih =>
    rw [pureBatch, h i (by simp), List.map_cons, List.flatten_cons, List.map_append, allOk_append]
    cases allOk ((batchAt texts i E.batchSize).map (pureEmb E)) with
    | error e => rfl
    | ok rows =>
      simp only
      rw [ih (out ++ rows) fun j hj => h j (by simp [hj])]
      cases allOk (((is.map fun i => batchAt texts i E.batchSize).flatten).map (pureEmb E)) with
      | error e => rfl
      | ok b => simp [Except.map]

theorem allOk_ok {β : Type} (l : List (Except Err β)) (vs : List β) (h : allOk l = .ok vs) :
    l = vs.map .ok := by
  induction l generalizing vs with
  | nil =>
    simp only [allOk, Except.ok.injEq] at h
    subst h
    rfl
  | cons r l ih =>
    cases r with
    | error e => cases h
    | ok v =>
      simp only [allOk] at h
      cases hl : allOk l with
      | error e => rw [hl] at h; cases h
      | ok ws =>
        rw [hl] at h
        simp only [Except.ok.injEq] at h
        subst h
        rw [List.map_cons, ih ws hl]

end Valori
