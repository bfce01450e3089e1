import Verif.Lemmas.DocPipe
import Verif.Props.Embedding
import Verif.Props.Chunking
import Verif.Props.Cleaning

/-!
# Properties C159, C160: a document on its way through the whole pipeline
-/

namespace Valori.Props
open Valori Spec

variable {K X : Type}

/-! ## C159 -/

/-- `d` is the document `src` with text `t` cleaned, cut and embedded: nothing else of it changed. -/
structure Processed (L : CleanLib) (cc : CleanCfg) (ck : ChunkCfg) (E : EmbEnv K) (src : RichDoc K X)
    (t : Text) (d : RichDoc K X) : Prop where
  text : d.text = some (cleanText L cc t)
  chunks : ∃ raw, RawChunks ck (cleanText L cc t) raw ∧
    d.chunks = some (raw.filter fun ch => decide (ck.minChunkSize ≤ (ch.text.length : Int) ∧
      (ch.text.length : Int) ≤ ck.maxChunkSize))
  embedding : ∃ v, d.embedding = some v ∧ IsEmbedding E (cleanText L cc t) (.ok v)
  aligned : ∃ cs vs, d.chunks = some cs ∧ d.chunkEmb = some vs ∧
    List.Forall₂ (fun (ch : Chunk) v => IsEmbedding E ch.text (.ok v)) cs vs
  used : d.used = some [.cleaning, .chunking, .embedding]
  rest : d.rest = src.rest

/-- A configuration `initialize` accepts, with a known strategy. -/
def GoodChunking (ck : ChunkCfg) : Prop :=
  0 < ck.chunkSize ∧ ck.chunkOverlap < ck.chunkSize ∧
    (ck.strategy = "fixed_size" ∨ ck.strategy = "semantic" ∨ ck.strategy = "sliding_window")

theorem dp_raw (ck : ChunkCfg) (hck : GoodChunking ck) (t : Text) :
    ∃ raw, RawChunks ck t raw ∧ (⟨ck, true, 0, 0⟩ : Chunker).raw t = .ok raw := by
  obtain ⟨h1, h2, hs⟩ := hck
  have hi : (⟨ck, false, 0, 0⟩ : Chunker).init = (.ok (), ⟨ck, true, 0, 0⟩) :=
    (C62_config _).1 ⟨h1, h2⟩
  rcases hs with hs | hs | hs
  · obtain ⟨cs, hcs⟩ := C57_terminates ck t
    exact ⟨cs, Or.inl ⟨hs, _, hcs _ le_rfl⟩, by simp [Chunker.raw, hs, hcs _ le_rfl]⟩
  · exact ⟨_, Or.inr (Or.inl ⟨hs, rfl⟩), by simp [Chunker.raw, hs]⟩
  · obtain ⟨step, hstep⟩ : ∃ n : Nat, ck.chunkSize - ck.chunkOverlap = n :=
      ⟨_, (Int.toNat_of_nonneg (by omega)).symm⟩
    obtain ⟨cs, hcs, -⟩ := C61_windows ck t step (by omega) hstep h1
    exact ⟨cs, Or.inr (Or.inr ⟨hs, hcs⟩), by simp [Chunker.raw, hs, hcs]⟩

theorem allOk_forall₂ {α β : Type} (f : α → Except Err β) (l : List α) (vs : List β)
    (h : allOk (l.map f) = .ok vs) : List.Forall₂ (fun a v => f a = .ok v) l vs := by
  have := allOk_ok _ _ h
  rw [List.forall₂_iff_get]
  refine ⟨by simpa using congrArg List.length this, fun i h1 h2 => ?_⟩
  have h3 := congrArg (fun l => l[i]?) this
  simp only [List.getElem?_map, List.getElem?_eq_getElem h1, List.getElem?_eq_getElem h2,
    Option.map_some, Option.some.injEq] at h3
  exact h3

theorem allOk_error {β : Type} (l : List (Except Err β)) (e : Err) (h : allOk l = .error e) :
    .error e ∈ l := by
  induction l with
  | nil => simp [allOk] at h
  | cons a l ih =>
    cases a with
    | error e' =>
      simp only [allOk, Except.error.injEq] at h
      simp [h]
    | ok v =>
      simp only [allOk] at h
      cases hl : allOk l with
      | error e' =>
        rw [hl] at h
        simp only [Except.error.injEq] at h
        exact List.mem_cons_of_mem _ (ih (by rw [hl, h]))
      | ok vs => rw [hl] at h; simp at h

/-- **C159** Whatever was processed before, a text goes through cleaning, chunking and embedding in this
order: text and chunks are those of the cleaned text, embeddings line up with them, everything else is
kept.  The only failure is an embedding that fails, and it is reported as a processing error. -/
theorem C159_answer (L : CleanLib) (cc : CleanCfg) (ck : ChunkCfg) (hck : GoodChunking ck)
    (E : EmbEnv K) (hd : Function.Injective E.digest) (calls : List (DocCall K X)) (src : RichDoc K X)
    (t : Text) (ht : src.text = some t) :
    let r := (((docPipe L cc ck E).after calls).processParsed (.ok src)).1
    (∀ d, r = .ok d → Processed L cc ck E src t d) ∧
    ∀ e, r = .error e → e = .processing ∧ ∃ raw e', RawChunks ck (cleanText L cc t) raw ∧
      (IsEmbedding E (cleanText L cc t) (.error e') ∨ ∃ ch ∈ raw, IsEmbedding E ch.text (.error e')) := by
  intro r
  have hr : r = pureAnswer L cc ck E (.ok src) :=
    (pipe_step L cc ck E (fun _ => hd) _ (pipe_after L cc ck E (fun _ => hd) calls) _).1
  obtain ⟨raw, hraw, hok⟩ := dp_raw ck hck (cleanText L cc t)
  unfold pureAnswer at hr
  simp only [ht, hok] at hr
  cases h1 : pureEmb E (cleanText L cc t) with
  | error e' =>
    rw [h1] at hr
    simp only at hr
    refine ⟨fun d hd => (by rw [hr] at hd; simp at hd), fun e he => ?_⟩
    rw [hr] at he
    simp only [Except.error.injEq] at he
    exact ⟨he.symm, raw, e', hraw, .inl (h1 ▸ em_pure E _)⟩
  | ok v =>
    rw [h1] at hr
    cases h2 : allOk ((filterBySize ck raw).map fun ch => pureEmb E ch.text) with
    | error e' =>
      rw [h2] at hr
      simp only at hr
      refine ⟨fun d hd => (by rw [hr] at hd; simp at hd), fun e he => ?_⟩
      rw [hr] at he
      simp only [Except.error.injEq] at he
      have := allOk_error _ _ h2
      obtain ⟨ch, hch, hce⟩ := List.mem_map.1 this
      rw [ck_filter] at hch
      exact ⟨he.symm, raw, e', hraw, .inr ⟨ch, (List.mem_filter.1 hch).1, hce ▸ em_pure E _⟩⟩
    | ok vs =>
      rw [h2] at hr
      simp only at hr
      refine ⟨fun d hd => ?_, fun e he => (by rw [hr] at he; simp at he)⟩
      rw [hr] at hd
      simp only [Except.ok.injEq] at hd
      subst hd
      refine ⟨rfl, ⟨raw, hraw, by rw [ck_filter]⟩, ⟨v, rfl, h1 ▸ em_pure E _⟩,
        ⟨_, vs, rfl, rfl, ?_⟩, rfl, rfl⟩
      exact (allOk_forall₂ _ _ _ h2).imp fun ch v h => h ▸ em_pure E _

/-- **C159** `process_text` and `process_document` agree: chunks, embeddings and marks a parser leaves
in the document make no difference.  Nor does anything processed before. -/
theorem C159_same (L : CleanLib) (cc : CleanCfg) (ck : ChunkCfg) (E : EmbEnv K)
    (hd : Function.Injective E.digest) (calls calls' : List (DocCall K X)) (src : RichDoc K X) (t : Text)
    (ht : src.text = some t) :
    (((docPipe L cc ck E).after calls).processParsed (.ok src)).1 =
      (((docPipe L cc ck E).after calls').processText t src.rest).1 := by
  unfold DocPipe.processText
  rw [(pipe_step L cc ck E (fun _ => hd) _ (pipe_after L cc ck E (fun _ => hd) calls) _).1,
    (pipe_step L cc ck E (fun _ => hd) _ (pipe_after L cc ck E (fun _ => hd) calls') _).1]
  unfold pureAnswer
  simp only [ht]

/-- **C159** A pipeline that is not initialised, a parser that fails, and a document without text give
a processing error; in the first two cases nothing changes. -/
theorem C159_refuses (P : DocPipe K) (r : Except Err (RichDoc K X)) :
    (P.init = false → P.processParsed r = (.error .processing, P)) ∧
    (∀ e, r = .error e → P.processParsed r = (.error .processing, P)) ∧
    ∀ (L : CleanLib) (cc : CleanCfg) (ck : ChunkCfg) (E : EmbEnv K), Function.Injective E.digest →
      ∀ calls : List (DocCall K X), P = (docPipe L cc ck E).after calls →
        ∀ d, r = .ok d → d.text = none → (P.processParsed r).1 = .error .processing := by
  refine ⟨fun h => by simp [DocPipe.processParsed, h], fun e h => ?_, ?_⟩
  · subst h
    unfold DocPipe.processParsed
    split <;> rfl
  · rintro L cc ck E hd calls rfl d rfl ht
    rw [(pipe_step L cc ck E (fun _ => hd) _ (pipe_after L cc ck E (fun _ => hd) calls) _).1]
    simp [pureAnswer, ht]

/-- One document, with the processors of the examples of C57, C66 and C67. -/
example : GoodChunking (exCkCfg "fixed_size" 10 3) ∧
    (((docPipe exClLib {} (exCkCfg "fixed_size" 10 0) exEmb).processText
        " A<b>a</b>a \n b  ".toList ()).1.toOption.map fun d =>
        d.text) = some (some "Aaa b".toList) ∧
    (((docPipe exClLib {} (exCkCfg "fixed_size" 10 0) exEmb).processText
        " A<b>a</b>a \n b  ".toList ()).1.toOption.bind fun d => d.chunkEmb) =
      some [[5, 2, 1]] := by
  refine ⟨⟨by decide, by decide, by decide⟩, ?_⟩
  decide +kernel

/-! ## C160 -/

theorem clean_tidy (L : CleanLib) (t : Text) : Tidy isSpace (cleanText L {} t) := by
  by_cases ht : t = []
  · subst ht
    rw [C154_empty]
    exact ⟨by simp, by simp, by simp, by simp⟩
  · obtain ⟨-, -, -, h, -⟩ := C154_defaults L t ht
    exact h

theorem semantic_tidy (c : ChunkCfg) (t : Text) (h : Tidy isSpace t) :
    semantic c t = if t = [] then [] else [⟨0, t, 0, t.length, none⟩] := by
  have h1 : splitOnText nl2 t = [t] := by
    rw [splitOnText, splitGo_none]
    · rfl
    · intro x hx hm
      simp only [nl2, List.head?_cons, Option.mem_def, Option.some.injEq] at hx
      subst hx
      exact absurd (h.only _ hm (by decide)) (by decide)
    · decide
  have h2 : strip t = t := strip_fix t h.head h.last
  unfold semantic
  rw [h1]
  by_cases ht : t = []
  · subst ht
    rfl
  · simp [semStep, h2, ht, semChunk]

/-- **C160 (refuted).** The pipeline of `create_document_db` never cuts a document: cleaning has
removed every line break, so the semantic chunker sees one paragraph, whatever `chunk_size` is.  There
is one chunk, the whole text, if that has 50 to 2000 characters, and otherwise none at all. -/
theorem C160_chunks_refuted (L : CleanLib) (size overlap : Int) (hs : 0 < size) (ho : overlap < size)
    (E : EmbEnv K) (hd : Function.Injective E.digest) (calls : List (DocCall K X)) (t : Text) (rest : X)
    (d : RichDoc K X)
    (h : (((shippedPipe L size overlap E).after calls).processText t rest).1 = .ok d) :
    (50 ≤ (cleanText L {} t).length ∧ (cleanText L {} t).length ≤ 2000 →
      d.chunks = some [⟨0, cleanText L {} t, 0, (cleanText L {} t).length, none⟩]) ∧
    ((cleanText L {} t).length < 50 ∨ 2000 < (cleanText L {} t).length →
      d.chunks = some [] ∧ d.chunkEmb = some []) := by
  obtain ⟨⟨raw, hraw, hc⟩, ⟨cs, vs, h1, h2, h3⟩⟩ :=
    (fun p : Processed L {} (shippedChunking size overlap) E ⟨some t, none, none, none, none, rest⟩ t d =>
      (⟨p.chunks, p.aligned⟩ : _ ∧ _)) ((C159_answer L {} (shippedChunking size overlap)
      ⟨hs, ho, .inr (.inl rfl)⟩ E hd calls _ t rfl).1 d h)
  have hsem : semantic (shippedChunking size overlap) (cleanText L {} t) = raw := by
    rcases hraw with h | h | h
    · exact absurd h.1 (by simp [shippedChunking])
    · exact h.2
    · exact absurd h.1 (by simp [shippedChunking])
  rw [semantic_tidy _ _ (clean_tidy L t)] at hsem
  subst hsem
  simp only [shippedChunking] at hc
  refine ⟨fun hl => ?_, fun hl => ?_⟩
  · rw [if_neg (by intro h0; rw [h0] at hl; simp at hl)] at hc
    rw [hc, List.filter_cons_of_pos (by simp; omega)]
    rfl
  · have : d.chunks = some [] := by
      rw [hc]
      split
      · rfl
      · rw [List.filter_cons_of_neg (by simp; omega)]
        rfl
    rw [this] at h1
    obtain rfl := Option.some.inj h1
    cases h3
    exact ⟨this, h2⟩

/-- A text of two paragraphs with 60 characters each and chunks of 70: one chunk of 121. -/
example : (((shippedPipe exClLib 70 10 exEmb).processText
      (List.replicate 60 'a' ++ ['\n', '\n'] ++ List.replicate 60 'b') ()).1.toOption.bind fun d =>
      d.chunks.map (·.map fun ch => ch.text.length)) = some [121] := by decide +kernel

theorem spanLoop_kept (c : ChunkCfg) (text : Text) (h : Tidy isSpace text) (hm : 1 ≤ c.minChunkSize)
    (hms : c.minChunkSize + 2 ≤ c.chunkSize) (hmo : c.minChunkSize ≤ c.chunkOverlap)
    (hmx : c.chunkSize ≤ c.maxChunkSize) (hsep : [] ∉ c.separators) (fuel start id : Nat)
    (cs : List Chunk)
    (hinv : start = 0 ∧ c.minChunkSize ≤ text.length ∨ c.minChunkSize + 1 ≤ (text.length : Int) - start)
    (hcs : spanLoop text (fixedCut c text) c.chunkOverlap (fun _ => none) fuel start id = some cs)
    (i : Nat) (hi : start ≤ i) (hil : i < text.length) :
    ∃ ch ∈ cs, ch.startPos ≤ i ∧ (i : Int) < ch.endPos ∧
      c.minChunkSize ≤ (ch.text.length : Int) ∧ (ch.text.length : Int) ≤ c.maxChunkSize := by
  induction fuel generalizing start id cs with
  | zero =>
    unfold spanLoop at hcs
    split_ifs at hcs with hs
    omega
  | succ n ih =>
    unfold spanLoop at hcs
    rw [if_neg (by omega)] at hcs
    simp only at hcs
    obtain ⟨c1, c2, c3⟩ := fixedCut_good c text (by omega) (by omega) start (by omega)
    obtain ⟨e, he⟩ : ∃ e : Nat, fixedCut c text start = e := ⟨(fixedCut c text start).toNat, by omega⟩
    have hsub : sub text start (e : Int) = (text.drop start).take (e - start) := sub_nat _ _ _ (by omega)
    have hlen : (sub text start (e : Int)).length = e - start := by
      rw [hsub]; simp; omega
    have hsg : ∀ (j : Nat) x y, (sub text start (e : Int))[j]? = some x →
        (sub text start (e : Int))[j + 1]? = some y → ¬ (isSpace x = true ∧ isSpace y = true) := by
      intro j x y hx hy
      have hj : j + 1 < e - start := by
        have := (List.getElem?_eq_some_iff.1 hy).1
        omega
      rw [hsub, List.getElem?_take_of_lt (by omega), List.getElem?_drop] at hx
      rw [hsub, List.getElem?_take_of_lt (by omega), List.getElem?_drop] at hy
      exact h.single _ _ _ hx hy
    have hup : (strip (sub text start (e : Int))).length ≤ e - start := by
      obtain ⟨a, b, heq, -⟩ := strip_isTrim (sub text start (e : Int))
      have := congrArg List.length heq
      simp only [List.length_append] at this
      omega
    -- the length of the span
    have hlow : c.minChunkSize ≤ ((strip (sub text start (e : Int))).length : Int) ∧
        (e ≠ text.length → c.minChunkSize + 2 ≤ (e : Int) - start) := by
      by_cases hend : e = text.length
      · refine ⟨?_, fun hne => absurd hend hne⟩
        have hsub' : sub text start (e : Int) = text.drop start := by
          rw [hsub, List.take_of_length_le (by simp; omega)]
        have hl : ∀ x, (sub text start (e : Int)).getLast? = some x → isSpace x = false := by
          intro x hx
          rw [hsub'] at hx
          refine h.last x ?_
          rw [List.getLast?_eq_getElem?] at hx ⊢
          rw [List.getElem?_drop, List.length_drop] at hx
          rw [← hx]
          congr 1
          omega
        rcases hinv with ⟨h0, hn⟩ | hn
        · subst h0
          have : strip (sub text 0 (e : Int)) = text := by
            rw [hsub', List.drop_zero]
            exact strip_fix text h.head h.last
          rw [this]
          exact hn
        · have := strip_front _ hsg hl
          omega
      · have hspan : c.minChunkSize + 2 ≤ (e : Int) - start := by
          obtain ⟨f, hf⟩ : ∃ f : Nat, firstEnd text c.chunkSize start = f :=
            ⟨_, (Int.toNat_of_nonneg (by unfold firstEnd; omega)).symm⟩
          have hfe : (f : Int) = min ((start : Int) + c.chunkSize) text.length := by
            rw [← hf]; rfl
          have key : ∀ seps : List Text, [] ∉ seps →
              c.minChunkSize + 2 ≤ findBestBreak text c.minChunkSize start f seps - start ∨
                findBestBreak text c.minChunkSize start f seps = f := by
            intro seps hne
            induction seps with
            | nil => exact .inr rfl
            | cons s seps ih2 =>
              unfold findBestBreak
              split_ifs with hb
              · left
                have : s ≠ [] := fun h0 => hne (by simp [h0])
                have := List.length_pos_iff.2 this
                omega
              · exact ih2 fun h0 => hne (by simp [h0])
          unfold fixedCut at he
          simp only [hf] at he
          have := key c.separators hsep
          split_ifs at he with g1 g2
          · rcases this with h1 | h1 <;> omega
          · omega
          · omega
        refine ⟨?_, fun _ => hspan⟩
        have := strip_loses_two _ hsg
        omega
    rw [he] at hcs
    have hne : strip (sub text start (e : Int)) ≠ [] := by
      intro h0
      rw [h0] at hlow
      simp at hlow
      omega
    rw [if_neg hne] at hcs
    split at hcs
    · simp at hcs
    rename_i cs' hcs'
    obtain rfl := Option.some.inj hcs
    by_cases hie : i < e
    · exact ⟨_, List.mem_cons_self, by simp only; omega, by simp only; omega, hlow.1, by
        simp only; omega⟩
    · have hne' : e ≠ text.length := by omega
      have := hlow.2 hne'
      obtain ⟨ch, hch, hrest⟩ := ih _ _ _ (.inr (by omega)) hcs' (by omega)
      exact ⟨ch, List.mem_cons_of_mem _ hch, hrest⟩

/-- **C160 (partial).** With fixed-size chunking and an overlap of at least the smallest chunk size, as
with the default options, no character of the cleaned text is lost, provided the text is not shorter
than the smallest chunk size: every position lies inside a chunk that is kept and embedded. -/
theorem C160_cover_partial (L : CleanLib) (ck : ChunkCfg) (hst : ck.strategy = "fixed_size")
    (hm : 1 ≤ ck.minChunkSize) (hms : ck.minChunkSize + 2 ≤ ck.chunkSize)
    (hmo : ck.minChunkSize ≤ ck.chunkOverlap) (hoc : ck.chunkOverlap < ck.chunkSize)
    (hmx : ck.chunkSize ≤ ck.maxChunkSize)
    (hsep : [] ∉ ck.separators) (E : EmbEnv K) (hd : Function.Injective E.digest)
    (calls : List (DocCall K X)) (t : Text) (rest : X) (d : RichDoc K X)
    (h : (((docPipe L {} ck E).after calls).processText t rest).1 = .ok d)
    (hlen : ck.minChunkSize ≤ (cleanText L {} t).length) :
    ∃ cs vs, d.chunks = some cs ∧ d.chunkEmb = some vs ∧ cs.length = vs.length ∧
      ∀ i < (cleanText L {} t).length, ∃ ch ∈ cs, ch.startPos ≤ i ∧ (i : Int) < ch.endPos := by
  have hp : Processed L {} ck E ⟨some t, none, none, none, none, rest⟩ t d :=
    (C159_answer L {} ck ⟨by omega, hoc, .inl hst⟩ E hd calls _ t rfl).1 d h
  obtain ⟨raw, hraw, hc⟩ := hp.chunks
  obtain ⟨cs, vs, h1, h2, h3⟩ := hp.aligned
  refine ⟨cs, vs, h1, h2, h3.length_eq, fun i hi => ?_⟩
  have hfix : ∃ fuel, fixedSize ck (cleanText L {} t) fuel = some raw := by
    rcases hraw with h | h | h
    · exact h.2
    · rw [hst] at h; exact absurd h.1 (by decide)
    · rw [hst] at h; exact absurd h.1 (by decide)
  obtain ⟨fuel, hfix⟩ := hfix
  obtain ⟨ch, hch, k1, k2, k3, k4⟩ := spanLoop_kept ck _ (clean_tidy L t) hm hms hmo hmx hsep fuel 0 0 raw
    (.inl ⟨rfl, hlen⟩) hfix i (by omega) hi
  rw [hc] at h1
  obtain rfl := Option.some.inj h1
  exact ⟨ch, List.mem_filter.2 ⟨hch, by simp [k3, k4]⟩, k1, k2⟩

/-- The default options meet the conditions. -/
example : let ck := { shippedChunking 1000 100 with strategy := "fixed_size" }
    1 ≤ ck.minChunkSize ∧ ck.minChunkSize + 2 ≤ ck.chunkSize ∧ ck.minChunkSize ≤ ck.chunkOverlap ∧
    ck.chunkOverlap < ck.chunkSize ∧ ck.chunkSize ≤ ck.maxChunkSize ∧ [] ∉ ck.separators := by decide

end Valori.Props
