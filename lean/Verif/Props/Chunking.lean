import Verif.Lemmas.ChunkTail
import Verif.Lemmas.Semantic

/-!
# The chunking processor: C57 - C62, C92
-/

namespace Valori.Props
open Valori.Spec (IsTrim Located Cuts HeldIn Paragraphs)

/-- A configuration for the examples. -/
def exCkCfg (strategy : String) (size overlap : Int) : ChunkCfg where
  strategy := strategy
  chunkSize := size
  chunkOverlap := overlap
  minChunkSize := 1
  maxChunkSize := 100
  separators := [nl2, ['\n'], ['.', ' '], [' ']]

def exCkText : Text := "one two three. four five".toList

/-! ## C57 -/

/-- Fixed-size chunking stops for every configuration at all: after as many rounds as the text has
characters the result no longer changes. -/
theorem C57_terminates (c : ChunkCfg) (text : Text) :
    ∃ cs, ∀ fuel, text.length ≤ fuel → fixedSize c text fuel = some cs := by
  have h := spanLoop_terminates text (fixedCut c text) c.chunkOverlap (fun _ => none) text.length 0 0
    (by omega)
  obtain ⟨cs, hcs⟩ := Option.isSome_iff_exists.1 h
  exact ⟨cs, fun fuel hf => spanLoop_fuel _ _ _ _ _ _ _ _ hcs fuel hf⟩

/-- The chunks cut the text correctly: numbered from zero, starting ever later, each the trimmed
content of a span of at most `chunk_size` characters, no non-white character left out. -/
theorem C57_cuts (c : ChunkCfg) (text : Text) (hc : 0 < c.chunkSize) (ho : 0 ≤ c.chunkOverlap)
    (hm : 0 ≤ c.minChunkSize) (fuel : Nat) (cs : List Chunk) (h : fixedSize c text fuel = some cs) :
    Cuts isSpace text c.chunkSize (cs.map Chunk.piece) :=
  spanLoop_cuts text c.chunkSize _ (fixedCut_good c text hc hm) _ ho _ fuel cs h

example : (fixedSize (exCkCfg "fixed_size" 10 3) exCkText 24).map (·.map fun c => (c.startPos, c.endPos)) =
    some [(0, 8), (5, 15), (12, 20), (17, 24), (21, 24), (22, 24), (23, 24)] := by decide +kernel

/-- `initialize` accepts a negative overlap; then text is lost, so `0 ≤ overlap` is needed. -/
theorem C57_negative_overlap :
    ((⟨exCkCfg "fixed_size" 5 (-3), false, 0, 0⟩ : Chunker).init).1 = .ok () ∧
    (fixedSize (exCkCfg "fixed_size" 5 (-3)) "abcdefghijklm".toList 20).map
      (·.map fun c => String.ofList c.text) = some ["abcde", "ijklm"] := by decide +kernel

/-! ## C58 -/

/-- Without overlap a chunk that reaches the end is the last one; with overlap, at most `overlap`
chunks follow it. -/
theorem C58_tail_partial (c : ChunkCfg) (text : Text) (ho : 0 ≤ c.chunkOverlap) (fuel : Nat)
    (pre post : List Chunk) (ch : Chunk) (h : fixedSize c text fuel = some (pre ++ ch :: post))
    (he : ch.endPos = text.length) :
    (post.length : Int) ≤ c.chunkOverlap ∧ (c.chunkOverlap = 0 → post = []) := by
  have := spanLoop_tail text _ _ _ fuel _ pre post ch h rfl he ho
  refine ⟨this, fun h0 => ?_⟩
  rw [h0] at this
  exact List.length_eq_zero_iff.1 (by omega)

/-- With any overlap, any text of two or more characters that does not end in white space gets
chunks after the one that reached the end. -/
theorem C58_tail_refuted (c : ChunkCfg) (text : Text) (hc : 2 ≤ c.chunkSize) (ho : 1 ≤ c.chunkOverlap)
    (hm : 0 ≤ c.minChunkSize) (hlen : 2 ≤ text.length) (x : Char) (hx : text.getLast? = some x)
    (hw : isSpace x = false) (fuel : Nat) (cs : List Chunk) (h : fixedSize c text fuel = some cs) :
    ∃ (pre : List Chunk) (ch : Chunk) (post : List Chunk),
      cs = pre ++ ch :: post ∧ ch.endPos = text.length ∧ post ≠ [] := by
  refine spanLoop_twice text c.chunkSize _ (fixedCut_good c text (by omega) hm) ?_ hc _ ho _ x hx hw
    fuel 0 0 (by omega) cs h
  intro s hs
  unfold fixedCut
  have : firstEnd text c.chunkSize s = text.length := by unfold firstEnd; omega
  simp only [this]
  rw [if_neg (by omega)]

example : (fixedSize (exCkCfg "fixed_size" 10 3) "hello".toList 24).map
    (·.map fun c => String.ofList c.text) = some ["hello", "llo", "lo", "o"] := by decide +kernel

/-! ## C59 -/

theorem ck_paras (text : Text) :
    Paragraphs isSpace nl2 text (paras (splitOnText nl2 text)) := by
  refine ⟨splitOnText nl2 text, (splitOnText nl2 text).map strip, splitOnText_join _ _ (by decide),
    splitGo_free _ (by decide) 0 [] text (by simp), ?_, rfl⟩
  rw [List.forall₂_map_right_iff, List.forall₂_same]
  exact fun t _ => strip_isTrim t

/-- Every paragraph lies whole inside a chunk, in document order; chunks are numbered from zero,
not blank and trimmed. -/
theorem C59_paragraphs (c : ChunkCfg) (text : Text) :
    ∃ ps, Paragraphs isSpace nl2 text ps ∧
      HeldIn ps ((semantic c text).map fun ch => ch.text) ∧
      (semantic c text).map (fun ch => ch.id) = List.range (semantic c text).length ∧
      ∀ ch ∈ semantic c text, ch.text ≠ [] ∧ IsTrim isSpace ch.text ch.text := by
  obtain ⟨h1, h2, h3⟩ := semantic_spec c text
  refine ⟨_, ck_paras text, h1, h2, fun ch hch => ?_⟩
  obtain ⟨g1, g2⟩ := h3 ch hch
  exact ⟨g1, [], [], by simp, by simp, by simp, g2.1, g2.2⟩

example : ((semantic (exCkCfg "semantic" 12 4) "first part\n\nsecond\n\n  \n\nend".toList).map
    fun c => String.ofList c.text) = ["first part", "partsecond", "condend"] := by decide +kernel

/-! ## C60 -/

/-- With a positive overlap: a chunk has at most `chunk_size` characters and one separator, or at
most the overlap and one paragraph, which it holds. -/
theorem C60_size_partial (c : ChunkCfg) (ho : 0 < c.chunkOverlap) (text : Text) :
    ∃ ps, Paragraphs isSpace nl2 text ps ∧ ∀ ch ∈ semantic c text,
      (ch.text.length : Int) ≤ c.chunkSize + 2 ∨
      ∃ p ∈ ps, p <:+: ch.text ∧ (ch.text.length : Int) ≤ c.chunkOverlap + p.length :=
  ⟨_, ck_paras text, semantic_size c ho text⟩

example : 0 < (exCkCfg "semantic" 12 4).chunkOverlap := by decide

/-- Without overlap the chunks hold all the text so far: paragraphs of four characters, a size of
four, and a chunk of twelve. -/
theorem C60_size_refuted :
    ((⟨exCkCfg "semantic" 4 0, false, 0, 0⟩ : Chunker).init).1 = .ok () ∧
    (semantic (exCkCfg "semantic" 4 0) "aaaa\n\nbbbb\n\ncccc".toList).map
      (fun c => String.ofList c.text) = ["aaaa", "aaaabbbb", "aaaabbbbcccc"] := by decide +kernel

/-! ## C61 -/

/-- The windows: which chunks there are, and that no window is left out unless too short. -/
theorem C61_windows (c : ChunkCfg) (text : Text) (step : Nat) (hstep : 0 < step)
    (hc : c.chunkSize - c.chunkOverlap = step) (hsize : 0 < c.chunkSize) :
    ∃ cs, slidingWindow c text = .ok cs ∧
      cs.map (fun ch => ch.id) = List.range cs.length ∧
      cs.Pairwise (fun p q => p.startPos < q.startPos) ∧
      (∀ ch ∈ cs, ∃ m : Nat, ch.startPos = (m * step : Nat) ∧ m * step < text.length ∧
        ch.endPos = min (ch.startPos + c.chunkSize) text.length ∧
        IsTrim isSpace ((text.drop (m * step)).take c.chunkSize.toNat) ch.text ∧
        c.minChunkSize ≤ (ch.text.length : Int)) ∧
      ∀ m : Nat, m * step < text.length → (∃ ch ∈ cs, ch.startPos = (m * step : Nat)) ∨
        ∃ s, IsTrim isSpace ((text.drop (m * step)).take c.chunkSize.toNat) s ∧
          (s.length : Int) < c.minChunkSize := by
  have hsub : ∀ i, i < text.length → sub text i (firstEnd text c.chunkSize i) =
      (text.drop i).take c.chunkSize.toNat := by
    intro i hi
    obtain ⟨e, he⟩ : ∃ e : Nat, firstEnd text c.chunkSize i = e :=
      ⟨_, (Int.toNat_of_nonneg (by unfold firstEnd; omega)).symm⟩
    rw [he, sub_nat _ _ _ (by unfold firstEnd at he; omega)]
    unfold firstEnd at he
    by_cases hlt : (i : Int) + c.chunkSize ≤ text.length
    · congr 1; omega
    · rw [List.take_of_length_le (by simp; omega), List.take_of_length_le (by simp; omega)]
  obtain ⟨h1, h2, h3⟩ := windows_spec c text (rangeStep text.length step)
    (rangeStep_sorted _ _ hstep) [] rfl List.Pairwise.nil (by simp)
  refine ⟨_, ?_, h1, h2, ?_, ?_⟩
  · unfold slidingWindow
    simp only [hc]
    rw [if_neg (by omega), if_neg (by omega), Int.toNat_natCast]
  · intro ch hch
    rcases (h3 ch).1 hch with h | ⟨i, hi, g1, g2, g3, -, g5, -⟩
    · simp at h
    · obtain ⟨hlt, m, rfl⟩ := (mem_rangeStep _ _ _ hstep).1 hi
      refine ⟨m, g1, hlt, ?_, ?_, g5⟩
      · rw [g2, g1]; rfl
      · rw [g3, windowText, hsub _ hlt]; exact strip_isTrim _
  · intro m hm
    by_cases hw : c.minChunkSize ≤ ((windowText c text (m * step)).length : Int)
    · exact Or.inl (windows_complete c text _ [] _ ((mem_rangeStep _ _ _ hstep).2 ⟨hm, m, rfl⟩) hw)
    · refine Or.inr ⟨windowText c text (m * step), ?_, by omega⟩
      rw [windowText, hsub _ hm]; exact strip_isTrim _

/-- Every position lies in a window, and in an emitted chunk unless that window is too short. -/
theorem C61_covers (c : ChunkCfg) (text : Text) (ho : 0 ≤ c.chunkOverlap)
    (hlt : c.chunkOverlap < c.chunkSize) (cs : List Chunk) (h : slidingWindow c text = .ok cs)
    (i : Nat) (hi : i < text.length) :
    (∃ ch ∈ cs, ch.startPos ≤ i ∧ (i : Int) < ch.endPos) ∨
    ∃ st s, st ≤ i ∧ (i : Int) < st + c.chunkSize ∧
      IsTrim isSpace ((text.drop st).take c.chunkSize.toNat) s ∧ (s.length : Int) < c.minChunkSize := by
  obtain ⟨step, hstep⟩ : ∃ n : Nat, c.chunkSize - c.chunkOverlap = n :=
    ⟨_, (Int.toNat_of_nonneg (by omega)).symm⟩
  have hpos : 0 < step := by omega
  obtain ⟨cs', h1, -, -, h4, h5⟩ := C61_windows c text step hpos hstep (by omega)
  rw [h] at h1
  obtain rfl := Except.ok.inj h1
  have hd := Nat.div_add_mod i step
  have hm := Nat.mod_lt i hpos
  rw [Nat.mul_comm] at hd
  rcases h5 (i / step) (by omega) with ⟨ch, hch, hs⟩ | ⟨s, hs, hl⟩
  · left
    obtain ⟨m, g1, g2, g3, -⟩ := h4 ch hch
    exact ⟨ch, hch, by omega, by omega⟩
  · exact Or.inr ⟨i / step * step, s, by omega, by omega, hs, hl⟩

example : (slidingWindow (exCkCfg "sliding_window" 10 3) exCkText).map
    (·.map fun c => (c.startPos, c.endPos)) = .ok [(0, 10), (7, 17), (14, 24), (21, 24)] := by
  decide +kernel

/-! ## C62 -/

/-- The raw chunks of a strategy. -/
def RawChunks (c : ChunkCfg) (text : Text) (raw : List Chunk) : Prop :=
  c.strategy = "fixed_size" ∧ (∃ fuel, fixedSize c text fuel = some raw) ∨
  c.strategy = "semantic" ∧ semantic c text = raw ∨
  c.strategy = "sliding_window" ∧ slidingWindow c text = .ok raw

theorem ck_filter (c : ChunkCfg) (cs : List Chunk) :
    filterBySize c cs = cs.filter fun ch =>
      decide (c.minChunkSize ≤ (ch.text.length : Int) ∧ (ch.text.length : Int) ≤ c.maxChunkSize) := by
  induction cs with
  | nil => rfl
  | cons ch cs ih =>
    rw [filterBySize, List.filter_cons]
    by_cases h : c.minChunkSize ≤ (ch.text.length : Int) ∧ (ch.text.length : Int) ≤ c.maxChunkSize
    · rw [if_pos h, ih]; simp only [decide_eq_true h, if_true]
    · rw [if_neg h, ih, if_neg (by simpa using h)]

/-- An initialised processor answers every text: the raw chunks of suitable length, in order, with
both counters brought up to date. -/
theorem C62_process (p q : Chunker) (hi : p.init = (.ok (), q))
    (hs : p.cfg.strategy = "fixed_size" ∨ p.cfg.strategy = "semantic" ∨
      p.cfg.strategy = "sliding_window") (text : Text) :
    ∃ raw kept r, RawChunks p.cfg text raw ∧ q.process (some text) = (.ok kept, r) ∧
      kept = raw.filter (fun ch => decide (p.cfg.minChunkSize ≤ (ch.text.length : Int) ∧
        (ch.text.length : Int) ≤ p.cfg.maxChunkSize)) ∧
      r.created = p.created + kept.length ∧ r.chars = p.chars + text.length ∧
      r.cfg = p.cfg ∧ r.inited = true := by
  have hq : 0 < p.cfg.chunkSize ∧ p.cfg.chunkOverlap < p.cfg.chunkSize ∧ q = { p with inited := true } := by
    unfold Chunker.init at hi
    split_ifs at hi with h1 h2
    · simp at hi
    · simp at hi
    · simp only [Prod.mk.injEq, true_and] at hi
      exact ⟨by omega, by omega, hi.symm⟩
  obtain ⟨h1, h2, rfl⟩ := hq
  have hraw : ∃ raw, RawChunks p.cfg text raw ∧ ∀ n,
      Chunker.raw { p with inited := true, chars := n } text = .ok raw := by
    rcases hs with hs | hs | hs
    · obtain ⟨cs, hcs⟩ := C57_terminates p.cfg text
      refine ⟨cs, Or.inl ⟨hs, _, hcs _ le_rfl⟩, fun n => ?_⟩
      unfold Chunker.raw
      simp only [hs, hcs _ le_rfl, if_true]
    · refine ⟨_, Or.inr (Or.inl ⟨hs, rfl⟩), fun n => ?_⟩
      unfold Chunker.raw
      simp only [hs]
      rw [if_neg (by decide), if_pos trivial]
    · obtain ⟨step, hstep⟩ : ∃ n : Nat, p.cfg.chunkSize - p.cfg.chunkOverlap = n :=
        ⟨_, (Int.toNat_of_nonneg (by omega)).symm⟩
      obtain ⟨cs, hcs, -⟩ := C61_windows p.cfg text step (by omega) hstep h1
      refine ⟨cs, Or.inr (Or.inr ⟨hs, hcs⟩), fun n => ?_⟩
      unfold Chunker.raw
      simp only [hs, hcs]
      rw [if_neg (by decide), if_neg (by decide), if_pos trivial]
  obtain ⟨raw, hr, hraw⟩ := hraw
  refine ⟨raw, filterBySize p.cfg raw, ⟨p.cfg, true, p.created + (filterBySize p.cfg raw).length,
    p.chars + text.length⟩, hr, ?_, ck_filter _ _, rfl, rfl, rfl, rfl⟩
  unfold Chunker.process
  simp only [hraw]
  rfl

/-- Exactly the configurations with a positive chunk size above the overlap are accepted; a refused
processor stays as it was. -/
theorem C62_config (p : Chunker) :
    (0 < p.cfg.chunkSize ∧ p.cfg.chunkOverlap < p.cfg.chunkSize →
      p.init = (.ok (), { p with inited := true })) ∧
    (¬(0 < p.cfg.chunkSize ∧ p.cfg.chunkOverlap < p.cfg.chunkSize) →
      p.init = (.error .processing, p)) := by
  unfold Chunker.init
  constructor
  · rintro ⟨h1, h2⟩
    rw [if_neg (by omega), if_neg (by omega)]
  · intro h
    by_cases h1 : p.cfg.chunkSize ≤ 0
    · rw [if_pos h1]
    · rw [if_neg h1, if_pos (by omega)]

example : (⟨exCkCfg "fixed_size" 1 0, false, 0, 0⟩ : Chunker).init.1 = .ok () ∧
    (⟨exCkCfg "fixed_size" 0 0, false, 0, 0⟩ : Chunker).init.1 = .error .processing ∧
    (⟨exCkCfg "fixed_size" 5 5, false, 0, 0⟩ : Chunker).init.1 = .error .processing := by
  decide +kernel

/-- No text, or no `initialize`: an error and nothing changes. -/
theorem C62_refuses (p : Chunker) (data : ChunkIn) (h : p.inited = false ∨ data = none) :
    p.process data = (.error .processing, p) := by
  unfold Chunker.process
  rcases h with h | h
  · rw [if_pos h]
  · subst h
    split_ifs <;> rfl

/-- An unknown strategy is refused, though the characters have been counted by then. -/
theorem C62_unknown (p : Chunker) (hi : p.inited = true)
    (hs : p.cfg.strategy ≠ "fixed_size" ∧ p.cfg.strategy ≠ "semantic" ∧
      p.cfg.strategy ≠ "sliding_window") (text : Text) :
    p.process (some text) = (.error .processing, { p with chars := p.chars + text.length }) := by
  unfold Chunker.process Chunker.raw
  simp only [hi, hs.1, hs.2.1, hs.2.2, if_false]
  rfl

example : ((⟨{ exCkCfg "sliding_window" 10 3 with minChunkSize := 5 }, true, 2, 100⟩ : Chunker).process
    (some exCkText)).2 = ⟨{ exCkCfg "sliding_window" 10 3 with minChunkSize := 5 }, true, 5, 124⟩ := by
  decide +kernel

/-! ## C92 -/

/-- What holds of the positions: they are not negative and at least a text's length apart. -/
theorem C92_positions_partial (c : ChunkCfg) (text : Text) : ∀ ch ∈ semantic c text,
    0 ≤ ch.startPos ∧ ch.startPos + ch.text.length ≤ ch.endPos := semantic_pos c text

/-- The positions do not locate the chunk: the second chunk claims the span 4-9 of a document of ten
characters, which holds a line break and does not hold the chunk's text. -/
theorem C92_positions_refuted :
    ∃ ch ∈ semantic (exCkCfg "semantic" 4 1) "aaaa\n\nbbbb".toList,
      ch.startPos = 4 ∧ ch.endPos = 9 ∧ ch.text = "abbbb".toList ∧
      ¬ ch.text <:+: "aaaa\n\nbbbb".toList := by
  refine ⟨⟨1, "abbbb".toList, 4, 9, none⟩, by decide +kernel, by decide +kernel⟩

end Valori.Props
