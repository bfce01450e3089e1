import Mathlib.Algebra.Order.Field.Rat
import Mathlib.Algebra.BigOperators.Group.List.Basic
import Mathlib.Tactic.Ring
import Mathlib.Tactic.FieldSimp
import Mathlib.Tactic.Positivity
import Verif.Model.ProcStats
import Verif.Props.Chunking
import Verif.Props.Cleaning

/-!
# C188: the statistics of the chunking and the cleaning processor
-/

namespace Valori.Props

open Valori Valori.Spec

/-! ## Chunking -/

/-- All chunks handed out, from the replies alone. -/
def handedOut (rs : List (Except Err (List Chunk))) : List Chunk :=
  rs.flatMap fun r => match r with | .ok cs => cs | .error _ => []

/-- The number of characters of the texts, from the inputs alone. -/
def givenChars (ds : List ChunkIn) : Nat := (ds.map fun d => match d with | some t => t.length | none => 0).sum

theorem chunker_process_counts (p : Chunker) (hi : p.inited = true) (d : ChunkIn) :
    (p.process d).2.inited = true ∧ (p.process d).2.chars = p.chars + givenChars [d] ∧
      (p.process d).2.created = p.created + (handedOut [(p.process d).1]).length := by
  unfold Chunker.process
  rw [if_neg (by simp [hi])]
  cases d with
  | none => simp [hi, givenChars, handedOut]
  | some t =>
    simp only
    cases h : ({ p with chars := p.chars + t.length } : Chunker).raw t <;>
      simp [hi, givenChars, handedOut]

/-- **C188.** For an initialised chunking processor, whatever documents pass through it and whichever of
them are refused: `chunks_created` grows by the number of chunks handed out,
`total_characters_processed` by the characters of the texts passed in (those of refused documents
included), and `average_chunk_size` is the quotient of the two when a chunk was created. -/
theorem C188_chunking (p : Chunker) (hi : p.inited = true) (ds : List ChunkIn) :
    (p.feed ds).2.created = p.created + (handedOut (p.feed ds).1).length ∧
      (p.feed ds).2.chars = p.chars + givenChars ds ∧
      (p.feed ds).1.length = ds.length ∧
      (0 < (p.feed ds).2.created →
        (p.feed ds).2.average * (p.feed ds).2.created = (p.feed ds).2.chars) := by
  have key : (p.feed ds).2.created = p.created + (handedOut (p.feed ds).1).length ∧
      (p.feed ds).2.chars = p.chars + givenChars ds ∧ (p.feed ds).1.length = ds.length := by
    induction ds generalizing p with
    | nil => simp [Chunker.feed, handedOut, givenChars]
    | cons d ds ih =>
      obtain ⟨h1, h2, h3⟩ := chunker_process_counts p hi d
      obtain ⟨k1, k2, k3⟩ := ih _ h1
      simp only [Chunker.feed]
      refine ⟨?_, ?_, by simp [k3]⟩
      · rw [k1, h3]; simp [handedOut]; omega
      · rw [k2, h2]; simp [givenChars]; omega
  refine ⟨key.1, key.2.1, key.2.2, fun h => ?_⟩
  unfold Chunker.average
  have hm : max (p.feed ds).2.created 1 = (p.feed ds).2.created := by omega
  have hc : ((p.feed ds).2.created : ℚ) ≠ 0 := by
    have : (p.feed ds).2.created ≠ 0 := by omega
    exact_mod_cast this
  have : ((max (p.feed ds).2.created 1 : Nat) : ℚ) = ((p.feed ds).2.created : ℚ) := by rw [hm]
  rw [this]
  field_simp

/-- Two documents, one without a text between them. -/
example : ((⟨{ exCkCfg "sliding_window" 10 3 with minChunkSize := 5 }, true, 0, 0⟩ : Chunker).feed
      [some exCkText, none, some "abcdefgh".toList]).2.created = 4 ∧
    ((⟨{ exCkCfg "sliding_window" 10 3 with minChunkSize := 5 }, true, 0, 0⟩ : Chunker).feed
      [some exCkText, none, some "abcdefgh".toList]).2.average = 8 := by decide +kernel

/-- The reported average is not the average length of the chunks: with an overlap the chunks are longer
than reported (24 characters in three chunks are reported as 8, though none of the chunks is shorter
than 10). -/
theorem C188_average_refuted :
    ¬ ∀ (p : Chunker) (ds : List ChunkIn), p.inited = true → p.created = 0 → p.chars = 0 →
      0 < (p.feed ds).2.created →
      (p.feed ds).2.average * (handedOut (p.feed ds).1).length =
        ((handedOut (p.feed ds).1).map fun c => (c.text.length : ℚ)).sum := by
  intro h
  have := h ⟨{ exCkCfg "sliding_window" 10 3 with minChunkSize := 5 }, true, 0, 0⟩ [some exCkText]
    rfl rfl rfl (by decide +kernel)
  revert this
  decide +kernel

/-- Without any chunk the reported average is the number of characters read: every text whose chunks
are all outside the size limits, or that is refused, shows an average chunk size above zero. -/
theorem C188_no_chunk_refuted (p : Chunker) (hi : p.inited = true) (hc : p.created = 0) (h0 : p.chars = 0)
    (ds : List ChunkIn) (hn : handedOut (p.feed ds).1 = []) :
    (p.feed ds).2.average = givenChars ds := by
  obtain ⟨h1, h2, -, -⟩ := C188_chunking p hi ds
  rw [hn, hc] at h1
  rw [h0] at h2
  unfold Chunker.average
  rw [h1, h2]
  simp

example : handedOut ((⟨{ exCkCfg "fixed_size" 10 3 with minChunkSize := 5 }, true, 0, 0⟩ : Chunker).feed
      [some "abc".toList]).1 = [] ∧
    ((⟨{ exCkCfg "fixed_size" 10 3 with minChunkSize := 5 }, true, 0, 0⟩ : Chunker).feed
      [some "abc".toList]).2.average = 3 := by decide +kernel

/-! ## Cleaning -/

/-- The characters of the main texts, from the documents alone. -/
def docChars {C D : Type} (ds : List (Doc C D)) : Nat :=
  (ds.map fun d => match d.text with | some t => t.length | none => 0).sum

/-- **C188.** Whatever documents pass through an initialised cleaning processor: `documents_processed`
counts them, the two character counters add up the main texts of the documents passed in and of those
handed out (chunk texts do not count), `characters_removed` is the difference and `compression_ratio`
times the characters before is the characters after, unless there were none. -/
theorem C188_cleaning {C D : Type} (L : CleanLib) (c : CleanCfg) (ds : List (Doc C D)) (s : CleanStats) :
    (cleanFeed L c s ds).2.docs = s.docs + ds.length ∧
      (cleanFeed L c s ds).2.before = s.before + docChars ds ∧
      (cleanFeed L c s ds).2.after = s.after + docChars (cleanFeed L c s ds).1 ∧
      (cleanFeed L c s ds).1.length = ds.length ∧
      (s = ⟨0, 0, 0⟩ → (cleanFeed L c s ds).2.removed =
        (docChars ds : Int) - docChars (cleanFeed L c s ds).1) ∧
      (s = ⟨0, 0, 0⟩ → 0 < docChars ds → (cleanFeed L c s ds).2.ratio * docChars ds =
        docChars (cleanFeed L c s ds).1) ∧
      (s = ⟨0, 0, 0⟩ → docChars ds = 0 → (cleanFeed L c s ds).2.ratio = 0) := by
  have key : ∀ (ds : List (Doc C D)) (s : CleanStats),
      (cleanFeed L c s ds).2.docs = s.docs + ds.length ∧
      (cleanFeed L c s ds).2.before = s.before + docChars ds ∧
      (cleanFeed L c s ds).2.after = s.after + docChars (cleanFeed L c s ds).1 ∧
      (cleanFeed L c s ds).1.length = ds.length := by
    intro ds
    induction ds with
    | nil => intro s; simp [cleanFeed, docChars]
    | cons d ds ih =>
      intro s
      obtain ⟨-, ht, -, -, k1, k2, k3⟩ := C110_process L c d s
      obtain ⟨h1, h2, h3, h4⟩ := ih (cleanProcess L c d s).2
      simp only [cleanFeed]
      refine ⟨by rw [h1, k1]; simp; omega, ?_, ?_, by simp [h4]⟩
      · rw [h2]
        cases hd : d.text with
        | none => rw [(k3 hd).1]; simp [docChars, hd]
        | some t => rw [(k2 t hd).1]; simp [docChars, hd]; omega
      · rw [h3]
        cases hd : d.text with
        | none => rw [(k3 hd).2]; simp [docChars, ht, hd]
        | some t => rw [(k2 t hd).2]; simp [docChars, ht, hd]; omega
  obtain ⟨h1, h2, h3, h4⟩ := key ds s
  refine ⟨h1, h2, h3, h4, ?_, ?_, ?_⟩
  · intro hs
    unfold CleanStats.removed
    rw [h2, h3]; subst hs; push_cast; ring
  · intro hs hp
    unfold CleanStats.ratio
    have hb : (cleanFeed L c s ds).2.before = docChars ds := by rw [h2]; subst hs; simp
    have ha : (cleanFeed L c s ds).2.after = docChars (cleanFeed L c s ds).1 := by
      rw [h3]; subst hs; simp
    have hc : (docChars ds : ℚ) ≠ 0 := by
      have : docChars ds ≠ 0 := by omega
      exact_mod_cast this
    rw [if_pos (by omega), hb, ha]
    field_simp
  · intro hs hp
    unfold CleanStats.ratio
    rw [if_neg]
    rw [h2]; subst hs; simp [hp]

example : (cleanFeed exClLib {} ⟨0, 0, 0⟩ [(⟨some " a  b ".toList, none, ()⟩ : Doc Nat Unit), ⟨none, none, ()⟩,
      ⟨some "<b>".toList, none, ()⟩]).2 = ⟨3, 9, 3⟩ ∧
    (cleanFeed exClLib {} ⟨0, 0, 0⟩ [(⟨some " a  b ".toList, none, ()⟩ : Doc Nat Unit), ⟨none, none, ()⟩,
      ⟨some "<b>".toList, none, ()⟩]).2.ratio = 1 / 3 := by decide +kernel

/-- `characters_removed` can be negative: the compatibility normalisation writes the ligature ﬁ as two
letters. -/
theorem C188_removed_refuted :
    ¬ ∀ (L : CleanLib) (c : CleanCfg) (ds : List (Doc Unit Unit)),
      0 ≤ (cleanFeed L c ⟨0, 0, 0⟩ ds).2.removed := by
  intro h
  have := h ⟨id, fun t => t.flatMap fun ch => if ch = 'ﬁ' then ['f', 'i'] else [ch], id, id⟩ {}
    [⟨some "ﬁt".toList, none, ()⟩]
  revert this
  decide +kernel

/-! ### Cleaning does not lengthen a text when the library functions do not -/

theorem squeezeGo_length (p : Char → Bool) (b : Bool) (t : Text) : (squeezeGo p b t).length ≤ t.length := by
  induction t generalizing b with
  | nil => simp [squeezeGo]
  | cons c cs ih =>
    unfold squeezeGo
    have h1 := ih true
    have h2 := ih false
    split_ifs <;> simp <;> omega

theorem strip_length_le (t : Text) : (strip t).length ≤ t.length := by
  unfold strip
  rw [List.length_reverse]
  refine le_trans (List.dropWhile_sublist _).length_le ?_
  rw [List.length_reverse]
  exact (List.dropWhile_sublist _).length_le

theorem tagsOut_length {t r : Text} (h : TagsOut t r) : r.length ≤ t.length := by
  induction h with
  | nil => simp
  | keep c _ ih => simp; omega
  | cut mid _ _ _ ih => simp; omega

/-- Words of a text joined by single spaces are no longer than the text; shorter if the text starts
with white space. -/
theorem isWords_join {sp : Char → Bool} {t : Text} {ws : List Text} (h : IsWords sp t ws) :
    ∀ us : List Text, us.Sublist ws → (joinSp us).length ≤ t.length ∧
      (us ≠ [] → (∀ c, t.head? = some c → sp c = true) → (joinSp us).length + 1 ≤ t.length) := by
  induction h with
  | blank t _ => intro us hu; rw [List.sublist_nil.1 hu]; simp [joinSp]
  | word a w t ws _ hw hc hb ht ih =>
    intro us hu
    have ha : (∀ c, (a ++ w ++ t).head? = some c → sp c = true) → 1 ≤ a.length := by
      intro hh
      cases a with
      | cons x xs => simp
      | nil =>
        cases w with
        | nil => exact absurd rfl hw
        | cons x xs =>
          have h1 := hh x (by simp)
          have h2 := hc x (by simp)
          rw [h1] at h2
          exact absurd h2 (by simp)
    have hl : (a ++ w ++ t).length = a.length + w.length + t.length := by simp; omega
    have hw0 : 1 ≤ w.length := List.length_pos_iff.2 hw
    have hj : (joinSp us).length ≤ w.length + t.length := by
      cases hu with
      | cons _ hu => have := (ih _ hu).1; omega
      | cons_cons _ hu =>
        rename_i vs
        cases vs with
        | nil => simp [joinSp]
        | cons v vs =>
          have h1 := (ih _ hu).2 (by simp) hb
          have h2 : (joinSp (w :: v :: vs)).length = w.length + 1 + (joinSp (v :: vs)).length := by
            simp [joinSp]; omega
          omega
    refine ⟨by omega, fun _ hh => ?_⟩
    have := ha hh
    omega

/-- Cleaning never lengthens a text if the library functions used do not. -/
theorem cleanText_length (L : CleanLib) (c : CleanCfg)
    (hu : c.removeHtml = true → ∀ t, (L.unescape t).length ≤ t.length)
    (hn : c.normalizeUnicode = true → ∀ t, (L.nfkd t).length ≤ t.length)
    (hs : c.removeSpecial = true → ∀ t, (L.special t).length ≤ t.length)
    (hl : c.lowercase = true → ∀ t, (L.lower t).length ≤ t.length) (t : Text) :
    (cleanText L c t).length ≤ t.length := by
  unfold cleanText
  by_cases h0 : t = []
  · rw [if_pos h0]
  rw [if_neg h0]
  simp only
  generalize e1 : (if c.removeHtml then stripTags (L.unescape t) else t) = t1
  have h1 : t1.length ≤ t.length := by
    rw [← e1]
    split_ifs with hc
    · exact le_trans (tagsOut_length (stripTagsGo_spec _ _ (le_refl _)).1) (hu hc t)
    · exact le_refl _
  generalize e2 : (if c.normalizeUnicode then L.nfkd t1 else t1) = t2
  have h2 : t2.length ≤ t1.length := by
    rw [← e2]
    split_ifs with hc
    · exact hn hc t1
    · exact le_refl _
  generalize e3 : (if c.removeSpecial then L.special t2 else t2) = t3
  have h3 : t3.length ≤ t2.length := by
    rw [← e3]
    split_ifs with hc
    · exact hs hc t2
    · exact le_refl _
  generalize e4 : (if c.normalizeWs then strip (squeeze isSpace t3) else t3) = t4
  have h4 : t4.length ≤ t3.length := by
    rw [← e4]
    split_ifs with hc
    · exact le_trans (strip_length_le _) (squeezeGo_length _ _ _)
    · exact le_refl _
  generalize e5 : (if c.removeExtra then squeeze (· == ' ') t4 else t4) = t5
  have h5 : t5.length ≤ t4.length := by
    rw [← e5]
    split_ifs with hc
    · exact squeezeGo_length _ _ _
    · exact le_refl _
  generalize e6 : (if c.lowercase then L.lower t5 else t5) = t6
  have h6 : t6.length ≤ t5.length := by
    rw [← e6]
    split_ifs with hc
    · exact hl hc t5
    · exact le_refl _
  split_ifs
  · have hw := splitWs_isWords t6 [] (by simp)
    simp only [List.reverse_nil, List.nil_append] at hw
    have := (isWords_join hw _ (List.filter_sublist (p := fun w =>
      decide (L.lower w ∉ c.stopwords) && decide (c.minWord ≤ w.length) &&
        decide ((w.length : Int) ≤ c.maxWord)))).1
    omega
  · omega

/-- **C188 (what is left).** When the library functions in use do not lengthen a text, cleaning does not
either, stop words removed or not: `characters_removed` is not negative and `compression_ratio` lies
between 0 and 1.  Missing: unescaping and NFKD do lengthen some texts, which
`C188_removed_refuted` shows to be enough for a negative count. -/
theorem C188_removed_partial {C D : Type} (L : CleanLib) (c : CleanCfg)
    (hu : c.removeHtml = true → ∀ t, (L.unescape t).length ≤ t.length)
    (hn : c.normalizeUnicode = true → ∀ t, (L.nfkd t).length ≤ t.length)
    (hs : c.removeSpecial = true → ∀ t, (L.special t).length ≤ t.length)
    (hl : c.lowercase = true → ∀ t, (L.lower t).length ≤ t.length) (ds : List (Doc C D)) :
    0 ≤ (cleanFeed L c ⟨0, 0, 0⟩ ds).2.removed ∧ 0 ≤ (cleanFeed L c ⟨0, 0, 0⟩ ds).2.ratio ∧
      (cleanFeed L c ⟨0, 0, 0⟩ ds).2.ratio ≤ 1 := by
  have key : ∀ (ds : List (Doc C D)) (s : CleanStats), s.after ≤ s.before →
      (cleanFeed L c s ds).2.after ≤ (cleanFeed L c s ds).2.before := by
    intro ds
    induction ds with
    | nil => intro s h; exact h
    | cons d ds ih =>
      intro s h
      refine ih _ ?_
      obtain ⟨-, -, -, -, -, k2, k3⟩ := C110_process L c d s
      cases hd : d.text with
      | none => rw [(k3 hd).1, (k3 hd).2]; exact h
      | some t =>
        have := cleanText_length L c hu hn hs hl t
        rw [(k2 t hd).1, (k2 t hd).2]; omega
  have h := key ds ⟨0, 0, 0⟩ (le_refl _)
  refine ⟨by unfold CleanStats.removed; omega, ?_, ?_⟩
  · unfold CleanStats.ratio
    split_ifs
    · positivity
    · exact le_refl _
  · unfold CleanStats.ratio
    split_ifs with hb
    · have hb' : (0 : ℚ) < (cleanFeed L c ⟨0, 0, 0⟩ ds).2.before := by exact_mod_cast hb
      rw [div_le_one hb']
      exact_mod_cast h
    · exact zero_le_one

/-- Library functions that do not lengthen, with everything switched on. -/
example : (cleanFeed ⟨id, id, id, id⟩ { removeStop := true, stopwords := ["the".toList] } ⟨0, 0, 0⟩
    [(⟨some " the <b>cat</b>  sat ".toList, none, ()⟩ : Doc Nat Unit)]).2 = ⟨1, 21, 7⟩ := by decide +kernel

end Valori.Props
