import Verif.Lemmas.Cleaning

/-!
# Properties of text cleaning (C66, C107–C110)
-/

namespace Valori.Props
open Valori Spec

/-- A library that changes nothing but ASCII case, and folds the full-width brackets as NFKD does. -/
def exClLib : CleanLib where
  unescape := id
  nfkd := fun t => t.map fun c => if c = '＜' then '<' else if c = '＞' then '>' else c
  special := id
  lower := fun t => t.map Char.toLower

/-- Only white space normalisation, with or without the (then redundant) second pass over spaces. -/
def wsOnly (extra : Bool) : CleanCfg :=
  { removeHtml := false, normalizeUnicode := false, removeExtra := extra }

theorem cl_single_space {t : Text} (h : Single isSpace t) : squeeze (· == ' ') t = t := by
  refine squeeze_fix _ false t ⟨fun c _ hc => by simpa using hc, fun i c d hc hd => ?_⟩ (by simp)
  rintro ⟨h1, h2⟩
  refine h.single i c d hc hd ⟨?_, ?_⟩
  · rw [beq_iff_eq.1 h1]; exact isSpace_space
  · rw [beq_iff_eq.1 h2]; exact isSpace_space

theorem cl_trim_single {t : Text} (h : Single isSpace t) : Single isSpace (strip t) := by
  obtain ⟨a, b, he, -, -, -⟩ := strip_isTrim t
  rw [he] at h
  exact single_infix h

theorem cl_wsOnly (L : CleanLib) (extra : Bool) (t : Text) :
    cleanText L (wsOnly extra) t = strip (squeeze isSpace t) := by
  have hs := cl_trim_single (squeeze_single isSpace false t).1
  by_cases ht : t = []
  · subst ht
    rfl
  · unfold cleanText
    rw [if_neg ht]
    cases extra with
    | false => rfl
    | true => exact cl_single_space hs

/-- **C66.** With white space normalisation only, the cleaned text is tidy, has exactly the words of
the text in the same order, and cleaning it again changes nothing. -/
theorem C66_whitespace (L : CleanLib) (extra : Bool) (t : Text) :
    Tidy isSpace (cleanText L (wsOnly extra) t) ∧
      (∀ ws, IsWords isSpace (cleanText L (wsOnly extra) t) ws ↔ IsWords isSpace t ws) ∧
      cleanText L (wsOnly extra) (cleanText L (wsOnly extra) t) = cleanText L (wsOnly extra) t := by
  have hs := cl_trim_single (squeeze_single isSpace false t).1
  have ht := strip_isTrim (squeeze isSpace t)
  obtain ⟨a, b, he, ha, hb, h1, h2⟩ := ht
  refine ⟨?_, ?_, ?_⟩
  · rw [cl_wsOnly]
    exact ⟨h1, h2, hs.only, hs.single⟩
  · intro ws
    rw [cl_wsOnly, isWords_iff, isWords_iff, splitWs_strip, squeeze, splitWs_squeeze _ _ _ (by simp)]
  · rw [cl_wsOnly, cl_wsOnly]
    have : squeeze isSpace (strip (squeeze isSpace t)) = strip (squeeze isSpace t) :=
      squeeze_fix _ false _ hs (by simp)
    rw [this]
    exact strip_fix _ h1 h2

/-- Every text has exactly one list of words, so the statement above is about something. -/
theorem C66_words (t : Text) : ∃ ws, IsWords isSpace t ws ∧ ∀ ws', IsWords isSpace t ws' → ws' = ws :=
  ⟨splitWs [] t, splitWs_isWords t [] (by simp), fun _ h => (isWords_splitWs h).symm⟩

example : cleanText exClLib (wsOnly true) "  two\t\n words  ".toList = "two words".toList := by
  decide +kernel

/-- The white space characters of Python, as listed in its documentation of `str.isspace`. -/
def pySpaces : List Nat :=
  [9, 10, 11, 12, 13, 28, 29, 30, 31, 32, 133, 160, 5760, 8192, 8193, 8194, 8195, 8196, 8197, 8198,
    8199, 8200, 8201, 8202, 8232, 8233, 8239, 8287, 12288]

/-- **C66.** White space is what Python means by it. -/
theorem C66_spaces (c : Char) : isSpace c = true ↔ c.toNat ∈ pySpaces := by
  simp only [isSpace, pySpaces, List.mem_cons, List.not_mem_nil, or_false, Bool.or_eq_true,
    Bool.and_eq_true, decide_eq_true_eq, beq_iff_eq]
  omega

example : isSpace '\u3000' = true ∧ isSpace 'x' = false ∧ isSpace '\u200b' = false := by decide

/-- **C154.** With the default options the cleaned text is tidy, and its words are those of the
decoded text after tags were cut out (`u`) and NFKD applied: case, punctuation and stop words stay,
and nothing else is lost. -/
theorem C154_defaults (L : CleanLib) (t : Text) (ht : t ≠ []) :
    ∃ u, TagsOut (L.unescape t) u ∧ ¬ HasTag u ∧ Tidy isSpace (cleanText L {} t) ∧
      ∀ ws, IsWords isSpace (cleanText L {} t) ws ↔ IsWords isSpace (L.nfkd u) ws := by
  obtain ⟨k1, k2, -⟩ := stripTagsGo_spec _ (L.unescape t) le_rfl
  have hs := cl_trim_single (squeeze_single isSpace false (L.nfkd (stripTags (L.unescape t)))).1
  have he : cleanText L {} t = strip (squeeze isSpace (L.nfkd (stripTags (L.unescape t)))) := by
    unfold cleanText
    rw [if_neg ht]
    simp only [if_true, Bool.false_eq_true, if_false, Bool.false_and]
    exact cl_single_space hs
  refine ⟨stripTags (L.unescape t), k1, k2, ?_, ?_⟩
  · rw [he]
    obtain ⟨a, b, -, -, -, h1, h2⟩ := strip_isTrim (squeeze isSpace (L.nfkd (stripTags (L.unescape t))))
    exact ⟨h1, h2, hs.only, hs.single⟩
  · intro ws
    rw [he, isWords_iff, isWords_iff, splitWs_strip, squeeze, splitWs_squeeze _ _ _ (by simp)]

/-- The empty text stays empty. -/
theorem C154_empty (L : CleanLib) (c : CleanCfg) : cleanText L c [] = [] := by simp [cleanText]

example : cleanText exClLib {} "  The <b>End</b>,\n\tof  it! ".toList = "The End, of it!".toList := by
  decide +kernel

/-- Only tag removal is on among the options that may introduce or remove other characters. -/
def TagsOnly (c : CleanCfg) : Prop :=
  c.removeHtml = true ∧ c.normalizeUnicode = false ∧ c.removeSpecial = false ∧ c.lowercase = false ∧
    c.removeStop = false

/-- **C107 (partial).** With tag removal on, and Unicode normalisation, special characters,
lower-casing and stop words off, the cleaned text has no tag, whatever the white space options. Tag
removal itself only cuts tags out of the decoded text, and leaves a text without tags unchanged.
Missing: the default configuration, where normalisation after the removal brings tags back
(`C107_tags_refuted`). -/
theorem C107_tags_partial (L : CleanLib) (c : CleanCfg) (hc : TagsOnly c) (t : Text) :
    ¬ HasTag (cleanText L c t) ∧
      (c.normalizeWs = false → c.removeExtra = false → t ≠ [] →
        TagsOut (L.unescape t) (cleanText L c t) ∧
          (¬ HasTag (L.unescape t) → cleanText L c t = L.unescape t)) := by
  obtain ⟨h1, h2, h3, h4, h5⟩ := hc
  by_cases ht : t = []
  · subst ht
    refine ⟨?_, fun _ _ h => absurd rfl h⟩
    rintro ⟨pre, mid, post, h, -⟩
    simp [cleanText] at h
  · obtain ⟨k1, k2, -⟩ := stripTagsGo_spec _ (L.unescape t) le_rfl
    have hshape : cleanText L c t =
        (let u := stripTags (L.unescape t)
         let v := if c.normalizeWs then strip (squeeze isSpace u) else u
         if c.removeExtra then squeeze (· == ' ') v else v) := by
      unfold cleanText
      rw [if_neg ht]
      simp only [h1, h2, h3, h4, h5, if_true, Bool.false_eq_true, if_false, Bool.false_and]
    refine ⟨?_, ?_⟩
    · rw [hshape]
      intro h
      have hv : HasTag (if c.normalizeWs then strip (squeeze isSpace (stripTags (L.unescape t)))
          else stripTags (L.unescape t)) := by
        simp only at h
        split_ifs at h ⊢ with g1 g2 g2
        all_goals first
          | exact h
          | exact hasTag_squeeze (· == ' ') (by decide) false _ h
      split_ifs at hv with g
      · obtain ⟨a, b, he, -⟩ := strip_isTrim (squeeze isSpace (stripTags (L.unescape t)))
        have := hasTag_infix (a := a) (b := b) hv
        rw [← he] at this
        exact k2 (hasTag_squeeze _ (by decide) _ _ this)
      · exact k2 hv
    · intro g1 g2 _
      have : cleanText L c t = stripTags (L.unescape t) := by
        rw [hshape]
        simp only [g1, g2, Bool.false_eq_true, if_false]
      rw [this]
      exact ⟨k1, fun hno => tagsOut_fix k1 hno⟩

example : TagsOnly { normalizeUnicode := false } := by unfold TagsOnly; decide

example : cleanText exClLib { normalizeUnicode := false } "<p class=x>a <> b</p> 1 < 2".toList =
    "a <> b 1 < 2".toList := by decide +kernel

/-- **C107 (refuted for the default options).** A text with full-width brackets comes out with a tag:
the removal runs before the normalisation that turns them into ASCII brackets. The hypotheses hold of
Python's `html.unescape` and NFKD. -/
theorem C107_tags_refuted (L : CleanLib) (h1 : L.unescape "＜b＞".toList = "＜b＞".toList)
    (h2 : L.nfkd "＜b＞".toList = "<b>".toList) :
    cleanText L {} "＜b＞".toList = "<b>".toList ∧ HasTag (cleanText L {} "＜b＞".toList) := by
  have h : cleanText L {} "＜b＞".toList = "<b>".toList := by
    have hs : stripTags "＜b＞".toList = "＜b＞".toList := by decide +kernel
    unfold cleanText
    rw [if_neg (by decide)]
    simp only [if_true, h1, hs, h2, Bool.false_eq_true, if_false, Bool.false_and]
    decide +kernel
  refine ⟨h, ?_⟩
  rw [h]
  exact ⟨[], ['b'], [], by decide, by decide, by decide⟩

example : exClLib.unescape "＜b＞".toList = "＜b＞".toList ∧ exClLib.nfkd "＜b＞".toList = "<b>".toList := by
  decide +kernel

/-- **C108.** With stop-word removal on and a non-empty list, the words of the cleaned text are
exactly the words the other steps produce that are not stop words (compared in lower case) and whose
length is between the bounds, in the same order, separated by single spaces with none around. -/
theorem C108_stopwords (L : CleanLib) (c : CleanCfg) (hr : c.removeStop = true) (hs : c.stopwords ≠ [])
    (t : Text) (ws : List Text) (hw : IsWords isSpace (cleanText L { c with removeStop := false } t) ws) :
    IsWords isSpace (cleanText L c t) (ws.filter fun w => decide (L.lower w ∉ c.stopwords ∧
        c.minWord ≤ w.length ∧ (w.length : Int) ≤ c.maxWord)) ∧
      Tidy isSpace (cleanText L c t) := by
  have hbody : cleanText L c t = joinSp ((splitWs [] (cleanText L { c with removeStop := false } t)).filter
      fun w => decide (L.lower w ∉ c.stopwords ∧ c.minWord ≤ w.length ∧ (w.length : Int) ≤ c.maxWord)) := by
    have hne : c.stopwords.isEmpty = false := by
      cases h : c.stopwords with
      | nil => exact absurd h hs
      | cons => rfl
    by_cases ht : t = []
    · subst ht
      simp [cleanText, splitWs, joinSp]
    · unfold cleanText
      rw [if_neg ht, if_neg ht]
      simp only [hr, hne, Bool.not_false, Bool.and_self, if_true, Bool.false_and, Bool.false_eq_true,
        if_false]
      congr 1
      apply List.filter_congr
      intro w _
      rw [Bool.decide_and, Bool.decide_and, Bool.and_assoc]
  have hsp := isWords_splitWs hw
  rw [hbody, hsp]
  have hwords : ∀ w ∈ ws, w ≠ [] ∧ ∀ x ∈ w, isSpace x = false := by
    rw [← hsp]
    exact splitWs_words _ [] (by simp)
  generalize hf : (ws.filter fun w => decide (L.lower w ∉ c.stopwords ∧ c.minWord ≤ w.length ∧
    (w.length : Int) ≤ c.maxWord)) = us
  have hus : ∀ w ∈ us, w ≠ [] ∧ ∀ x ∈ w, isSpace x = false := by
    intro w hwm
    rw [← hf] at hwm
    exact hwords w (List.mem_filter.1 hwm).1
  exact ⟨(isWords_iff _ _).2 (splitWs_join us hus), joinSp_tidy us hus⟩

example : cleanText exClLib { removeStop := true, stopwords := ["the".toList], minWord := 2 }
    " The cat saw a  the dog".toList = "cat saw dog".toList := by decide +kernel

/-- **C109 (partial).** With stop-word removal on and a non-empty stop-word list, every word of the
cleaned text respects `min_word_length` and `max_word_length`. Missing: the bounds without stop-word
removal, see `C109_bounds_refuted`. -/
theorem C109_bounds_partial (L : CleanLib) (c : CleanCfg) (hr : c.removeStop = true)
    (hs : c.stopwords ≠ []) (t : Text) (ws : List Text) (hw : IsWords isSpace (cleanText L c t) ws) :
    ∀ w ∈ ws, c.minWord ≤ w.length ∧ (w.length : Int) ≤ c.maxWord := by
  obtain ⟨h1, -⟩ := C108_stopwords L c hr hs t _ (splitWs_isWords _ [] (by simp))
  have := (isWords_splitWs hw).symm.trans (isWords_splitWs h1)
  intro w hm
  rw [this, List.mem_filter] at hm
  exact (of_decide_eq_true hm.2).2

/-- **C109 (refuted).** Without stop-word removal, or with an empty list of stop words, the bounds
are ignored: whatever they are, the text comes out the same. -/
theorem C109_bounds_refuted (L : CleanLib) (c : CleanCfg) (h : c.removeStop = false ∨ c.stopwords = [])
    (lo hi : Int) (t : Text) : cleanText L { c with minWord := lo, maxWord := hi } t = cleanText L c t := by
  have hb : (c.removeStop && !c.stopwords.isEmpty) = false := by
    rcases h with h | h
    · rw [h]; rfl
    · rw [h]; simp
  unfold cleanText
  simp only [hb, Bool.false_eq_true, if_false]

example : cleanText exClLib { minWord := 3 } "a bc def".toList = "a bc def".toList := by decide +kernel

/-- **C110.** `process` cleans the text and every chunk text and nothing else: keys that were absent
stay absent, the chunks keep their number, order and other fields, and the character counters grow by
the lengths of the main text before and after. -/
theorem C110_process {C D : Type} (L : CleanLib) (c : CleanCfg) (d : Doc C D) (s : CleanStats) :
    (cleanProcess L c d s).1.rest = d.rest ∧
      (cleanProcess L c d s).1.text = d.text.map (cleanText L c) ∧
      ((cleanProcess L c d s).1.chunks = none ↔ d.chunks = none) ∧
      (∀ l l', d.chunks = some l → (cleanProcess L c d s).1.chunks = some l' →
        l'.length = l.length ∧ ∀ (i : Nat) p, l[i]? = some p →
          ∃ q, l'[i]? = some q ∧ q.2 = p.2 ∧ q.1 = p.1.map (cleanText L c)) ∧
      (cleanProcess L c d s).2.docs = s.docs + 1 ∧
      (∀ t, d.text = some t → (cleanProcess L c d s).2.before = s.before + t.length ∧
        (cleanProcess L c d s).2.after = s.after + (cleanText L c t).length) ∧
      (d.text = none → (cleanProcess L c d s).2.before = s.before ∧
        (cleanProcess L c d s).2.after = s.after) := by
  refine ⟨rfl, rfl, by simp [cleanProcess], ?_, ?_, ?_, ?_⟩
  · intro l l' hl hl'
    have : l' = l.map fun p => (p.1.map (cleanText L c), p.2) := by
      have h : (cleanProcess L c d s).1.chunks = d.chunks.map fun l => l.map fun p =>
        (p.1.map (cleanText L c), p.2) := rfl
      rw [h, hl] at hl'
      exact (Option.some.inj hl').symm
    subst this
    refine ⟨by simp, fun i p hp => ⟨(p.1.map (cleanText L c), p.2), by rw [List.getElem?_map, hp]; rfl, rfl, rfl⟩⟩
  · unfold cleanProcess
    cases d.text <;> rfl
  · intro t ht
    simp [cleanProcess, ht]
  · intro ht
    simp [cleanProcess, ht]

example : (cleanProcess exClLib {} (⟨some " a  b ".toList, some [(some "<i>x</i>".toList, 7), (none, 8)], 1⟩ :
    Doc Nat Nat) ⟨0, 0, 0⟩).1.chunks = some [(some "x".toList, 7), (none, 8)] := by decide +kernel

end Valori.Props
