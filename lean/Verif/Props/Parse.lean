import Verif.Model.Parse
import Verif.Props.ParserChunks
import Mathlib.Data.List.Perm.Subperm

/-!
# Properties C148 - C150: what the parsers return
-/

namespace Valori.Props
open Valori.Spec (IsTrim Located Cuts)

/-! ## C148: the frame of every parser, and text files -/

/-- **C148** Every parser returns a document exactly if it is initialised, the file exists, has a
supported suffix and is not too large, and reading it succeeds; everything else is a
`ParsingError`, whatever was raised inside. -/
theorem C148_frame {α : Type} (inited : Bool) (formats : List String) (maxSize : Int)
    (f : FileView) (body : Nat → Except Err α) :
    (∀ a, parseFrame inited formats maxSize f body = .ok a ↔
      inited = true ∧ f.present = true ∧ f.suffix ∈ formats ∧
        ∃ n, f.size = .ok n ∧ (n : Int) ≤ maxSize ∧ body n = .ok a) ∧
    ∀ e, parseFrame inited formats maxSize f body = .error e → e = .parsing := by
  unfold parseFrame
  cases inited <;> cases f.present <;> by_cases hs : f.suffix ∈ formats <;>
    rcases hz : f.size with ez | n <;> simp [hs, eq_comm]
  by_cases hn : maxSize < (n : Int)
  · simp [hn, eq_comm]
  · rcases hb : body n with e | a <;> simp [hn, eq_comm]
    omega

theorem hasSub_iff (p t : Text) : hasSub p t = true ↔ p <:+: t := by
  induction t with
  | nil => simp [hasSub]
  | cons c t ih => simp [hasSub, ih, List.infix_cons_iff]

/-- **C148** What `TextParser.parse` returns: the decoded file unchanged, no chunks for a text of
at most `chunk_size` characters, else chunks that cut the text; the number of paragraphs is the
number of pieces between blank lines. -/
theorem C148_text (lower : Text → Text) (c : TextParserCfg) (inited : Bool) (f : TextFile)
    (d : TextDoc) (h : textParse lower c inited f = .ok d) :
    f.view.size = .ok d.size ∧ (d.size : Int) ≤ c.maxSize ∧
    f.decode d.encoding = .ok d.text ∧
    (c.encoding ≠ "auto" → d.encoding = some c.encoding) ∧
    (c.encoding = "auto" → ∀ e, f.detect = .ok (some e) → d.encoding = e) ∧
    ((d.text.length : Int) ≤ c.chunkSize → d.chunks = []) ∧
    (0 < c.chunkSize → 0 ≤ c.overlap → c.chunkSize < (d.text.length : Int) →
      Cuts isSpace d.text c.chunkSize (d.chunks.map Chunk.piece)) ∧
    (∃ parts, nl2.intercalate parts = d.text ∧ (∀ q ∈ parts, ¬ nl2 <:+: q) ∧
      d.paragraphs = parts.length) := by
  obtain ⟨-, -, -, n, hn, hm, hb⟩ := ((C148_frame _ _ _ _ _).1 _).1 h
  unfold textBody at hb
  rcases he : textEncoding c f with e | enc
  · simp [he] at hb
  simp only [he] at hb
  rcases ht : f.decode enc with e | text
  · simp [ht] at hb
  simp only [ht] at hb
  have enc1 : c.encoding ≠ "auto" → enc = some c.encoding := by
    intro hne
    unfold textEncoding at he
    rw [if_neg hne] at he
    simpa [eq_comm] using he
  have enc2 : c.encoding = "auto" → ∀ e, f.detect = .ok (some e) → enc = e := by
    intro heq e hd
    unfold textEncoding at he
    rw [if_pos heq] at he
    simp only [hd] at he
    simpa [eq_comm] using he
  have par : ∃ parts, nl2.intercalate parts = text ∧ (∀ q ∈ parts, ¬ nl2 <:+: q) ∧
      (splitOnText nl2 text).length = parts.length :=
    ⟨_, splitOnText_join nl2 text (by decide), splitGo_free nl2 (by decide) 0 [] text
      (by simp [nl2]), rfl⟩
  by_cases hl : (text.length : Int) > c.chunkSize
  · rw [if_pos hl] at hb
    rcases hc : textChunks c.chunkSize c.overlap text text.length with _ | cs
    · simp [hc] at hb
    · simp only [hc, Except.ok.injEq] at hb
      subst hb
      exact ⟨hn, hm, ht, enc1, enc2, fun h => absurd hl (by simp at h ⊢; omega),
        fun h1 h2 _ => C63_cuts _ _ h1 h2 _ [] _ _ (Or.inl hc), par⟩
  · rw [if_neg hl] at hb
    simp only [Except.ok.injEq] at hb
    subst hb
    exact ⟨hn, hm, ht, enc1, enc2, fun _ => rfl, fun _ _ h => absurd h hl, par⟩

/-- **C148** Conversely every readable text file of a supported format within the size limit is
parsed. -/
theorem C148_text_total (lower : Text → Text) (c : TextParserCfg) (f : TextFile)
    (hp : f.view.present = true) (hs : f.view.suffix ∈ [".txt", ".md", ".rst", ".log", ".csv"])
    (n : Nat) (hn : f.view.size = .ok n) (hm : (n : Int) ≤ c.maxSize)
    (hd : c.encoding = "auto" → ∃ e, f.detect = .ok e)
    (hr : ∀ e, ∃ t, f.decode e = .ok t) :
    ∃ d, textParse lower c true f = .ok d := by
  obtain ⟨enc, he⟩ : ∃ enc, textEncoding c f = .ok enc := by
    unfold textEncoding
    split
    · rename_i ha
      obtain ⟨e, he⟩ := hd ha
      rw [he]
      rcases e with _ | e
      · exact ⟨_, rfl⟩
      · exact ⟨_, rfl⟩
    · exact ⟨_, rfl⟩
  obtain ⟨t, ht⟩ := hr enc
  obtain ⟨cs, hcs⟩ := (C63_terminates c.chunkSize c.overlap t []).1
  have : ∃ d, textBody lower c f n = .ok d := by
    unfold textBody
    simp only [he, ht, hcs _ le_rfl]
    split
    · exact ⟨_, rfl⟩
    · exact ⟨_, rfl⟩
  obtain ⟨d, hd⟩ := this
  exact ⟨d, ((C148_frame _ _ _ _ _).1 _).2 ⟨rfl, hp, hs, n, hn, hm, hd⟩⟩

/-- **C148** The language is "en" exactly if the text has more than a hundred characters and at
least four of the twelve words occur, as parts of whatever words, in its first thousand characters
in lower case; else it is "unknown". -/
theorem C148_language_partial (lower : Text → Text) (c : TextParserCfg) (inited : Bool)
    (f : TextFile) (d : TextDoc) (h : textParse lower c inited f = .ok d) :
    (d.language = "en" ∨ d.language = "unknown") ∧
    (d.language = "en" ↔ 100 < d.text.length ∧ ∃ ws : List Text, ws.Nodup ∧ 4 ≤ ws.length ∧
      ∀ w ∈ ws, String.ofList w ∈
        ["the", "and", "or", "but", "in", "on", "at", "to", "for", "of", "with", "by"] ∧
        w <:+: lower (d.text.take 1000)) := by
  obtain ⟨-, -, -, n, -, -, hb⟩ := ((C148_frame _ _ _ _ _).1 _).1 h
  have hl : d.language = if d.text.length > 100 then detectLanguage lower (d.text.take 1000)
      else "unknown" := by
    unfold textBody at hb
    repeat' split at hb
    all_goals first | (simp at hb; done) | (simp only [Except.ok.injEq] at hb; subst hb; simp_all)
  have key : detectLanguage lower (d.text.take 1000) = "en" ↔
      4 ≤ (englishWords.filter fun w => hasSub w (lower (d.text.take 1000))).length := by
    unfold detectLanguage
    simp only
    split
    · rename_i hh; exact ⟨fun _ => hh, fun _ => rfl⟩
    · rename_i hh; exact ⟨fun x => absurd x (by decide), fun x => absurd x (by omega)⟩
  constructor
  · rw [hl]
    split
    · unfold detectLanguage; simp only; split <;> simp
    · simp
  · rw [hl]
    by_cases hlen : d.text.length > 100
    · rw [if_pos hlen, key]
      constructor
      · intro h4
        refine ⟨hlen, _, List.Nodup.filter _ (by decide : englishWords.Nodup), h4, ?_⟩
        intro w hw
        obtain ⟨h1, h2⟩ := List.mem_filter.1 hw
        refine ⟨?_, (hasSub_iff _ _).1 h2⟩
        obtain ⟨s, hs, rfl⟩ := List.mem_map.1 h1
        rwa [String.ofList_toList]
      · rintro ⟨-, ws, hnd, h4, hws⟩
        refine h4.trans ?_
        apply List.Subperm.length_le
        refine List.Nodup.subperm hnd fun w hw => ?_
        obtain ⟨h1, h2⟩ := hws w hw
        refine List.mem_filter.2 ⟨?_, (hasSub_iff _ _).2 h2⟩
        exact List.mem_map.2 ⟨_, h1, by simp⟩
    · rw [if_neg hlen]
      constructor
      · intro x; exact absurd x (by decide)
      · rintro ⟨x, -⟩; exact absurd x hlen

/-- **C148** (refuted: "texts labelled en hold English words")  Words are looked for as parts of
words: every longer text that begins with a thousand characters in which "doktorin" and "hoff"
occur is labelled English, whatever its language. -/
theorem C148_language_refuted (lower : Text → Text) (c : TextParserCfg) (inited : Bool)
    (f : TextFile) (d : TextDoc) (h : textParse lower c inited f = .ok d)
    (hlen : 100 < d.text.length) (h1 : "doktorin".toList <:+: lower (d.text.take 1000))
    (h2 : "hoff".toList <:+: lower (d.text.take 1000)) : d.language = "en" := by
  rw [(C148_language_partial lower c inited f d h).2]
  refine ⟨hlen, ["to".toList, "or".toList, "in".toList, "of".toList], by decide, by decide, ?_⟩
  have t1 : ∀ w, w <:+: "doktorin".toList → w <:+: lower (d.text.take 1000) := fun w hw => hw.trans h1
  have t2 : ∀ w, w <:+: "hoff".toList → w <:+: lower (d.text.take 1000) := fun w hw => hw.trans h2
  intro w hw
  simp only [List.mem_cons, List.not_mem_nil, or_false] at hw
  rcases hw with rfl | rfl | rfl | rfl
  · exact ⟨by decide, t1 _ ⟨"dok".toList, "rin".toList, by decide⟩⟩
  · exact ⟨by decide, t1 _ ⟨"dokt".toList, "in".toList, by decide⟩⟩
  · exact ⟨by decide, t1 _ ⟨"doktor".toList, [], by decide⟩⟩
  · exact ⟨by decide, t2 _ ⟨"h".toList, "f".toList, by decide⟩⟩

/-- A German text file, for which `chardet` knows no encoding. -/
def exGerman : TextFile where
  view := ⟨true, ".txt", .ok 110⟩
  detect := .ok (some none)
  decode _ := .ok ("doktorin hoffmann\n\n".toList ++ List.replicate 90 'x')

def exTextCfg : TextParserCfg := ⟨"auto", 1000, 60, 10⟩

/-- The hypotheses of the theorems above are met: it is parsed, cut into chunks, and labelled
English; the encoding reported is none at all. -/
example : (textParse id exTextCfg true exGerman).toOption.map (fun d =>
      (d.encoding.isSome, d.chunks.length, d.paragraphs, d.text.length)) =
        some (false, 12, 2, 109) ∧
    (textParse id exTextCfg true exGerman).toOption.map (fun d =>
      (d.language, hasSub "doktorin".toList (id (d.text.take 1000)),
        hasSub "hoff".toList (id (d.text.take 1000)))) = some ("en", true, true) := by
  decide +kernel

example : textParse id exTextCfg true { exGerman with view := ⟨true, ".doc", .ok 5⟩ } =
    .error .parsing := by rfl

end Valori.Props
