import Verif.Model.Text

/-!
# Text cleaning: processors/cleaning.py
-/

namespace Valori

/-- The options, cleaning.py:22-46. -/
structure CleanCfg where
  removeHtml : Bool := true
  normalizeUnicode : Bool := true
  removeSpecial : Bool := false
  normalizeWs : Bool := true
  removeExtra : Bool := true
  lowercase : Bool := false
  removeStop : Bool := false
  stopwords : List Text := []
  minWord : Int := 1
  maxWord : Int := 50

/-- Library functions used: `html.unescape`, `unicodedata.normalize("NFKD", …)`,
`re.sub(special_chars_pattern, " ", …)`, `str.lower`. -/
structure CleanLib where
  unescape : Text → Text
  nfkd : Text → Text
  special : Text → Text
  lower : Text → Text

/-- `re.sub(p+, " ", t)`: every maximal run of characters in `p` becomes one space; `inRun` says
whether the character before belongs to a run. -/
def squeezeGo (p : Char → Bool) : Bool → Text → Text
  | _, [] => []
  | inRun, c :: cs =>
    if p c then (if inRun then squeezeGo p true cs else ' ' :: squeezeGo p true cs)
    else c :: squeezeGo p false cs

def squeeze (p : Char → Bool) (t : Text) : Text := squeezeGo p false t

/-- What follows the first `>`. -/
def afterGt : Text → Option Text
  | [] => none
  | c :: cs => if c = '>' then some cs else afterGt cs

/-- The rest of the text after a match of `<[^>]+>` whose `<` was just read. -/
def tagRest : Text → Option Text
  | [] => none
  | c :: cs => if c = '>' then none else afterGt cs

/-- `re.sub(r"<[^>]+>", "", t)` with `fuel` at least the length. -/
def stripTagsGo : Nat → Text → Text
  | 0, t => t
  | _, [] => []
  | n + 1, c :: cs =>
    if c = '<' then
      match tagRest cs with
      | some rest => stripTagsGo n rest
      | none => c :: stripTagsGo n cs
    else c :: stripTagsGo n cs

def stripTags (t : Text) : Text := stripTagsGo t.length t

/-- `t.split()`: the maximal runs of characters that are not white space; `acc` is the word being
read, reversed. -/
def splitWs : Text → Text → List Text
  | acc, [] => if acc = [] then [] else [acc.reverse]
  | acc, c :: cs =>
    if isSpace c then (if acc = [] then splitWs [] cs else acc.reverse :: splitWs [] cs)
    else splitWs (c :: acc) cs

/-- `" ".join(words)` -/
def joinSp : List Text → Text
  | [] => []
  | [w] => w
  | w :: ws => w ++ ' ' :: joinSp ws

/-- `_clean_text`, cleaning.py:122-166. -/
def cleanText (L : CleanLib) (c : CleanCfg) (t : Text) : Text :=
  if t = [] then t else
  let t := if c.removeHtml then stripTags (L.unescape t) else t
  let t := if c.normalizeUnicode then L.nfkd t else t
  let t := if c.removeSpecial then L.special t else t
  let t := if c.normalizeWs then strip (squeeze isSpace t) else t
  let t := if c.removeExtra then squeeze (· == ' ') t else t
  let t := if c.lowercase then L.lower t else t
  if c.removeStop && !c.stopwords.isEmpty then
    joinSp ((splitWs [] t).filter fun w =>
      decide (L.lower w ∉ c.stopwords) && decide (c.minWord ≤ w.length) &&
        decide ((w.length : Int) ≤ c.maxWord))
  else t

/-- A document as the processors see it: text and chunks, both optional; `rest` is everything else in
the dictionary, `crest` everything else in a chunk. -/
structure Doc (C D : Type) where
  text : Option Text
  chunks : Option (List (Option Text × C))
  rest : D

/-- The counters, cleaning.py:43-45. -/
structure CleanStats where
  docs : Nat
  before : Nat
  after : Nat
deriving DecidableEq

/-- `process`, cleaning.py:83-120, of an initialised processor. -/
def cleanProcess {C D : Type} (L : CleanLib) (c : CleanCfg) (d : Doc C D) (s : CleanStats) :
    Doc C D × CleanStats :=
  let text := d.text.map (cleanText L c)
  let s := match d.text with
    | none => s
    | some t => { s with before := s.before + t.length, after := s.after + (cleanText L c t).length }
  ({ d with
      text := text
      chunks := d.chunks.map fun l => l.map fun p => (p.1.map (cleanText L c), p.2) },
    { s with docs := s.docs + 1 })

end Valori
