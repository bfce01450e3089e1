import Verif.Model.Py

/-!
# Python strings

A `str` is a list of characters.  Simplification: surrogate code points, which a Python string can
hold, are not `Char`s.
-/

namespace Valori

abbrev Text := List Char

/-- `c.isspace()`, the characters `str.strip()` and `str.split()` remove (Unicode White_Space and
the bidirectional classes WS, B, S, as in CPython's `_PyUnicode_IsWhitespace`). -/
def isSpace (c : Char) : Bool :=
  let n := c.toNat
  (9 ≤ n && n ≤ 13) || (28 ≤ n && n ≤ 32) || n == 0x85 || n == 0xA0 || n == 0x1680 ||
    (0x2000 ≤ n && n ≤ 0x200A) || n == 0x2028 || n == 0x2029 || n == 0x202F || n == 0x205F ||
    n == 0x3000

/-- `s.strip()`. -/
def strip (t : Text) : Text := ((t.dropWhile isSpace).reverse.dropWhile isSpace).reverse

/-- A Python index clipped to `0 ... n`, negative ones counted from the end. -/
def clip (n : Nat) (i : Int) : Nat := if i < 0 then n - i.natAbs else min i.toNat n

/-- `t[s:e]`, for `s` not negative. -/
def sub (t : Text) (s : Nat) (e : Int) : Text := (t.take (clip t.length e)).drop s

/-- Does `p` stand in `t` at position `i`? -/
def matchAt (t p : Text) (i : Nat) : Bool := p.isPrefixOf (t.drop i)

/-- Search downwards from `i` to `lo`; `none` is Python's `-1`. -/
def rfindFrom (t p : Text) (lo : Nat) : Nat → Option Nat
  | 0 => if lo ≤ 0 && matchAt t p 0 then some 0 else none
  | i + 1 => if i + 1 < lo then none
    else if matchAt t p (i + 1) then some (i + 1) else rfindFrom t p lo i

/-- `t.rfind(p, s, e)`. -/
def rfind (t p : Text) (s : Nat) (e : Int) : Option Nat :=
  let hi := clip t.length e
  if hi < s + p.length then none else rfindFrom t p s (hi - p.length)

/-- The value Python gives: `-1` when not found. -/
def rfindInt (t p : Text) (s : Nat) (e : Int) : Int :=
  match rfind t p s e with
  | none => -1
  | some i => (i : Int)

/-- The pieces of `t.split(sep)` from the left, `acc` being the piece read so far, reversed.
`skip` counts the characters of a separator still to pass over. -/
def splitGo (sep : Text) : Nat → Text → Text → List Text
  | _, acc, [] => [acc.reverse]
  | skip + 1, acc, _ :: cs => splitGo sep skip acc cs
  | 0, acc, c :: cs =>
    if sep.isPrefixOf (c :: cs) then acc.reverse :: splitGo sep (sep.length - 1) [] cs
    else splitGo sep 0 (c :: acc) cs

/-- `t.split(sep)` for a non-empty separator. -/
def splitOnText (sep t : Text) : List Text := splitGo sep 0 [] t

/-- `"\n\n"`. -/
def nl2 : Text := ['\n', '\n']

end Valori
