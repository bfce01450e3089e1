import Verif.Model.Np
import Mathlib.Algebra.Order.Floor.Ring
import Mathlib.Algebra.Order.Field.Basic
import Mathlib.Algebra.Ring.Int.Parity
import Mathlib.Analysis.Real.Sqrt

/-!
# `ScalarQuantizer` (`/repo/src/valori/quantization/scalar.py`)

Exact arithmetic over an ordered field with a floor function.  `bits` is a natural number; for
`bits = 0` the code divides by zero, the theorems ask for at least one bit.
-/

namespace Valori

/-- `np.rint`: the nearest integer, the even one when two are equally near. -/
def rint {F : Type} [Field F] [LinearOrder F] [FloorRing F] (x : F) : Int :=
  if Int.fract x < 1 / 2 then ⌊x⌋
  else if 1 / 2 < Int.fract x then ⌊x⌋ + 1
  else if ⌊x⌋ % 2 = 0 then ⌊x⌋ else ⌊x⌋ + 1

/-- Fields of `ScalarQuantizer`, scalar.py:22-31 and base.py:19-23.  `zero_point` is left out:
it is only ever a vector of zeros that no formula reads. -/
structure ScalarQ (F : Type) where
  bits : Nat
  inited : Bool
  trained : Bool
  dim : Option Nat
  minV : Option (List F)
  maxV : Option (List F)
  scale : Option (List F)
deriving DecidableEq

namespace ScalarQ

/-- `np.iinfo(np.int32).max`. -/
def int32Max : Nat := 2147483647
/-- `np.iinfo(np.int64).max`. -/
def int64Max : Nat := 9223372036854775807

/-- `ScalarQuantizer(config)`, scalar.py:22-31. -/
def new (F : Type) (bits : Nat) : ScalarQ F :=
  ⟨bits, false, false, none, none, none, none⟩

section
variable {F : Type}

/-- `initialize`, scalar.py:33-40 (`_trained` is not reset). -/
def init (q : ScalarQ F) : ScalarQ F :=
  { q with inited := true, dim := none, minV := none, maxV := none, scale := none }

/-- `self.max_val`, scalar.py:31. -/
def maxVal (q : ScalarQ F) : Nat := 2 ^ q.bits - 1

/-- The largest code, scalar.py:98-117: `max_val` cut to the largest value of the integer type
chosen for it. -/
def upper (q : ScalarQ F) : Nat :=
  let t := if q.maxVal ≤ int32Max then int32Max else int64Max
  if q.maxVal ≤ t then q.maxVal else t

/-- The divisor of the range, scalar.py:59-60. -/
def denom (q : ScalarQ F) : Nat := min (2 ^ q.bits - 1) int64Max

end

variable {F : Type} [Field F] [LinearOrder F] [FloorRing F]

/-- One scale, scalar.py:61-63. -/
def scaleOf (q : ScalarQ F) (lo hi : F) : F :=
  if (hi - lo) / (q.denom : F) = 0 then 1 else (hi - lo) / (q.denom : F)

/-- `train`, scalar.py:42-76.  `self.dim` is assigned before anything that can raise, so a
failing call leaves the new dimension behind. -/
def train (q : ScalarQ F) (vectors : Arr F) : Res (ScalarQ F) Unit :=
  if q.inited = false then (.error .quantization, q)
  else match vectors with
    | .vec _ => (.error .quantization, q)
    | .mat cols rows =>
      let q1 := { q with dim := some cols }
      match reduceRows min rows, reduceRows max rows with
      | .ok lo, .ok hi =>
        (.ok (), { q1 with minV := some lo, maxV := some hi
                           scale := some (List.zipWith (scaleOf q) lo hi), trained := true })
      | _, _ => (.error .quantization, q1)

/-- One code from a normalised coordinate, scalar.py:112-122 (NaN and infinities left out). -/
def codeOf (q : ScalarQ F) (t : F) : Int := max 0 (min (rint t) (q.upper : Int))

/-- One row of `quantize`, scalar.py:104-122: subtract, divide, round, clip, store into a row of
`self.dim` zeros. -/
def quantizeRow (q : ScalarQ F) (d : Nat) (lo sc : List F) (row : List F) : Except Err (List Int) :=
  match bzip (fun x m => x - m) row lo with
  | .error e => .error e
  | .ok diff =>
    match bzip (fun x s => x / s) diff sc with
    | .error e => .error e
    | .ok norm => setSlice (List.replicate d 0) 0 d (norm.map q.codeOf)

/-- `quantize`, scalar.py:78-127.  Simplification: a mismatch of widths is detected row by row,
so for an array without rows it goes unnoticed here while numpy raises. -/
def quantize (q : ScalarQ F) (vectors : Arr F) : Except Err (List (List Int)) :=
  if q.inited = false then .error .quantization
  else if q.trained = false then .error .quantization
  else match vectors, q.dim, q.minV, q.scale with
    | .mat _ rows, some d, some lo, some sc =>
      match mapE (quantizeRow q d lo sc) rows with
      | .error _ => .error .quantization
      | .ok codes => .ok codes
    | _, _, _, _ => .error .quantization

/-- One row of `dequantize`, scalar.py:156-157. -/
def dequantizeRow (lo sc : List F) (codes : List Int) : Except Err (List F) :=
  match bzip (fun (c : Int) s => (c : F) * s) codes sc with
  | .error e => .error e
  | .ok prod => bzip (fun x m => x + m) prod lo

/-- `dequantize`, scalar.py:129-162.  A 1-d input counts as one row.  Same simplification as
`quantize`. -/
def dequantize (q : ScalarQ F) (codes : Arr Int) : Except Err (List (List F)) :=
  if q.inited = false then .error .quantization
  else if q.trained = false then .error .quantization
  else match q.dim, q.minV, q.scale with
    | some _, some lo, some sc =>
      let rows := match codes with
        | .vec v => [v]
        | .mat _ rows => rows
      match mapE (dequantizeRow lo sc) rows with
      | .error _ => .error .quantization
      | .ok out => .ok out
    | _, _, _ => .error .quantization

end ScalarQ

/-- `np.dot` of two vectors; raises `ValueError` on different lengths. -/
def dotE {F : Type} [Field F] (a b : List F) : Except Err F :=
  if a.length = b.length then .ok (List.zipWith (· * ·) a b).sum else .error .value

/-- `np.linalg.norm` of a vector. -/
noncomputable def normR (a : List ℝ) : ℝ := Real.sqrt (a.map fun x => x ^ 2).sum

/-- `compute_distance`, scalar.py:164-202. -/
noncomputable def ScalarQ.computeDistance (q : ScalarQ ℝ) (query : List ℝ) (code : List Int) :
    Except Err ℝ :=
  if q.inited = false then .error .quantization
  else if q.trained = false then .error .quantization
  else match q.dim with
    | none => .error .quantization
    | some d =>
      let v := fitTo d query
      match q.dequantize (.mat code.length [code]) with
      | .ok [z] =>
        match dotE v z with
        | .error _ => .error .quantization
        | .ok dp =>
          if normR v = 0 ∨ normR z = 0 then .ok 1
          else .ok (1 - dp / (normR v * normR z))
      | _ => .error .quantization

end Valori
