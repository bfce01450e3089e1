import Verif.Model.Scalar

/-!
# `ScalarQuantizer` with the integers converted to floating point as numpy does

`Model/Scalar` computes exactly.  Here the three integers that the code turns into floating-point numbers
are rounded to the precision of those numbers: the divisor of the range (scalar.py:59-61), the largest code
(scalar.py:115-119) and the codes that are decoded (scalar.py:156), and the last step of `quantize` casts to
an integer type of limited range (scalar.py:98-102, 122).  `p` is the precision of the array: 24 for float32,
53 for float64.  Simplified: sums, products and quotients stay exact, NaN and infinities are left out.
-/

namespace Valori

/-- A natural number in a floating-point format of `p` binary digits: the nearest representable number, the
one with an even last digit when two are equally near.  Exponents are unlimited. -/
def rndNat (p n : Nat) : Nat :=
  if n < 2 ^ p then n
  else
    let e := n.log2 + 1 - p
    let q := n / 2 ^ e
    let r := n % 2 ^ e
    if 2 * r < 2 ^ e then q * 2 ^ e
    else if 2 ^ e < 2 * r then (q + 1) * 2 ^ e
    else if q % 2 = 0 then q * 2 ^ e else (q + 1) * 2 ^ e

/-- The same for an integer. -/
def rndInt (p : Nat) (n : Int) : Int := n.sign * rndNat p n.natAbs

namespace ScalarQ
section
variable {F : Type}

/-- The divisor, scalar.py:59-61: a float64 first, then as precise as the array. -/
def denomP (p : Nat) (q : ScalarQ F) : Nat := rndNat p (rndNat 53 q.denom)

/-- The largest code as `np.clip` uses it on an array of precision `p`, scalar.py:115-119. -/
def upperP (p : Nat) (q : ScalarQ F) : Nat := rndNat p q.upper

/-- The largest value of the integer type chosen, scalar.py:98-102. -/
def typeMax (q : ScalarQ F) : Nat := if q.maxVal ≤ int32Max then int32Max else int64Max

end

variable {F : Type} [Field F] [LinearOrder F] [FloorRing F]

/-- One scale, scalar.py:61-63. -/
def scaleP (p : Nat) (q : ScalarQ F) (lo hi : F) : F :=
  if (hi - lo) / (q.denomP p : F) = 0 then 1 else (hi - lo) / (q.denomP p : F)

/-- `train`, scalar.py:42-76. -/
def trainP (p : Nat) (q : ScalarQ F) (vectors : Arr F) : Res (ScalarQ F) Unit :=
  if q.inited = false then (.error .quantization, q)
  else match vectors with
    | .vec _ => (.error .quantization, q)
    | .mat cols rows =>
      let q1 := { q with dim := some cols }
      match reduceRows min rows, reduceRows max rows with
      | .ok lo, .ok hi =>
        (.ok (), { q1 with minV := some lo, maxV := some hi
                           scale := some (List.zipWith (scaleP p q) lo hi), trained := true })
      | _, _ => (.error .quantization, q1)

/-- One code, scalar.py:112-122: round, clip, cast.  `cast` is what numpy makes of a value that does not fit
the type (the C standard leaves it open; most machines give the smallest number of the type). -/
def codeP (cast : Int → Int) (p : Nat) (q : ScalarQ F) (t : F) : Int :=
  let c := max 0 (min (rint t) (q.upperP p : Int))
  if c ≤ q.typeMax then c else cast c

/-- One row of `quantize`, scalar.py:104-122. -/
def quantizeRowP (cast : Int → Int) (p : Nat) (q : ScalarQ F) (d : Nat) (lo sc : List F) (row : List F) :
    Except Err (List Int) :=
  match bzip (fun x m => x - m) row lo with
  | .error e => .error e
  | .ok diff =>
    match bzip (fun x s => x / s) diff sc with
    | .error e => .error e
    | .ok norm => setSlice (List.replicate d 0) 0 d (norm.map (q.codeP cast p))

/-- `quantize`, scalar.py:78-127. -/
def quantizeP (cast : Int → Int) (p : Nat) (q : ScalarQ F) (vectors : Arr F) : Except Err (List (List Int)) :=
  if q.inited = false then .error .quantization
  else if q.trained = false then .error .quantization
  else match vectors, q.dim, q.minV, q.scale with
    | .mat _ rows, some d, some lo, some sc =>
      match mapE (quantizeRowP cast p q d lo sc) rows with
      | .error _ => .error .quantization
      | .ok codes => .ok codes
    | _, _, _, _ => .error .quantization

/-- `dequantize`, scalar.py:129-162: codes always become float32. -/
def dequantizeP (q : ScalarQ F) (codes : Arr Int) : Except Err (List (List F)) :=
  q.dequantize (match codes with
    | .vec v => .vec (v.map (rndInt 24))
    | .mat c rows => .mat c (rows.map fun r => r.map (rndInt 24)))

end ScalarQ
end Valori
