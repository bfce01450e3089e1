import Verif.Model.Scalar
import Verif.Model.Product
import Verif.Model.Saq
import Mathlib.Analysis.SpecialFunctions.Log.Base

/-!
# Statistics and closing of the quantisers: scalar.py:204-246, product.py:219-270, saq.py:615-653
-/

namespace Valori

/-- Bits one entry of an array of codes takes: the integer types chosen at scalar.py:98-103. -/
def ScalarQ.codeBits {F : Type} (q : ScalarQ F) : Nat := if q.maxVal ≤ ScalarQ.int32Max then 32 else 64

/-- `uint8` or `uint16`, product.py:108-113. -/
def ProductQ.codeBits (ek : Nat) : Nat := if ek - 1 ≤ 255 then 8 else 16

/-- `np.int32`, saq.py:277, 290 and 333. -/
def Saq.codeBits : Nat := 32

/-- `close`, scalar.py:238-246. -/
def ScalarQ.close {F : Type} (q : ScalarQ F) : ScalarQ F :=
  { q with minV := none, maxV := none, scale := none, trained := false, inited := false, dim := none }

/-- `close`, product.py:264-270. -/
def ProductQ.close {F : Type} (q : ProductQ F) : ProductQ F :=
  { q with books := none, dim := none, sub := none, trained := false, inited := false }

/-- `close`, saq.py:644-653; `dim` and a reduced `n_segments` stay. -/
def Saq.close {F S : Type} (q : Saq F S) : Saq F S :=
  { q with scaler := none, bounds := none, bits := none, books := [], full := none, trained := false,
           inited := false }

/-- What `get_stats` of a trained scalar quantiser adds, scalar.py:218-235. -/
structure ScalarStats (F : Type) where
  dimensions : Nat
  minRange : Option (F × F)
  maxRange : Option (F × F)
  ratio : F

/-- `a.min(), a.max()`; numpy raises `ValueError` for an empty array. -/
def rangeOf {F : Type} [LinearOrder F] : List F → Except Err (F × F)
  | [] => .error .value
  | x :: xs => .ok (xs.foldl min x, xs.foldl max x)

/-- A range, if there is an array. -/
def rangeOpt {F : Type} [LinearOrder F] : Option (List F) → Except Err (Option (F × F))
  | none => .ok none
  | some l => (rangeOf l).map some

/-- `get_stats`, scalar.py:204-236.  `none` is `{"status": "not_initialized"}`; the inner `none` is the
answer without the entries of a trained quantiser.  Division by zero bits raises. -/
def ScalarQ.getStats {F : Type} [Field F] [LinearOrder F] (q : ScalarQ F) :
    Except Err (Option (Option (ScalarStats F))) :=
  if q.inited = false then .ok none
  else if q.trained = false then .ok (some none)
  else match rangeOpt q.minV with
    | .error e => .error e
    | .ok lo => match rangeOpt q.maxV with
      | .error e => .error e
      | .ok hi => if q.bits = 0 then .error .other
        else .ok (some (some ⟨q.dim.getD 0, lo, hi, 32 / (q.bits : F)⟩))

/-- What `get_stats` of a trained product quantiser adds, product.py:239-260. -/
structure ProductStats where
  dimensions : Option Nat
  subDimensions : Option Nat
  bitsPerSub : ℝ
  totalBits : ℝ
  ratio : Option ℝ

/-- A product quantiser with its attribute `effective_k`, which only training sets. -/
structure ProductW (F : Type) where
  q : ProductQ F
  ek : Option Nat

/-- `train` with the assignment at product.py:61-62, reached if the width is a multiple of `m`. -/
def ProductW.train {F : Type} [Field F] [LinearOrder F]
    (kmeans : Nat → Nat → List (List F) → Except Err (List (List F))) (w : ProductW F)
    (vectors : Arr F) : Res (ProductW F) Unit :=
  let r := w.q.train kmeans vectors
  match vectors with
  | .vec _ => (r.1, { w with q := r.2 })
  | .mat dim rows =>
    if w.q.inited = true ∧ w.q.m ≠ 0 ∧ dim % w.q.m = 0 then (r.1, ⟨r.2, some (min w.q.k (max 1 rows.length))⟩)
    else (r.1, { w with q := r.2 })

/-- `get_stats`, product.py:219-262. -/
noncomputable def ProductW.getStats {F : Type} (w : ProductW F) : Option (Option ProductStats) :=
  if w.q.inited = false then none
  else if w.q.trained = false then some none
  else
    let k := w.ek.getD w.q.k
    let b : ℝ := if k > 1 then Real.logb 2 k else 1
    some (some ⟨w.q.dim, w.q.sub, b, w.q.m * b, w.q.dim.map fun _ => 32 / b⟩)

/-- A SAQ quantiser with the entry `compression_ratio` of its dictionary `stats`, saq.py:51-55. -/
structure SaqW (F S : Type) where
  q : Saq F S
  ratio : ℚ

/-- `train` with the entry it writes at the end, saq.py:126-131; `n` rows. -/
def SaqW.train {F S D : Type} [Field F] [LinearOrder F] [LinearOrder D] (env : SaqEnv F S D)
    (w : SaqW F S) (vectors : Arr F) : Res (SaqW F S) Unit :=
  match w.q.train env vectors with
  | (.error e, q) => (.error e, { w with q := q })
  | (.ok (), q) =>
    match vectors with
    | .vec _ => (.ok (), { w with q := q })
    | .mat dim rows =>
      if rows.length * q.totalBits = 0 then (.error .quantization, { w with q := q })
      else (.ok (), ⟨q, (rows.length * dim * 32 : ℕ) / (rows.length * q.totalBits : ℕ)⟩)

/-- `get_stats`, saq.py:615-642, as far as the compression ratio goes.  `explained_variance_ratio_` is
an attribute of `pca` from the moment `segment_bits` is complete (saq.py:205-222) until `initialize` or
`close` makes a new one; reading it before raises `AttributeError`. -/
def SaqW.getStats {F S : Type} (w : SaqW F S) : Except Err (Option ℚ) :=
  if w.q.inited = false then .ok none
  else if w.q.trained = false then .ok (some w.ratio)
  else match w.q.bits with
    | none => .error .attribute
    | some _ => .ok (some w.ratio)

end Valori
