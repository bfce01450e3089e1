import Verif.Model.Saq

/-!
# Decoding SAQ codes with any number of columns (`/repo/src/valori/quantization/saq.py:411-483`)
-/

namespace Valori.Saq
variable {F S D : Type} [Field F] [LinearOrder F]

/-- The loop of `_dequantize_segments`, saq.py:441-460, on codes with `w` columns when they are split by the boundaries
of the segments (saq.py:430-433).  A segment gets the columns `start:end` that are there.  One column is a list of codes
(saq.py:288-289); with no column `segment_dequantized.shape[1]` is 0 and the segment is skipped (saq.py:457); with more the result
has three axes and cannot be assigned.  Simplification: at least one row, no segment of width 0 (C53). -/
def decodeSplit (w : Nat) : List ((Nat × Nat) × List (List F)) → List (List Nat) → List (List F) →
    Except Err (List (List F))
  | [], _, recon => .ok recon
  | (b, cents) :: rest, codes, recon =>
    let m := min b.2 w - b.1
    if m = 0 then decodeSplit w rest codes recon
    else if m = 1 then
      match segDequantize cents (codes.map fun r => (slice r b.1 b.2).headD 0) with
      | .error e => .error e
      | .ok block =>
        match setBlock b recon block with
        | .error e => .error e
        | .ok recon' => decodeSplit w rest codes recon'
    else .error .value

/-- `dequantize`, saq.py:464-483, on an array of `w` columns. -/
def dequantizeAny (env : SaqEnv F S D) (q : Saq F S) (w : Nat) (codes : List (List Nat)) :
    Except Err (List (List F)) :=
  if q.inited = false ∨ q.trained = false then .error .quantization
  else if w = q.books.length then dequantize env q codes
  else match q.scaler, q.bounds, q.dim with
    | some sc, some bounds, some dim =>
      match decodeSplit w (bounds.zip q.books) codes (codes.map fun _ => List.replicate dim 0) with
      | .error _ => .error .quantization
      | .ok recon =>
        match env.inverse sc recon with
        | .error _ => .error .quantization
        | .ok out => .ok out
    | _, _, _ => .error .quantization

end Valori.Saq
