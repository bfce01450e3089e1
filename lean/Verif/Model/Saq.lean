import Verif.Model.Product

/-!
# `SAQQuantizer` (`/repo/src/valori/quantization/saq.py`)

The floating-point quantities that only steer the algorithm (segment cost, bit shares, nearest
centroid) are parameters, so what is proved of the model holds however they are rounded.  The
exact formulas are given as instances (`exactCost`, `exactWant`, `pickExact`).
-/

namespace Valori

/-! ## Segmentation -/

section
variable {D : Type} [LinearOrder D]

/-- One cell of the dynamic program, saq.py:170-184.  `none` is infinity.  `cost c s e` is
`dp[seg-1, s] + (1.0 - seg_variance)` for `dp[seg-1, s] = c`; an infinite cost is never smaller. -/
def dpCell (cost : D → Nat → Nat → D) (prev : List (Option D)) (seg e : Nat) : Option D × Nat :=
  (List.range' (seg - 1) (e - (seg - 1))).foldl
    (fun st s =>
      match prev[s]?.join with
      | none => st
      | some c =>
        match st.1 with
        | none => (some (cost c s e), s)
        | some b => if cost c s e < b then (some (cost c s e), s) else st)
    (none, 0)

/-- One row of `dp` and `backtrack`, saq.py:169-184. -/
def dpRow (cost : D → Nat → Nat → D) (prev : List (Option D)) (seg dim : Nat) :
    List (Option D × Nat) :=
  (List.range (dim + 1)).map fun e => if seg ≤ e then dpCell cost prev seg e else (none, 0)

/-- The rows of `backtrack` for `seg`, `seg + 1`, ... (`n` of them), saq.py:168-184. -/
def dpRows (cost : D → Nat → Nat → D) (dim : Nat) : Nat → Nat → List (Option D) → List (List Nat)
  | 0, _, _ => []
  | n + 1, seg, prev =>
    let row := dpRow cost prev seg dim
    row.map Prod.snd :: dpRows cost dim n (seg + 1) (row.map Prod.fst)

/-- The reconstruction loop, saq.py:187-192, over the rows from the last segment to the first. -/
def walkBack : List (List Nat) → Nat → List (Nat × Nat) → List (Nat × Nat)
  | [], _, acc => acc
  | row :: rows, pos, acc => walkBack rows (row.getD pos 0) ((row.getD pos 0, pos) :: acc)

/-- `segment_boundaries` for `n` segments over `dim` dimensions, saq.py:162-192. -/
def segments (cost : D → Nat → Nat → D) (zero : D) (n dim : Nat) : List (Nat × Nat) :=
  walkBack (dpRows cost dim n 1 (some zero :: List.replicate dim none)).reverse dim []

end

/-- The allocation loop, saq.py:207-215: `want` holds `int(total_bits * share)` of every segment;
the last segment gets what remains. -/
def allocBits : Int → List Int → List Int
  | _, [] => []
  | remaining, [_] => [remaining]
  | remaining, w :: ws => max 1 w :: allocBits (remaining - max 1 w) ws

/-- Number of clusters of a segment, saq.py:241-244.  A negative shift count raises. -/
def kClusters (bits : Int) (n : Nat) : Except Err Nat :=
  if 30 ≤ bits then .ok (max 2 n)
  else if bits < 0 then .error .value
  else .ok (min (max 2 (2 ^ bits.toNat)) n)

/-! ## Exact versions of the steering quantities -/

section
variable {F : Type} [Field F] [LinearOrder F]

/-- Running sums (`np.cumsum`). -/
def cumsum : F → List F → List F
  | _, [] => []
  | acc, x :: xs => (acc + x) :: cumsum (acc + x) xs

/-- Column `j` of a table. -/
def colOf (rows : List (List F)) (j : Nat) : List F := rows.map fun r => r.getD j 0

/-- `np.var` of one column. -/
def varOf (c : List F) : F :=
  let mean := c.sum / (c.length : F)
  (c.map fun x => (x - mean) ^ 2).sum / (c.length : F)

/-- `explained_variance`, saq.py:147-153. -/
def explained (dim : Nat) (rows : List (List F)) : List F :=
  let v := (List.range dim).map fun j => varOf (colOf rows j)
  if v.sum = 0 then List.replicate dim (1 / (dim : F)) else v.map (· / v.sum)

/-- `seg_variance`, saq.py:171-177 and 197-202. -/
def segVar (cum : List F) (s e : Nat) : F :=
  if s = 0 then cum.getD (e - 1) 0 else cum.getD (e - 1) 0 - cum.getD (s - 1) 0

/-- The cost of a segment, saq.py:171-180. -/
def exactCost (cum : List F) (c : F) (s e : Nat) : F := c + (1 - segVar cum s e)

/-- `int(x)`: truncation towards zero. -/
def truncInt [FloorRing F] (x : F) : Int := if 0 ≤ x then ⌊x⌋ else ⌈x⌉

/-- The shares, saq.py:195-213. -/
def exactWant [FloorRing F] (total : Nat) (cum : List F) (bounds : List (Nat × Nat)) : List Int :=
  let vs := bounds.map fun b => segVar cum b.1 b.2
  vs.map fun v => truncInt ((total : F) * (v / vs.sum))

/-- Nearest centroid as computed in saq.py:276-283, `|x|^2 + |c|^2 - 2 x.c`, first minimum. -/
def pickExact (cents : List (List F)) (x : List F) : Except Err Nat :=
  match mapE (fun c =>
      match dotE x c with
      | .error e => .error e
      | .ok xc => .ok ((x.map (· ^ 2)).sum + (c.map (· ^ 2)).sum - 2 * xc)) cents with
  | .error e => .error e
  | .ok ds => argmin ds

end

/-! ## The quantiser -/

/-- Parameters: scikit-learn's `StandardScaler` (`S` is its fitted state) and `KMeans`, and the
rounded steering quantities.  `cost` and `want` may depend on the normalised training data;
`mix v r` is the rounded `r + (v - r)` of the adjustment, saq.py:378-385. -/
structure SaqEnv (F S D : Type) where
  fit : List (List F) → Except Err S
  transform : S → List (List F) → Except Err (List (List F))
  inverse : S → List (List F) → Except Err (List (List F))
  zero : D
  cost : List (List F) → D → Nat → Nat → D
  want : Nat → List (List F) → List (Nat × Nat) → Except Err (List Int)
  kmeans : Nat → List (List F) → Except Err (List (List F))
  pick : List (List F) → List F → Except Err Nat
  mix : F → F → F

/-- Fields of `SAQQuantizer`, saq.py:31-60.  `pca` and `stats` are left out: nothing but
`get_stats` reads them. -/
structure Saq (F S : Type) where
  totalBits : Nat
  nSegments : Nat
  adjustIters : Nat
  rescoreTopK : Int
  inited : Bool
  trained : Bool
  dim : Option Nat
  scaler : Option S
  full : Option (List (List F))
  bounds : Option (List (Nat × Nat))
  bits : Option (List Int)
  books : List (List (List F))
deriving DecidableEq

namespace Saq
variable {F S D : Type}

/-- `SAQQuantizer(config)`, saq.py:31-60: a zero budget or segment count raises `ValueError`. -/
def new (F S : Type) (totalBits nSegments adjustIters : Nat) (rescoreTopK : Int) :
    Except Err (Saq F S) :=
  if totalBits = 0 then .error .value
  else if nSegments = 0 then .error .value
  else .ok ⟨totalBits, nSegments, adjustIters, rescoreTopK, false, false, none, none, none, none,
    none, []⟩

/-- `initialize`, saq.py:62-71 (`_trained` and a reduced `n_segments` are kept). -/
def init (q : Saq F S) : Saq F S :=
  { q with inited := true, dim := none, scaler := none, full := none, bounds := none, bits := none
           books := [] }

variable [Field F] [LinearOrder F] [LinearOrder D]

/-- The codebook of one segment, saq.py:235-261: KMeans, or the mean if KMeans raises. -/
def trainSegment (env : SaqEnv F S D) (rows : List (List F)) (b : Nat × Nat) (bits : Int) :
    Except Err (List (List F)) :=
  let sub := rows.map fun r => slice r b.1 b.2
  match kClusters bits rows.length with
  | .error e => .error e
  | .ok k =>
    if b.2 - b.1 = 0 then .ok [[]]
    else match env.kmeans k sub with
      | .ok cents => .ok cents
      | .error _ => .ok [ProductQ.meanRow (b.2 - b.1) sub]

/-- `_train_segment_quantizers`, saq.py:231-295: segments trained before an exception stay. -/
def trainSegments (env : SaqEnv F S D) (rows : List (List F)) :
    List ((Nat × Nat) × Int) → List (List (List F)) → Res (List (List (List F))) Unit
  | [], books => (.ok (), books)
  | (b, bits) :: rest, books =>
    match trainSegment env rows b bits with
    | .error e => (.error e, books)
    | .ok cents => trainSegments env rows rest (books ++ [cents])

/-- `train`, saq.py:73-134.  The closing call of `quantize` only fills statistics and its
exceptions are swallowed.  `StandardScaler.fit` forgets the statistics of an earlier fit before it looks
at the array, so after a failing `fit` there is no usable scaler (`none`).  Simplification: when a share
of bits is not a number `segment_bits` keeps its old value instead of the entries found so far. -/
def train (env : SaqEnv F S D) (q : Saq F S) (vectors : Arr F) : Res (Saq F S) Unit :=
  if q.inited = false then (.error .quantization, q)
  else match vectors with
    | .vec _ => (.error .quantization, q)
    | .mat dim rows =>
      let q1 := { q with dim := some dim, full := some rows }
      match env.fit rows with
      | .error _ => (.error .quantization, { q1 with scaler := none })
      | .ok sc =>
        let q2 := { q1 with scaler := some sc }
        match env.transform sc rows with
        | .error _ => (.error .quantization, q2)
        | .ok proj =>
          let n := if dim < q.nSegments then dim else q.nSegments
          let bounds := segments (env.cost proj) env.zero n dim
          let q3 := { q2 with nSegments := n, bounds := some bounds }
          match env.want q.totalBits proj bounds with
          | .error _ => (.error .quantization, q3)
          | .ok want =>
            let bits := allocBits q.totalBits want
            match trainSegments env proj (bounds.zip bits) [] with
            | (.error _, books) =>
              (.error .quantization, { q3 with bits := some bits, books := books })
            | (.ok _, books) =>
              (.ok (), { q3 with bits := some bits, books := books, trained := true })

/-- `SegmentQuantizer.quantize`, saq.py:270-283, on the rows of one segment. -/
def segQuantize (env : SaqEnv F S D) (cents : List (List F)) (xs : List (List F)) :
    Except Err (List Nat) :=
  if (xs.headD []).length = 0 ∨ (cents.headD []).length = 0 then .ok (xs.map fun _ => 0)
  else mapE (env.pick cents) xs

/-- `SegmentQuantizer.dequantize`, saq.py:285-293: an unknown centroid number raises. -/
def segDequantize (cents : List (List F)) (codes : List Nat) : Except Err (List (List F)) :=
  mapE (fun c => match cents[c]? with
    | none => .error .indexRange
    | some v => .ok v) codes

/-- The first codes, saq.py:320-329: one list per segment. -/
def firstCodes (env : SaqEnv F S D) (rows : List (List F)) :
    List ((Nat × Nat) × List (List F)) → Except Err (List (List Nat))
  | [] => .ok []
  | (b, cents) :: rest =>
    match segQuantize env cents (rows.map fun r => slice r b.1 b.2) with
    | .error e => .error e
    | .ok c =>
      match firstCodes env rows rest with
      | .error e => .error e
      | .ok cs => .ok (c :: cs)

/-- Write one segment into all rows, `reconstructed[:, start:end] = block`. -/
def setBlock (b : Nat × Nat) : List (List F) → List (List F) → Except Err (List (List F))
  | [], [] => .ok []
  | row :: rows, v :: vs =>
    match setSlice row b.1 b.2 v with
    | .error e => .error e
    | .ok row' =>
      match setBlock b rows vs with
      | .error e => .error e
      | .ok rows' => .ok (row' :: rows')
  | _, _ => .error .value

/-- `_dequantize_segments` on one list of codes per segment, saq.py:438-462.  (The optional
arguments are never used.) -/
def decodeSegments : List ((Nat × Nat) × List (List F)) → List (List Nat) → List (List F) →
    Except Err (List (List F))
  | [], _, recon => .ok recon
  | _ :: _, [], _ => .error .indexRange
  | (b, cents) :: rest, codes :: css, recon =>
    match segDequantize cents codes with
    | .error e => .error e
    | .ok block =>
      match setBlock b recon block with
      | .error e => .error e
      | .ok recon' => decodeSegments rest css recon'

/-- Mean squared difference of two tables (`np.mean((a - b) ** 2)`). -/
def meanSq (a b : List (List F)) : F :=
  (List.zipWith (fun x y => (List.zipWith (fun s t => (s - t) ^ 2) x y).sum) a b).sum /
    ((a.map List.length).sum : F)

/-- State of the adjustment loop: codes per segment, `reconstructed`, `improvement`. -/
structure Adj (F : Type) where
  codes : List (List Nat)
  recon : List (List F)
  impr : F

/-- One segment of one pass, saq.py:362-401. -/
def adjustSegment (env : SaqEnv F S D) (rows : List (List F)) (j : Nat) (b : Nat × Nat)
    (cents : List (List F)) (st : Adj F) : Except Err (Adj F) :=
  let vs := rows.map fun r => slice r b.1 b.2
  let rs := st.recon.map fun r => slice r b.1 b.2
  let input := List.zipWith (List.zipWith env.mix) vs rs
  let new := match segQuantize env cents input with
    | .ok c => c
    | .error _ => st.codes.getD j []
  match segDequantize cents new with
  | .error e => .error e
  | .ok block =>
    if meanSq vs block < meanSq vs rs then
      match setBlock b st.recon block with
      | .error e => .error e
      | .ok recon =>
        .ok ⟨st.codes.set j new, recon, st.impr + (meanSq vs rs - meanSq vs block)⟩
    else .ok st

/-- One pass over the segments, saq.py:362-401. -/
def adjustPass (env : SaqEnv F S D) (rows : List (List F)) :
    Nat → List ((Nat × Nat) × List (List F)) → Adj F → Except Err (Adj F)
  | _, [], st => .ok st
  | j, (b, cents) :: rest, st =>
    match adjustSegment env rows j b cents st with
    | .error e => .error e
    | .ok st' => adjustPass env rows (j + 1) rest st'

/-- The passes, saq.py:358-406. -/
def adjustLoop (env : SaqEnv F S D) (dim : Nat) (rows : List (List F))
    (segs : List ((Nat × Nat) × List (List F))) : Nat → List (List Nat) → Except Err (List (List Nat))
  | 0, codes => .ok codes
  | n + 1, codes =>
    match decodeSegments segs codes (rows.map fun _ => List.replicate dim 0) with
    | .error e => .error e
    | .ok recon =>
      match adjustPass env rows 0 segs ⟨codes, recon, 0⟩ with
      | .error e => .error e
      | .ok st =>
        if st.impr < 1 / 1000000 then .ok st.codes else adjustLoop env dim rows segs n st.codes

/-- `np.vstack(codes).T` for `n` rows, saq.py:409. -/
def transposeCodes (n : Nat) (codes : List (List Nat)) : List (List Nat) :=
  (List.range n).map fun i => codes.map fun c => c.getD i 0

/-- The codes of the normalised rows, saq.py:316-336. -/
def encode (env : SaqEnv F S D) (iters dim : Nat) (rows : List (List F))
    (segs : List ((Nat × Nat) × List (List F))) : Except Err (List (List Nat)) :=
  match firstCodes env rows segs with
  | .error e => .error e
  | .ok codes => adjustLoop env dim rows segs iters codes

/-- `quantize`, saq.py:297-339.  Simplification: 2-d input only. -/
def quantize (env : SaqEnv F S D) (q : Saq F S) (vectors : List (List F)) :
    Except Err (List (List Nat)) :=
  if q.inited = false ∨ q.trained = false then .error .quantization
  else match q.scaler, q.bounds, q.dim with
    | some sc, some bounds, some dim =>
      match env.transform sc vectors with
      | .error _ => .error .quantization
      | .ok rows =>
        match encode env q.adjustIters dim rows (bounds.zip q.books) with
        | .error _ => .error .quantization
        | .ok codes => .ok (transposeCodes rows.length codes)
    | _, _, _ => .error .quantization

/-- `dequantize`, saq.py:464-483, with one column per segment.  Simplification: other widths
(saq.py:430-433, a layout no method of the class produces) count as an error. -/
def dequantize (env : SaqEnv F S D) (q : Saq F S) (codes : List (List Nat)) :
    Except Err (List (List F)) :=
  if q.inited = false ∨ q.trained = false then .error .quantization
  else match q.scaler, q.bounds, q.dim with
    | some sc, some bounds, some dim =>
      if codes.all (fun r => r.length = q.books.length) then
        let cols := (List.range q.books.length).map fun j => codes.map fun r => r.getD j 0
        match decodeSegments (bounds.zip q.books) cols (codes.map fun _ => List.replicate dim 0) with
        | .error _ => .error .quantization
        | .ok recon =>
          match env.inverse sc recon with
          | .error _ => .error .quantization
          | .ok out => .ok out
      else .error .quantization
    | _, _, _ => .error .quantization

end Saq

/-! ## Search with rescoring -/

section
variable {V C D : Type}

/-- `_initial_quantized_search`, saq.py:555-574.  `cdist` is `compute_distance(query, .)`. -/
def saqInitial (argsort : List D → List Nat) (cdist : C → Except Err D) (rescoreTopK : Int)
    (codes : List C) : Except Err (List Nat) :=
  match mapE cdist codes with
  | .error e => .error e
  | .ok ds => .ok (sliceTo (argsort ds) rescoreTopK)

/-- `self._full_precision_data[idx]`, saq.py:592; `IndexError` past the end. -/
def fullAt (full : List V) (i : Nat) : Except Err V :=
  match full[i]? with
  | none => .error .indexRange
  | some v => .ok v

/-- One pair `(candidate_indices[t], distances[t])`, saq.py:607-611. -/
def hitAt (cands : List Nat) (ds : List D) (t : Nat) : Option (Nat × D) :=
  match cands[t]?, ds[t]? with
  | some i, some d => some (i, d)
  | _, _ => none

/-- `_rescoring_search`, saq.py:576-613.  `dist` is `1 - similarity` to the query. -/
def saqRescore (argsort : List D → List Nat) (dist : V → D) (full : List V) (cands : List Nat)
    (topK : Int) : Except Err (List (Nat × D)) :=
  match mapE (fullAt full) cands with
  | .error e => .error e
  | .ok vs => .ok ((sliceTo (argsort (vs.map dist)) topK).filterMap (hitAt cands (vs.map dist)))

/-- `search_with_rescoring`, saq.py:525-553. -/
def saqSearch (argsort : List D → List Nat) (cdist : C → Except Err D) (dist : V → D)
    (full : Option (List V)) (rescoreTopK : Int) (codes : List C) (topK : Int) :
    Except Err (List (Nat × D)) :=
  match full with
  | none => .error .quantization
  | some full =>
    match saqInitial argsort cdist rescoreTopK codes with
    | .error e => .error e
    | .ok cands => saqRescore argsort dist full cands topK

end

namespace Saq
variable {S D : Type} [LinearOrder D]

/-- Cosine distance of two vectors, saq.py:513-523; raises `ValueError` on different lengths. -/
noncomputable def cosineGap (v z : List ℝ) : Except Err ℝ :=
  match dotE v z with
  | .error e => .error e
  | .ok dp => if normR v = 0 ∨ normR z = 0 then .ok 1 else .ok (1 - dp / (normR v * normR z))

/-- `compute_distance`, saq.py:485-523, for a 1-d query.  There is no `try` here. -/
noncomputable def computeDistance (env : SaqEnv ℝ S D) (q : Saq ℝ S) (query : List ℝ)
    (code : List Nat) : Except Err ℝ :=
  if q.inited = false ∨ q.trained = false then .error .quantization
  else match q.dim with
    | none => .error .quantization
    | some d =>
      match dequantize env q [code] with
      | .error e => .error e
      | .ok [] => .error .indexRange
      | .ok (z :: _) => cosineGap (fitTo d query) z

/-- The full-precision distance of `_rescoring_search`, saq.py:594-605.  The stored vectors have
width `dim`: `train` sets both together, saq.py:89-93. -/
noncomputable def rescoreDist (v z : List ℝ) : ℝ :=
  if normR v = 0 ∨ normR z = 0 then 1 - 0
  else 1 - (List.zipWith (· * ·) v z).sum / (normR v * normR z)

/-- `search_with_rescoring` of the class, saq.py:525-613. -/
noncomputable def search (argsort : List ℝ → List Nat) (env : SaqEnv ℝ S D) (q : Saq ℝ S)
    (query : List ℝ) (codes : List (List Nat)) (topK : Int) : Except Err (List (Nat × ℝ)) :=
  saqSearch argsort (q.computeDistance env query) (rescoreDist (fitTo (q.dim.getD 0) query)) q.full
    q.rescoreTopK codes topK

end Saq
end Valori
