import Verif.Lemmas.Saq
import Verif.Lemmas.SaqSearch
import Verif.Props.Flat
import Mathlib.Algebra.Order.Archimedean.Basic
import Mathlib.Data.Rat.Floor

/-!
# SAQ: C53 - C56, C89 - C91

The steering quantities (segment costs, bit shares, centroid picks, the rounded input of the
adjustment) are arbitrary unless a theorem says otherwise, so the theorems also hold for the
rounded values numpy computes, as long as none is NaN.
-/

namespace Valori.Props
open Valori.Spec (Rect sqDist Tiles decodeRow totalErr IsTopIdx)

variable {F S D : Type} [Field F] [LinearOrder F] [IsStrictOrderedRing F] [LinearOrder D]

/-! ## An example quantiser -/

/-- Exact arithmetic over the rationals; the scaler does nothing, KMeans returns the first rows. -/
def exSaqEnv (dim : Nat) : SaqEnv ℚ Unit ℚ where
  fit _ := .ok ()
  transform _ X := .ok X
  inverse _ X := .ok X
  zero := 0
  cost X := exactCost (cumsum 0 (explained dim X))
  want t X b := .ok (exactWant t (cumsum 0 (explained dim X)) b)
  kmeans k X := if X.take k = [] then .error .value else .ok (X.take k)
  pick := pickExact
  mix v r := r + (v - r)

theorem exSaq_kmeans (dim : Nat) : Saq.KmeansOk (exSaqEnv dim) := by
  intro k w rows cents hr h
  simp only [exSaqEnv] at h
  split_ifs at h with h0
  obtain rfl := Except.ok.inj h
  exact ⟨h0, fun c hc => hr c (List.mem_of_mem_take hc)⟩

theorem exSaq_scaler (dim : Nat) : Saq.ScalerOk (exSaqEnv dim) := by
  intro sc w X Y hX h
  obtain rfl : X = Y := Except.ok.inj h
  exact ⟨hX, rfl⟩

theorem exSaq_want (dim : Nat) (t : Nat) (p : List (List ℚ)) (b : List (Nat × Nat)) (w : List Int)
    (h : (exSaqEnv dim).want t p b = .ok w) : w.length = b.length := by
  obtain rfl := Except.ok.inj h
  simp [exactWant]

/-- Eight bits, two segments. -/
def exSaq : Saq ℚ Unit :=
  ⟨8, 2, 5, 100, true, false, none, none, none, none, none, []⟩

def exSaqData : List (List ℚ) := [[1, 0, 2], [3, 1, 0], [0, 2, 2], [1, 1, 1]]

/-- The example after training. -/
def exSaqTrained : Saq ℚ Unit := (Saq.train (exSaqEnv 3) exSaq (.mat 3 exSaqData)).2

theorem exSaq_train :
    Saq.train (exSaqEnv 3) exSaq (.mat 3 exSaqData) = (.ok (), exSaqTrained) := by
  decide +kernel

theorem exSaq_rect : Rect 3 exSaqData := by unfold Rect exSaqData; decide

/-! ## C53 -/

/-- **C53.**  Whatever the data and the costs, after training the segments are non-empty, in
order, cover every dimension exactly once, and there are `min(n_segments, dim)` of them. -/
theorem C53_segments_tile (env : SaqEnv F S D) (q q' : Saq F S) (dim : Nat) (X : List (List F))
    (hn : 1 ≤ q.nSegments) (hd : 1 ≤ dim) (h : Saq.train env q (.mat dim X) = (.ok (), q')) :
    ∃ bounds, q'.bounds = some bounds ∧ Tiles 0 dim bounds ∧
      bounds.length = min q.nSegments dim := by
  obtain ⟨sc, proj, want, -, -, ⟨-, books, -, rfl⟩, -⟩ := Saq.train_inv env q q' dim X h
  obtain ⟨h1, h2⟩ := segments_tiles (env.cost proj) env.zero (min q.nSegments dim) dim
    (by omega) (by omega)
  exact ⟨_, rfl, h1, h2⟩

example : ∃ bounds, exSaqTrained.bounds = some bounds ∧ Tiles 0 3 bounds ∧ bounds.length = 2 :=
  C53_segments_tile (exSaqEnv 3) exSaq _ 3 exSaqData (by decide) (by decide) exSaq_train

/-- Every dimension lies in exactly one segment. -/
theorem C53_each_dimension_once {a b : Nat} {l : List (Nat × Nat)} (h : Tiles a b l) (i : Nat)
    (ha : a ≤ i) (hb : i < b) :
    ∃ j : Nat, ∀ t : Nat, (∃ s e, l[t]? = some (s, e) ∧ s ≤ i ∧ i < e) ↔ t = j := by
  induction l generalizing a with
  | nil => have : a = b := h; omega
  | cons x l ih =>
    obtain ⟨s, e⟩ := x
    obtain ⟨rfl, h2, h3⟩ := h
    by_cases hi : i < e
    · refine ⟨0, fun t => ⟨?_, ?_⟩⟩
      · rintro ⟨s', e', ht, h4, h5⟩
        cases t with
        | zero => rfl
        | succ t =>
          have := Saq.tiles_get h3 t (s', e') (by simpa using ht)
          simp only at this
          omega
      · rintro rfl
        exact ⟨s, e, rfl, ha, hi⟩
    · obtain ⟨j, hj⟩ := ih h3 (by omega)
      refine ⟨j + 1, fun t => ⟨?_, ?_⟩⟩
      · rintro ⟨s', e', ht, h4, h5⟩
        cases t with
        | zero =>
          simp only [List.getElem?_cons_zero, Option.some.injEq, Prod.mk.injEq] at ht
          omega
        | succ t =>
          rw [(hj t).1 ⟨s', e', by simpa using ht, h4, h5⟩]
      · rintro rfl
        obtain ⟨s', e', ht, h4⟩ := (hj j).2 rfl
        exact ⟨s', e', by simpa using ht, h4⟩

/-! ## C89: the segmentation does not look at the data -/

/-- **C89.**  In exact arithmetic the segmentation is the same for every training set: the first
`n - 1` segments are single dimensions and the last takes all the rest.  (The sum of the segment
costs is the same for every segmentation, so the first one tried wins.) -/
theorem C89_segments_ignore_data {F : Type} [Field F] [LinearOrder F] [IsStrictOrderedRing F]
    (env : SaqEnv F S F) (hz : env.zero = 0)
    (hcost : ∀ X, ∃ cum, env.cost X = exactCost cum) (q q' : Saq F S) (dim : Nat)
    (X : List (List F)) (hn : 1 ≤ q.nSegments) (hd : 1 ≤ dim)
    (h : Saq.train env q (.mat dim X) = (.ok (), q')) :
    q'.bounds = some ((List.range (min q.nSegments dim - 1)).map (fun i => (i, i + 1)) ++
      [(min q.nSegments dim - 1, dim)]) := by
  obtain ⟨sc, proj, want, -, -, ⟨-, books, -, rfl⟩, -⟩ := Saq.train_inv env q q' dim X h
  obtain ⟨cum, hcum⟩ := hcost proj
  have := segments_exact cum (min q.nSegments dim) dim (by omega) (by omega)
  simp only [hcum, hz]
  rw [this]
  rfl

example : exSaqTrained.bounds = some [(0, 1), (1, 3)] :=
  C89_segments_ignore_data (exSaqEnv 3) rfl (fun _ => ⟨_, rfl⟩) exSaq _ 3 exSaqData (by decide)
    (by decide) exSaq_train

/-! ## C90: training again on wider data -/

/-- **C90, partial.**  The number of segments used is the smaller of the configured number and the
dimension only until the first training on narrower data: training stores the reduced number. -/
theorem C90_segment_count_partial (env : SaqEnv F S D) (q q1 q2 : Saq F S) (d1 d2 : Nat)
    (X Y : List (List F)) (hn : 1 ≤ q.nSegments) (h1 : 1 ≤ d1) (h2 : 1 ≤ d2)
    (e1 : Saq.train env q (.mat d1 X) = (.ok (), q1))
    (e2 : Saq.train env q1 (.mat d2 Y) = (.ok (), q2)) :
    ∃ bounds, q2.bounds = some bounds ∧ bounds.length = min (min q.nSegments d1) d2 := by
  have hq1 : q1.nSegments = min q.nSegments d1 := by
    obtain ⟨_, _, _, -, -, ⟨-, _, -, rfl⟩, -⟩ := Saq.train_inv env q q1 d1 X e1
    rfl
  obtain ⟨b, h3, -, h4⟩ := C53_segments_tile env q1 q2 d2 Y (by omega) h2 e2
  exact ⟨b, h3, by rw [h4, hq1]⟩

/-- **C90, refuted.**  A quantiser configured for four segments, trained on two dimensions and then
on four, uses two segments. -/
theorem C90_segment_count_refuted :
    ¬ ∀ (env : SaqEnv ℚ Unit ℚ) (q q1 q2 : Saq ℚ Unit) (d1 d2 : Nat) (X Y : List (List ℚ)),
      1 ≤ q.nSegments → 1 ≤ d1 → 1 ≤ d2 →
      Saq.train env q (.mat d1 X) = (.ok (), q1) → Saq.train env q1 (.mat d2 Y) = (.ok (), q2) →
      ∃ bounds, q2.bounds = some bounds ∧ bounds.length = min q.nSegments d2 := by
  intro h
  obtain ⟨b, h1, h2⟩ := h (exSaqEnv 4) ⟨8, 4, 0, 1, true, false, none, none, none, none, none, []⟩
    (Saq.train (exSaqEnv 4) ⟨8, 4, 0, 1, true, false, none, none, none, none, none, []⟩
      (.mat 2 [[1, 2], [3, 5]])).2
    (Saq.train (exSaqEnv 4) (Saq.train (exSaqEnv 4)
      ⟨8, 4, 0, 1, true, false, none, none, none, none, none, []⟩ (.mat 2 [[1, 2], [3, 5]])).2
      (.mat 4 [[1, 2, 0, 1], [3, 5, 1, 7]])).2
    2 4 [[1, 2], [3, 5]] [[1, 2, 0, 1], [3, 5, 1, 7]] (by decide) (by decide) (by decide)
    (by decide +kernel) (by decide +kernel)
  have : (Saq.train (exSaqEnv 4) (Saq.train (exSaqEnv 4)
      ⟨8, 4, 0, 1, true, false, none, none, none, none, none, []⟩ (.mat 2 [[1, 2], [3, 5]])).2
      (.mat 4 [[1, 2, 0, 1], [3, 5, 1, 7]])).2.bounds = some [(0, 1), (1, 4)] := by decide +kernel
  rw [this] at h1
  obtain rfl := Option.some.inj h1
  exact absurd h2 (by decide)

/-! ## C54 -/

/-- **C54.**  After a successful training the bits of the segments sum to the budget, every segment
but the last has at least one bit, and none has a negative number. -/
theorem C54_bits (env : SaqEnv F S D)
    (hw : ∀ t p b w, env.want t p b = .ok w → w.length = b.length) (q q' : Saq F S) (dim : Nat)
    (X : List (List F)) (hn : 1 ≤ q.nSegments) (hd : 1 ≤ dim)
    (h : Saq.train env q (.mat dim X) = (.ok (), q')) :
    ∃ bits, q'.bits = some bits ∧ bits.length = min q.nSegments dim ∧
      bits.sum = (q.totalBits : Int) ∧ (∀ b ∈ bits.dropLast, 1 ≤ b) ∧ ∀ b ∈ bits, 0 ≤ b := by
  obtain ⟨sc, proj, want, -, -, ⟨h3, books, h4, rfl⟩, -⟩ := Saq.train_inv env q q' dim X h
  obtain ⟨-, h2⟩ := segments_tiles (env.cost proj) env.zero (min q.nSegments dim) dim
    (by omega) (by omega)
  have hl := hw _ _ _ _ h3
  have hbl : (allocBits q.totalBits want).length = min q.nSegments dim := by
    rw [allocBits_length, hl, h2]
  refine ⟨_, rfl, hbl, allocBits_sum _ _ ?_, allocBits_pos _ _, ?_⟩
  · rintro rfl
    simp only [List.length_nil] at hl
    omega
  · intro b hb
    obtain ⟨new, -, h5⟩ := Saq.trainSegments_spec env proj _ _ _ h4
    obtain ⟨j, hj⟩ := List.getElem?_of_mem hb
    obtain ⟨hjl, hjb⟩ := List.getElem?_eq_some_iff.1 hj
    have hnl := h5.length_eq
    rw [List.length_zip] at hnl
    have := (List.forall₂_iff_get.1 h5).2 j (by rw [List.length_zip]; omega) (by omega)
    simp only [List.get_eq_getElem, List.getElem_zip, hjb] at this
    unfold Saq.trainSegment at this
    simp only at this
    split at this
    · simp at this
    · rename_i k hk
      exact kClusters_nonneg _ _ _ hk

example : ∃ bits, exSaqTrained.bits = some bits ∧ bits.length = 2 ∧ bits.sum = 8 ∧
    (∀ b ∈ bits.dropLast, 1 ≤ b) ∧ ∀ b ∈ bits, 0 ≤ b :=
  C54_bits (exSaqEnv 3) (exSaq_want 3) exSaq _ 3 exSaqData (by decide) (by decide) exSaq_train

/-- **C54, too small a budget.**  With fewer than `n - 1` bits for `n` segments training fails. -/
theorem C54_budget_too_small (env : SaqEnv F S D)
    (hw : ∀ t p b w, env.want t p b = .ok w → w.length = b.length) (q : Saq F S) (dim : Nat)
    (X : List (List F)) (hn : 1 ≤ q.nSegments) (hd : 1 ≤ dim)
    (hb : q.totalBits + 1 < min q.nSegments dim) :
    (Saq.train env q (.mat dim X)).1 = .error .quantization := by
  rcases hr : Saq.train env q (.mat dim X) with ⟨r, q'⟩
  cases r with
  | ok u =>
    obtain ⟨bits, -, h1, h2, h3, h4⟩ := C54_bits env hw q q' dim X hn hd hr
    exfalso
    have hne : bits ≠ [] := by rintro rfl; simp at h1; omega
    have hsum : ((bits.dropLast.length : Nat) : Int) ≤ bits.dropLast.sum := by
      have : ∀ l : List Int, (∀ b ∈ l, 1 ≤ b) → ((l.length : Nat) : Int) ≤ l.sum := by
        intro l hl
        induction l with
        | nil => simp
        | cons a l ih =>
          have h1 := hl a (by simp)
          have h2 := ih fun b hb => hl b (by simp [hb])
          simp only [List.length_cons, List.sum_cons, Nat.cast_add, Nat.cast_one]
          omega
      exact this _ h3
    have hlast := h4 _ (List.getLast_mem hne)
    have hs2 : bits.dropLast.sum + bits.getLast hne = bits.sum := by
      conv_rhs => rw [← List.dropLast_append_getLast hne, List.sum_append]
      simp
    have hdl : bits.dropLast.length = min q.nSegments dim - 1 := by simp [h1]
    omega
  | error e =>
    unfold Saq.train at hr
    split_ifs at hr
    · simp at hr; simp [hr.1]
    · simp only at hr
      split at hr <;> (try split at hr) <;> (try split at hr) <;> (try split at hr) <;>
        simp only [Prod.mk.injEq, Except.error.injEq, reduceCtorEq, false_and] at hr
      all_goals simp [← hr.1]

/-- Two bits for four segments: training fails. -/
example : (Saq.train (exSaqEnv 4) ⟨2, 4, 0, 1, true, false, none, none, none, none, none, []⟩
    (.mat 4 [[1, 2, 0, 1], [3, 5, 1, 7]])).1 = .error .quantization :=
  C54_budget_too_small (exSaqEnv 4) (exSaq_want 4) _ 4 _ (by decide) (by decide) (by decide)

/-- The last segment can end with no bits at all: three bits for four segments. -/
example : (Saq.train (exSaqEnv 4) ⟨3, 4, 0, 1, true, false, none, none, none, none, none, []⟩
    (.mat 4 [[1, 2, 0, 1], [3, 5, 1, 7]])).2.bits = some [1, 1, 1, 0] := by decide +kernel

/-! ## C55 -/

/-- **C55, training gives a usable quantiser.** -/
theorem C55_train_ready {env : SaqEnv F S D} (hk : Saq.KmeansOk env) (hT : Saq.ScalerOk env)
    (hw : ∀ t p b w, env.want t p b = .ok w → w.length = b.length) (q q' : Saq F S) (dim : Nat)
    (X : List (List F)) (hn : 1 ≤ q.nSegments) (hd : 1 ≤ dim) (hX : Rect dim X)
    (h : Saq.train env q (.mat dim X) = (.ok (), q')) : ∃ sc bounds, Saq.Ready q' dim sc bounds :=
  Saq.train_ready hk hT q q' dim X hn hd hX hw h

/-- **C55.**  For every trained quantiser, every batch and every number of adjustment rounds: with
legal centroid picks, quantising succeeds, and the total squared error of the codes in normalised
space is at most that of the codes before adjustment.  If `r + (v - r)` is computed exactly, the
codes are the same. -/
theorem C55_adjust {env : SaqEnv F S D} (hp : Saq.PickOk env) (q : Saq F S) (dim : Nat) (sc : S)
    (bounds : List (Nat × Nat)) (hq : Saq.Ready q dim sc bounds) (Y rows : List (List F))
    (hT : env.transform sc Y = .ok rows) (hr : Rect dim rows) :
    ∃ c0 c1, Saq.quantize env { q with adjustIters := 0 } Y = .ok c0 ∧
      Saq.quantize env q Y = .ok c1 ∧ c0.length = rows.length ∧ c1.length = rows.length ∧
      Saq.RowCodesOk q.books c0 ∧ Saq.RowCodesOk q.books c1 ∧
      totalErr q.books rows c1 ≤ totalErr q.books rows c0 ∧
      ((∀ v r, env.mix v r = v) → c1 = c0) := by
  obtain ⟨c0, c1, h1, h2, h3, h4, h5, h6⟩ := Saq.encode_ok hp hq.segs rows hr q.adjustIters
  have hsnd : (bounds.zip q.books).map Prod.snd = q.books :=
    List.map_snd_zip (by have := hq.len; omega)
  have e0 := Saq.totalErr_eq rows (bounds.zip q.books) c0
  have e1 := Saq.totalErr_eq rows (bounds.zip q.books) c1
  rw [hsnd] at e0 e1
  refine ⟨Saq.transposeCodes rows.length c0, Saq.transposeCodes rows.length c1, ?_, ?_, ?_, ?_,
    Saq.codesOk_rows hq.len h3, Saq.codesOk_rows hq.len h4, ?_, ?_⟩
  · unfold Saq.quantize
    rw [if_neg (by simp [hq.inited, hq.trained])]
    simp only [hq.hsc, hq.hbounds, hq.hdim, hT, h1]
  · unfold Saq.quantize
    rw [if_neg (by simp [hq.inited, hq.trained])]
    simp only [hq.hsc, hq.hbounds, hq.hdim, hT, h2]
  · simp [Saq.transposeCodes]
  · simp [Saq.transposeCodes]
  · rw [e0, e1]; exact h5
  · intro hm; rw [h6 hm]

/-- **C55, what a code decodes to.**  `dequantize` undoes the normalisation of the decoded rows, so
the error above is the error of the vectors it returns, in normalised space. -/
theorem C55_decode (env : SaqEnv F S D) (q : Saq F S) (dim : Nat) (sc : S)
    (bounds : List (Nat × Nat)) (hq : Saq.Ready q dim sc bounds) (codes : List (List Nat))
    (hc : Saq.RowCodesOk q.books codes) (out : List (List F))
    (hi : env.inverse sc (codes.map (decodeRow q.books)) = .ok out) :
    Saq.dequantize env q codes = .ok out := by
  rw [Saq.dequantize_eq env q dim sc bounds hq codes hc, hi]

example : ∃ c0 c1, Saq.quantize (exSaqEnv 3) { exSaqTrained with adjustIters := 0 } exSaqData =
      .ok c0 ∧ Saq.quantize (exSaqEnv 3) exSaqTrained exSaqData = .ok c1 ∧
      totalErr exSaqTrained.books exSaqData c1 ≤ totalErr exSaqTrained.books exSaqData c0 ∧
      c1 = c0 := by
  obtain ⟨sc, b, hq⟩ := C55_train_ready (exSaq_kmeans 3) (exSaq_scaler 3) (exSaq_want 3) exSaq _ 3
    exSaqData (by decide) (by decide) exSaq_rect exSaq_train
  obtain ⟨c0, c1, h1, h2, -, -, -, -, h3, h4⟩ := C55_adjust (Saq.pickExact_ok (exSaqEnv 3) rfl)
    exSaqTrained 3 sc b hq exSaqData exSaqData rfl exSaq_rect
  exact ⟨c0, c1, h1, h2, h3, h4 (by intro v r; simp [exSaqEnv])⟩

/-- The same quantiser with a coarse `mix`: the adjustment sees another input. -/
def exSaqCoarse : SaqEnv ℚ Unit ℚ :=
  { exSaqEnv 3 with
    mix := fun _ _ => 0
    pick := fun c x => if x = List.replicate x.length 0 then .ok 0 else .ok (c.length - 1) }

/-- With rounding, the adjustment can change codes, and then lowers the error. -/
example : Saq.quantize exSaqCoarse { exSaqTrained with adjustIters := 0 } [[1, 0, 2]] ≠
    Saq.quantize exSaqCoarse exSaqTrained [[1, 0, 2]] := by decide +kernel

/-! ## C91: the codes name the nearest decodable vector -/

/-- **C91.**  In exact arithmetic, `quantize` gives for every vector a code whose decoding is at
least as near, in normalised space, as the decoding of any other code. -/
theorem C91_nearest {env : SaqEnv F S D} (hp : env.pick = pickExact)
    (hm : ∀ v r, env.mix v r = r + (v - r)) (q : Saq F S) (dim : Nat) (sc : S)
    (bounds : List (Nat × Nat)) (hq : Saq.Ready q dim sc bounds) (Y rows : List (List F))
    (hT : env.transform sc Y = .ok rows) (hr : Rect dim rows) :
    ∃ codes, Saq.quantize env q Y = .ok codes ∧ Saq.RowCodesOk q.books codes ∧
      ∀ (i : Nat) row code, rows[i]? = some row → codes[i]? = some code →
        ∀ other, List.Forall₂ (fun (b : List (List F)) (c : Nat) => c < b.length) q.books other →
          sqDist row (decodeRow q.books code) ≤ sqDist row (decodeRow q.books other) := by
  have hpo := Saq.pickExact_ok env hp
  have hm' : ∀ v r, env.mix v r = v := by intro v r; rw [hm]; ring
  obtain ⟨c0, hf, hc⟩ := Saq.firstCodes_ok hpo hq.segs rows hr
  obtain ⟨c1, h1, -, -, h4⟩ := Saq.adjustLoop_ok hpo hq.segs rows hr q.adjustIters c0 hc
  have := h4 hm' hf
  subst this
  refine ⟨Saq.transposeCodes rows.length c1, ?_, Saq.codesOk_rows hq.len hc, ?_⟩
  · unfold Saq.quantize
    rw [if_neg (by simp [hq.inited, hq.trained])]
    simp only [hq.hsc, hq.hbounds, hq.hdim, hT, Saq.encode, hf, h1]
  · intro i row code hi hcd other ho
    obtain ⟨hil, rfl⟩ := List.getElem?_eq_some_iff.1 hi
    rw [Saq.transposeCodes_eq, List.getElem?_map, List.getElem?_range hil] at hcd
    simp only [Option.map_some, Option.some.injEq] at hcd
    subst hcd
    exact Saq.firstCodes_nearest hp hq.len hq.segs rows hr c1 hf hc i hil other ho

example : ∃ codes, Saq.quantize (exSaqEnv 3) exSaqTrained exSaqData = .ok codes ∧
    Saq.RowCodesOk exSaqTrained.books codes := by
  obtain ⟨sc, b, hq⟩ := C55_train_ready (exSaq_kmeans 3) (exSaq_scaler 3) (exSaq_want 3) exSaq _ 3
    exSaqData (by decide) (by decide) exSaq_rect exSaq_train
  obtain ⟨c, h1, h2, -⟩ := C91_nearest (env := exSaqEnv 3) rfl (fun _ _ => rfl) exSaqTrained 3 sc b hq
    exSaqData exSaqData rfl exSaq_rect
  exact ⟨c, h1, h2⟩

/-! ## C56 -/

/-- **C56.**  For every data set, query, `top_k`, `rescore_top_k` and every tie-breaking of
`argsort`: the answer is exact among `min(rescore_top_k, n)` distinct candidates, and exact over
the whole data set when `rescore_top_k` covers it.  `cdist` is the distance to a code, `dist` the
full-precision distance. -/
theorem C56_rescoring {V C : Type} (argsort : List D → List Nat) (ha : IsArgsort argsort)
    (cdist : C → Except Err D) (dist : V → D) (full : List V) (codes : List C)
    (hc : ∀ c ∈ codes, ∃ d, cdist c = .ok d) (hf : codes.length ≤ full.length) (r k : Nat) :
    ∃ cands hits, saqSearch argsort cdist dist (some full) (r : Int) codes (k : Int) = .ok hits ∧
      cands.Nodup ∧ (∀ i ∈ cands, i < codes.length) ∧ cands.length = min r codes.length ∧
      IsTopIdx (fun i => full[i]?.map dist) cands k hits ∧
      (codes.length ≤ r →
        IsTopIdx (fun i => full[i]?.map dist) (List.range codes.length) k hits) := by
  obtain ⟨cands, h1, h2, h3, h4⟩ := saqInitial_spec argsort ha cdist codes hc r
  obtain ⟨hits, g1, g2⟩ := saqRescore_spec argsort ha dist full cands h2
    (fun i hi => lt_of_lt_of_le (h3 i hi) hf) k
  refine ⟨cands, hits, ?_, h2, h3, h4, g2, ?_⟩
  · unfold saqSearch
    simp only [h1]
    exact g1
  · intro hle
    have hperm : cands.Perm (List.range codes.length) := by
      apply List.Subperm.perm_of_length_le
      · exact List.subperm_of_subset h2 fun i hi => List.mem_range.2 (h3 i hi)
      · rw [List.length_range, h4]; omega
    exact ⟨by rw [g2.length, hperm.length_eq], g2.nodup, g2.sorted,
      fun h hh => ⟨hperm.mem_iff.1 (g2.sound h hh).1, (g2.sound h hh).2⟩,
      fun i hi => g2.best i (hperm.mem_iff.2 hi)⟩

example : ∃ cands hits, saqSearch exArgsort (fun c : Nat => Except.ok c)
      Int.natAbs (some [5, -1, 3, 0]) (2 : Nat) [4, 1, 0, 9] (1 : Nat) = .ok hits ∧
      cands.Nodup ∧ cands.length = 2 ∧
      IsTopIdx (fun i => ([5, -1, 3, 0] : List Int)[i]?.map Int.natAbs) cands 1 hits := by
  obtain ⟨c, h, h1, h2, h3, h4, h5, -⟩ := C56_rescoring exArgsort exArgsort_ok
    (fun c : Nat => Except.ok c) Int.natAbs [5, -1, 3, 0] [4, 1, 0, 9]
    (fun c _ => ⟨_, rfl⟩) (by decide) 2 1
  exact ⟨c, h, h1, h2, h4, h5⟩

/-- **C56**, the limit: when more codes are rescored than vectors were seen by the last training,
the search raises `IndexError`, for every query and every tie-breaking of `argsort`. -/
theorem C56_more_codes {V C : Type} (argsort : List D → List Nat) (ha : IsArgsort argsort)
    (cdist : C → Except Err D) (dist : V → D) (full : List V) (codes : List C)
    (hc : ∀ c ∈ codes, ∃ d, cdist c = .ok d) (r k : Nat) (hf : full.length < min r codes.length) :
    saqSearch argsort cdist dist (some full) (r : Int) codes (k : Int) = .error .indexRange := by
  obtain ⟨cands, h1, h2, -, h4⟩ := saqInitial_spec argsort ha cdist codes hc r
  have hex : ∃ i ∈ cands, full.length ≤ i := by
    by_contra hno
    push Not at hno
    have := (List.subperm_of_subset h2 (fun i hi => List.mem_range.2 (hno i hi))).length_le
    rw [List.length_range, h4] at this
    omega
  have hmap : mapE (fullAt full) cands = .error .indexRange := by
    clear h1 h2 h4
    induction cands with
    | nil => simp at hex
    | cons i cands ih =>
      simp only [mapE, fullAt]
      by_cases hi : full.length ≤ i
      · rw [List.getElem?_eq_none hi]
      · rw [List.getElem?_eq_getElem (by omega)]
        obtain ⟨j, hj, hjl⟩ := hex
        rcases List.mem_cons.1 hj with rfl | hj
        · exact absurd hjl hi
        · simp only [ih ⟨j, hj, hjl⟩]
  unfold saqSearch saqRescore
  simp only [h1, hmap]

/-- Codes for more vectors than the last training saw make the search raise `IndexError`. -/
example : saqSearch exArgsort (fun c : Nat => Except.ok c) Int.natAbs (some [5, -1]) 3
    [4, 1, 0] 1 = .error .indexRange := by decide +kernel

end Valori.Props
