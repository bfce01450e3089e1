import Verif.Props.Saq
import Verif.Props.ScalarContract

/-!
# SAQ: distances to codes (C138), search with rescoring on the class (C139)
-/

namespace Valori.Props
open Valori.Spec (Rect fit decodeRow IsTopIdx)

/-- Cosine distance of two lists, read as vectors of dimension `d`. -/
noncomputable def cosDist (d : Nat) (a b : List ℝ) : ℝ :=
  1 - Real.cos (InnerProductGeometry.angle (pt fun i : Fin d => a.getD i 0)
    (pt fun i : Fin d => b.getD i 0))

theorem ofFn_getD (d : Nat) (z : List ℝ) (hz : z.length = d) :
    z = List.ofFn fun i : Fin d => z.getD i 0 := by
  subst hz
  apply List.ext_getElem <;> simp

theorem fitTo_ofFn (d : Nat) (v : List ℝ) :
    fitTo d v = List.ofFn fun i : Fin d => v.getD i 0 := by
  rw [ProductQ.fitTo_eq]
  unfold fit
  apply List.ext_getElem <;> simp

theorem cosineGap_eq (d : Nat) (v z : List ℝ) (hz : z.length = d) :
    Saq.cosineGap (fitTo d v) z = .ok (cosDist d v z) := by
  unfold Saq.cosineGap cosDist
  have hdot : dotE (fitTo d v) z = .ok (inner ℝ (pt fun i : Fin d => v.getD i 0)
      (pt fun i : Fin d => z.getD i 0)) := by
    rw [← dotE_ofFn, ← fitTo_ofFn, ← ofFn_getD d z hz]
  have hn1 : normR (fitTo d v) = ‖pt fun i : Fin d => v.getD i 0‖ := by
    rw [← normR_ofFn, ← fitTo_ofFn]
  have hn2 : normR z = ‖pt fun i : Fin d => z.getD i 0‖ := by
    rw [← normR_ofFn, ← ofFn_getD d z hz]
  simp only [hdot, hn1, hn2]
  rw [InnerProductGeometry.cos_angle]
  split_ifs with h
  · rcases h with h | h <;> rw [h] <;> simp only [mul_zero, zero_mul, div_zero, sub_zero]
  · rfl

theorem rescoreDist_eq (d : Nat) (v z : List ℝ) (hz : z.length = d) :
    Saq.rescoreDist (fitTo d v) z = cosDist d v z := by
  have h := cosineGap_eq d v z hz
  unfold Saq.cosineGap dotE at h
  have hl : (fitTo d v).length = z.length := by rw [fitTo_ofFn, hz]; simp
  rw [if_pos hl] at h
  simp only at h
  unfold Saq.rescoreDist
  split_ifs at h ⊢ with h1
  · rw [sub_zero]; exact Except.ok.inj h
  · exact Except.ok.inj h

section
variable {S D : Type} [LinearOrder D]

/-- **C138.**  For a trained SAQ quantiser, every query (of any length) and every legal code, the
distance is the cosine distance between the query, cut or padded with zeros, and the decoded
vector. -/
theorem C138_saq_distance (env : SaqEnv ℝ S D) (q : Saq ℝ S) (dim : Nat) (sc : S)
    (bounds : List (Nat × Nat)) (hq : Saq.Ready q dim sc bounds) (query : List ℝ) (code : List Nat)
    (hc : Saq.RowCodesOk q.books [code]) (z : List ℝ)
    (hi : env.inverse sc [decodeRow q.books code] = .ok [z]) (hz : z.length = dim) :
    q.dequantize env [code] = .ok [z] ∧
      q.computeDistance env query code = .ok (cosDist dim query z) ∧
      0 ≤ cosDist dim query z ∧ cosDist dim query z ≤ 2 := by
  have hd : q.dequantize env [code] = .ok [z] := C55_decode env q dim sc bounds hq [code] hc [z] hi
  refine ⟨hd, ?_, ?_, ?_⟩
  · unfold Saq.computeDistance
    rw [if_neg (by simp [hq.inited, hq.trained])]
    simp only [hq.hdim, hd]
    exact cosineGap_eq dim query z hz
  · unfold cosDist
    linarith [Real.cos_le_one (InnerProductGeometry.angle (pt fun i : Fin dim => query.getD i 0)
      (pt fun i : Fin dim => z.getD i 0))]
  · unfold cosDist
    linarith [Real.neg_one_le_cos (InnerProductGeometry.angle
      (pt fun i : Fin dim => query.getD i 0) (pt fun i : Fin dim => z.getD i 0))]

/-- The inverse transform keeps the shape. -/
def InverseOk (env : SaqEnv ℝ S D) (sc : S) : Prop :=
  ∀ w X, Rect w X → ∃ Y, env.inverse sc X = .ok Y ∧ Rect w Y ∧ Y.length = X.length

/-- **C139, what holds.**  After training on `X`, searching with any legal codes, at most as many as
there are training vectors and at most `rescore_top_k`: the answer consists of the exact `k` nearest
among the *training vectors* with these numbers, with their cosine distances.  So when the codes are
those of `X` itself the answer is exact. -/
theorem C139_saq_search_partial {env : SaqEnv ℝ S D} (hk : Saq.KmeansOk env) (hT : Saq.ScalerOk env)
    (hw : ∀ t p b w, env.want t p b = .ok w → w.length = b.length) (q q' : Saq ℝ S) (dim : Nat)
    (X : List (List ℝ)) (hn : 1 ≤ q.nSegments) (hd : 1 ≤ dim) (hX : Rect dim X)
    (h : Saq.train env q (.mat dim X) = (.ok (), q')) (hI : ∀ sc, InverseOk env sc)
    (argsort : List ℝ → List Nat) (ha : IsArgsort argsort) (query : List ℝ)
    (codes : List (List Nat)) (hc : Saq.RowCodesOk q'.books codes) (hl : codes.length ≤ X.length)
    (hr : (codes.length : Int) ≤ q.rescoreTopK) (k : Nat) :
    ∃ hits, q'.search argsort env query codes (k : Int) = .ok hits ∧
      IsTopIdx (fun i => X[i]?.map (cosDist dim query)) (List.range codes.length) k hits := by
  obtain ⟨sc, bounds, hq⟩ := Saq.train_ready hk hT q q' dim X hn hd hX hw h
  obtain ⟨_, _, _, -, -, ⟨-, _, -, hq'⟩, -⟩ := Saq.train_inv env q q' dim X h
  have hfull : q'.full = some X := by rw [hq']
  have htop : q'.rescoreTopK = q.rescoreTopK := by rw [hq']
  obtain ⟨r, hr'⟩ : ∃ r : Nat, q.rescoreTopK = r := ⟨q.rescoreTopK.toNat, by omega⟩
  have hcd : ∀ c ∈ codes, ∃ d, q'.computeDistance env query c = .ok d := by
    intro c hc'
    have hc1 : Saq.RowCodesOk q'.books [c] := by
      intro x hx; rw [List.mem_singleton.1 hx]; exact hc c hc'
    have hwd : (decodeRow q'.books c).length = dim := by
      have hf := Saq.rowCodes_fits hq.len hq.segs.cents c (hc c hc')
      have ht := hq.segs.tiles
      rw [List.map_fst_zip (by have := hq.len; omega)] at ht
      have := Saq.fits_length ht hf
      simpa [decodeRow] using this
    obtain ⟨Y, e1, e2, e3⟩ := hI sc dim [decodeRow q'.books c] (by
      intro x hx; rw [List.mem_singleton.1 hx]; exact hwd)
    obtain ⟨z, rfl⟩ := List.length_eq_one_iff.1 e3
    exact ⟨_, (C138_saq_distance env q' dim sc bounds hq query c hc1 z e1
      (e2 z (by simp))).2.1⟩
  obtain ⟨cands, hits, g1, -, -, -, -, g6⟩ := C56_rescoring argsort ha
    (q'.computeDistance env query) (Saq.rescoreDist (fitTo dim query)) X codes hcd hl r k
  have g7 := g6 (by omega)
  refine ⟨hits, ?_, ?_⟩
  · unfold Saq.search
    rw [hfull, htop, hr', hq.hdim]
    exact g1
  · have e : (fun i : Nat => X[i]?.map (Saq.rescoreDist (fitTo dim query)))
        = fun i : Nat => X[i]?.map (cosDist dim query) := by
      funext i
      rcases hx : X[i]? with _ | x
      · rfl
      · simp only [Option.map_some]
        rw [rescoreDist_eq dim query x (hX x (List.mem_of_getElem? hx))]
    rw [← e]
    exact g7

end

/-! The example: one dimension, one segment. -/

/-- A scaler that changes nothing, KMeans that takes the first vectors, codes that are all 0. -/
noncomputable def exRsEnv : SaqEnv ℝ Unit Nat where
  fit _ := .ok ()
  transform _ X := .ok X
  inverse _ X := .ok X
  zero := 0
  cost _ c _ _ := c
  want _ _ b := .ok (b.map fun _ => 1)
  kmeans k X := if X.take k = [] then .error .value else .ok (X.take k)
  pick _ _ := .ok 0
  mix v _ := v

noncomputable def exRsArgsort (l : List ℝ) : List Nat :=
  (List.range l.length).insertionSort (fun i j => l[i]?.getD 0 ≤ l[j]?.getD 0)

theorem exRsArgsort_ok : IsArgsort exRsArgsort := by
  intro l
  refine ⟨List.perm_insertionSort _ _, ?_⟩
  have h := @List.pairwise_insertionSort _ (fun i j : Nat => l[i]?.getD 0 ≤ l[j]?.getD 0) _
    ⟨fun a b => le_total _ _⟩ ⟨fun a b c => le_trans⟩ (List.range l.length)
  refine h.imp ?_
  intro i j hij a b ha hb
  simpa [ha, hb] using hij

noncomputable def exRs : Saq ℝ Unit :=
  ⟨8, 1, 0, 100, true, false, none, none, none, none, none, []⟩

theorem exRs_train : ∃ q', Saq.train exRsEnv exRs (.mat 1 [[1], [-1]]) = (.ok (), q') ∧
    q'.books = [[[1], [-1]]] ∧ q'.quantize exRsEnv [[-1], [1]] = .ok [[0], [0]] := by
  refine ⟨_, rfl, ?_, ?_⟩
  · rfl
  · rfl

theorem exRs_kmeans : Saq.KmeansOk exRsEnv := by
  intro k w rows cents hr h
  simp only [exRsEnv] at h
  split_ifs at h with h0
  obtain rfl := Except.ok.inj h
  exact ⟨h0, fun c hc => hr c (List.mem_of_mem_take hc)⟩

theorem exRs_scaler : Saq.ScalerOk exRsEnv := by
  intro sc w X Y hX h
  obtain rfl := Except.ok.inj h
  exact ⟨hX, rfl⟩

theorem exRs_want : ∀ t p b w, exRsEnv.want t p b = .ok w → w.length = b.length := by
  intro t p b w h
  obtain rfl := Except.ok.inj h
  simp

theorem exRs_inverse (sc : Unit) : InverseOk exRsEnv sc := fun _ X hX => ⟨X, rfl, hX, rfl⟩

theorem cosDist_one (x y : ℝ) : cosDist 1 [x] [y] = 1 - x * y / (|x| * |y|) := by
  unfold cosDist
  rw [InnerProductGeometry.cos_angle, ← normR_ofFn, ← normR_ofFn]
  have h := dotE_ofFn (n := 1) (fun i : Fin 1 => [x].getD i 0) (fun i : Fin 1 => [y].getD i 0)
  have e : ∀ z : ℝ, (List.ofFn fun i : Fin 1 => [z].getD i 0) = [z] := by intro z; simp
  rw [e, e] at h ⊢
  unfold dotE at h
  rw [if_pos (by simp)] at h
  rw [← Except.ok.inj h]
  simp [normR, Real.sqrt_sq_eq_abs]

/-- **C139, refuted in general.**  Searching the codes of other vectors than those trained on does
not give the nearest of these vectors, even when `rescore_top_k` covers them all: the candidates are
ranked by the training vectors with the same numbers. -/
theorem C139_saq_search_refuted :
    ¬ ∀ (env : SaqEnv ℝ Unit Nat) (q q' : Saq ℝ Unit) (dim : Nat) (X Y : List (List ℝ))
      (codes : List (List Nat)) (argsort : List ℝ → List Nat) (query : List ℝ) (k : Nat)
      (hits : List (Nat × ℝ)),
      Saq.KmeansOk env → Saq.ScalerOk env → (∀ sc, InverseOk env sc) → IsArgsort argsort →
      Rect dim X → Rect dim Y → Y.length = X.length → (Y.length : Int) ≤ q.rescoreTopK →
      Saq.train env q (.mat dim X) = (.ok (), q') → q'.quantize env Y = .ok codes →
      q'.search argsort env query codes (k : Int) = .ok hits →
      IsTopIdx (fun i => Y[i]?.map (cosDist dim query)) (List.range Y.length) k hits := by
  intro h
  obtain ⟨q', h1, h2, h3⟩ := exRs_train
  have hR1 : Rect 1 [[(1 : ℝ)], [-1]] := by intro r hr; simp at hr; rcases hr with rfl | rfl <;> rfl
  have hR2 : Rect 1 [[(-1 : ℝ)], [1]] := by intro r hr; simp at hr; rcases hr with rfl | rfl <;> rfl
  have hc : Saq.RowCodesOk q'.books [[0], [0]] := by
    rw [h2]
    intro r hr
    have : r = [0] := by simpa using hr
    subst this
    exact List.Forall₂.cons (by simp) List.Forall₂.nil
  obtain ⟨hits, g1, g2⟩ := C139_saq_search_partial exRs_kmeans exRs_scaler exRs_want exRs q' 1
    [[1], [-1]] (by decide) (by decide) hR1 h1 exRs_inverse exRsArgsort exRsArgsort_ok [1]
    [[0], [0]] hc (by simp) (by simp [exRs]) 1
  have g3 := h exRsEnv exRs q' 1 [[1], [-1]] [[-1], [1]] [[0], [0]] exRsArgsort [1] 1 hits exRs_kmeans
    exRs_scaler exRs_inverse exRsArgsort_ok hR1 hR2 rfl (by simp [exRs]) h1 h3 g1
  have hlen := g2.length
  obtain ⟨⟨i, d⟩, rfl⟩ := List.length_eq_one_iff.1 (by simpa using hlen)
  have d0 : cosDist 1 [1] [1] = 0 := by rw [cosDist_one]; norm_num
  have d1 : cosDist 1 [1] [-1] = 2 := by rw [cosDist_one]; norm_num
  obtain ⟨s1, s2⟩ := g2.sound (i, d) (by simp)
  obtain ⟨-, s3⟩ := g3.sound (i, d) (by simp)
  have hi : i = 0 ∨ i = 1 := by simp at s1; omega
  rcases hi with rfl | rfl
  · simp at s2 s3
    rw [d0] at s2; rw [d1] at s3
    rw [← s2] at s3; norm_num at s3
  · simp at s2 s3
    rw [d1] at s2; rw [d0] at s3
    rw [← s2] at s3; norm_num at s3

/-- The hypotheses of C138 and C139 are met by the example. -/
example : ∃ q' sc bounds, Saq.train exRsEnv exRs (.mat 1 [[1], [-1]]) = (.ok (), q') ∧
    Saq.Ready q' 1 sc bounds := by
  obtain ⟨q', h1, -, -⟩ := exRs_train
  obtain ⟨sc, b, h⟩ := Saq.train_ready exRs_kmeans exRs_scaler exRs q' 1 [[1], [-1]] (by decide)
    (by decide) (by intro r hr; simp at hr; rcases hr with rfl | rfl <;> rfl) exRs_want h1
  exact ⟨q', sc, b, h1, h⟩

end Valori.Props
