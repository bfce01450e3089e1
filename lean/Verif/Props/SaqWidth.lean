import Verif.Model.SaqWidth
import Verif.Props.Saq

/-!
# C250: SAQ codes with another number of columns
-/

namespace Valori.Props
open Valori Valori.Saq
open Valori.Spec (Tiles decodeRow)

variable {F S D : Type} [Field F] [LinearOrder F] [IsStrictOrderedRing F] [LinearOrder D]

/-- Segments of one dimension each, from dimension `a` on. -/
def SegUnits (a : Nat) : List ((Nat × Nat) × List (List F)) → Prop
  | [] => True
  | s :: rest => s.1 = (a, a + 1) ∧ (∀ c ∈ s.2, c.length = 1) ∧ SegUnits (a + 1) rest

theorem decodeSplit_units (w : Nat) (us rest : List ((Nat × Nat) × List (List F))) (codes : List (List Nat)) :
    ∀ (a k : Nat) (P : List Nat → List F), SegUnits a us → (∀ r ∈ codes, r.length = w) → a + us.length ≤ w →
      (∀ r ∈ codes, ∀ j, ∀ h : j < us.length, r.getD (a + j) 0 < us[j].2.length) → (∀ r ∈ codes, (P r).length = a) →
      decodeSplit w (us ++ rest) codes (codes.map fun r => P r ++ List.replicate (us.length + k) 0) =
      decodeSplit w rest codes (codes.map fun r => P r ++ decodeRow (us.map Prod.snd) (r.drop a) ++ List.replicate k 0) := by
  induction us with
  | nil =>
    intro a k P _ _ _ _ _
    simp [decodeRow]
  | cons u us ih =>
    obtain ⟨b, cents⟩ := u
    intro a k P hu hl hw hc hP
    obtain ⟨rfl, hone, hu'⟩ : b = (a, a + 1) ∧ (∀ c ∈ cents, c.length = 1) ∧ SegUnits (a + 1) us := hu
    simp only [List.length_cons] at hw
    have hm : min (a + 1) w - a = 1 := by omega
    have hlt : ∀ r ∈ codes, r.getD a 0 < cents.length := fun r hr =>
      hc r hr 0 (Nat.zero_lt_succ _)
    have hhead : ∀ r ∈ codes, (slice r a (a + 1)).headD 0 = r.getD a 0 := by
      intro r hr
      have := hl r hr
      have h1 : a < r.length := by omega
      have : slice r a (a + 1) = [r[a]] := by
        unfold slice
        rw [List.take_add_one, List.getElem?_eq_getElem h1, List.drop_left' (by simp; omega)]
        rfl
      rw [this]
      simp [List.getElem?_eq_getElem h1]
    have hmap : (codes.map fun r => (slice r a (a + 1)).headD 0) = codes.map fun r => r.getD a 0 :=
      List.map_congr_left hhead
    rw [List.cons_append]
    simp only [decodeSplit, hm, hmap]
    rw [if_neg (by decide), if_pos trivial, segDequantize_ok cents _ (by
      intro x hx
      obtain ⟨r, hr, rfl⟩ := List.mem_map.1 hx
      exact hlt r hr), List.map_map]
    have hlen : ∀ r ∈ codes, (cents.getD (r.getD a 0) []).length = 1 := fun r hr => by
      rw [List.getD_eq_getElem?_getD, List.getElem?_eq_getElem (hlt r hr)]
      exact hone _ (List.getElem_mem _)
    have hblock : setBlock (a, a + 1) (codes.map fun r => P r ++ List.replicate (us.length + 1 + k) (0 : F))
        (codes.map ((fun c => cents.getD c []) ∘ fun r => r.getD a 0)) =
        .ok (codes.map fun r => (P r ++ cents.getD (r.getD a 0) []) ++ List.replicate (us.length + k) 0) := by
      apply setBlock_ok
      intro r hr
      have e : P r ++ List.replicate (us.length + 1 + k) (0 : F) = P r ++ [0] ++ List.replicate (us.length + k) 0 := by
        rw [List.append_assoc]
        congr 1
        rw [show us.length + 1 + k = (us.length + k) + 1 by omega, List.replicate_succ]
        rfl
      rw [e]
      exact setSlice_mid (P r) [0] _ _ a (a + 1) (hP r hr) (by simp) (by omega)
        (by simpa using hlen r hr)
    dsimp only
    rw [List.length_cons, hblock]
    dsimp only
    rw [ih (a + 1) k (fun r => P r ++ cents.getD (r.getD a 0) []) hu' hl (by omega) ?_ ?_]
    · congr 1
      apply List.map_congr_left
      intro r hr
      have h1 : a < r.length := by have := hl r hr; omega
      have e : decodeRow ((((a, a + 1), cents) :: us).map Prod.snd) (r.drop a) =
          cents.getD (r.getD a 0) [] ++ decodeRow (us.map Prod.snd) (r.drop (a + 1)) := by
        rw [List.drop_eq_getElem_cons h1, List.getD_eq_getElem?_getD (l := r), List.getElem?_eq_getElem h1]
        rfl
      rw [e]
      simp only [List.append_assoc]
    · intro r hr j hj
      have := hc r hr (j + 1) (by simpa using hj)
      simpa [Nat.add_assoc, Nat.add_comm, Nat.add_left_comm] using this
    · intro r hr
      simp [hP r hr]
      simpa using hlen r hr

omit [Field F] [LinearOrder F] [IsStrictOrderedRing F] in
theorem tiles_starts {a b : Nat} {l : List (Nat × Nat)} (h : Tiles a b l) : ∀ x ∈ l, a ≤ x.1 := by
  induction l generalizing a with
  | nil => intro x hx; cases hx
  | cons y l ih =>
    obtain ⟨s, e⟩ := y
    obtain ⟨rfl, h1, h2⟩ := h
    intro x hx
    rcases List.mem_cons.1 hx with rfl | hx
    · exact Nat.le_refl _
    · exact Nat.le_trans (Nat.le_of_lt h1) (ih h2 x hx)

omit [IsStrictOrderedRing F] in
theorem decodeSplit_skip (w : Nat) (segs : List ((Nat × Nat) × List (List F))) (codes : List (List Nat)) (recon : List (List F))
    (h : ∀ s ∈ segs, w ≤ s.1.1) : decodeSplit w segs codes recon = .ok recon := by
  induction segs with
  | nil => rfl
  | cons s segs ih =>
    obtain ⟨b, cents⟩ := s
    have := h (b, cents) List.mem_cons_self
    simp only [decodeSplit]
    rw [if_pos (by simp only at this; omega)]
    exact ih fun s hs => h s (List.mem_cons_of_mem _ hs)

omit [IsStrictOrderedRing F] in
theorem decodeSplit_ok_narrow (w : Nat) (segs : List ((Nat × Nat) × List (List F))) (codes : List (List Nat)) :
    ∀ recon out, decodeSplit w segs codes recon = .ok out → ∀ s ∈ segs, min s.1.2 w - s.1.1 ≤ 1 := by
  induction segs with
  | nil => intro _ _ _ s hs; cases hs
  | cons x segs ih =>
    obtain ⟨b, cents⟩ := x
    intro recon out h
    simp only [decodeSplit] at h
    have step : min b.2 w - b.1 ≤ 1 ∧ ∃ r, decodeSplit w segs codes r = .ok out := by
      split at h
      · exact ⟨by omega, recon, h⟩
      split at h
      · refine ⟨by omega, ?_⟩
        split at h
        · cases h
        split at h
        · cases h
        · exact ⟨_, h⟩
      · cases h
    intro s hs
    rcases List.mem_cons.1 hs with rfl | hs
    · exact step.1
    · obtain ⟨r, hr⟩ := step.2
      exact ih r out hr s hs

theorem tiles_narrow {w a b : Nat} {l : List (Nat × Nat)} (h : Tiles a b l) (hn : ∀ x ∈ l, min x.2 w - x.1 ≤ 1) :
    min b w - a ≤ l.length := by
  induction l generalizing a with
  | nil => obtain rfl : a = b := h; simp
  | cons y l ih =>
    obtain ⟨s, e⟩ := y
    obtain ⟨rfl, h1, h2⟩ := h
    have := ih h2 fun x hx => hn x (List.mem_cons_of_mem _ hx)
    have h3 : min e w - s ≤ 1 := hn (s, e) List.mem_cons_self
    simp only [List.length_cons]
    omega

/-- The units at the front of a ready quantiser. -/
theorem ready_units {segs : List ((Nat × Nat) × List (List F))} :
    ∀ {a k : Nat}, (segs.map Prod.fst).take k = (List.range k).map (fun j => (a + j, a + j + 1)) →
      (∀ s ∈ segs, s.2 ≠ [] ∧ ∀ c ∈ s.2, c.length = s.1.2 - s.1.1) → SegUnits a (segs.take k) := by
  induction segs with
  | nil => intro a k _ _; rw [List.take_nil]; exact trivial
  | cons s segs ih =>
    intro a k h hc
    cases k with
    | zero => exact trivial
    | succ k =>
      rw [List.map_cons, List.take_succ_cons, List.range_succ_eq_map, List.map_cons, List.map_map] at h
      injection h with h1 h2
      refine ⟨h1, ?_, ?_⟩
      · intro c hcm
        rw [(hc s List.mem_cons_self).2 c hcm, h1]
        simp
      · refine ih ?_ fun s hs => hc s (List.mem_cons_of_mem _ hs)
        rw [h2]
        apply List.map_congr_left
        intro j _
        simp only [Function.comp_apply, Nat.succ_eq_add_one, Prod.mk.injEq]
        omega

theorem tiles_drop {a b : Nat} {l : List (Nat × Nat)} (k : Nat) (h : Tiles a b l) (hk : k ≤ l.length)
    (hu : l.take k = (List.range k).map (fun j => (a + j, a + j + 1))) : Tiles (a + k) b (l.drop k) := by
  induction k generalizing a l with
  | zero => exact h
  | succ k ih =>
    cases l with
    | nil => simp at hk
    | cons y l =>
      obtain ⟨s, e⟩ := y
      obtain ⟨rfl, -, h2⟩ := h
      rw [List.take_succ_cons, List.range_succ_eq_map, List.map_cons, List.map_map] at hu
      injection hu with h1 h3
      obtain rfl : e = s + 1 := by simpa using congrArg Prod.snd h1
      rw [List.drop_succ_cons, show s + (k + 1) = s + 1 + k by omega]
      refine ih h2 (by simpa using hk) ?_
      rw [h3]
      apply List.map_congr_left
      intro j _
      simp only [Function.comp_apply, Nat.succ_eq_add_one, Prod.mk.injEq]
      omega

/-- **C250**, the right number of columns: legal codes decode to the named centroids. -/
theorem C250_right_width (env : SaqEnv F S D) (q : Saq F S) (dim : Nat) (sc : S) (bounds : List (Nat × Nat))
    (hq : Ready q dim sc bounds) (codes : List (List Nat)) (hc : RowCodesOk q.books codes) :
    dequantizeAny env q q.books.length codes = match env.inverse sc (codes.map (decodeRow q.books)) with
      | .error _ => .error .quantization
      | .ok out => .ok out := by
  unfold dequantizeAny
  rw [if_neg (by simp [hq.inited, hq.trained]), if_pos rfl]
  exact dequantize_eq env q dim sc bounds hq codes hc

/-- **C250**, too many columns, on data with more dimensions than segments: refused.  Missing: as many segments as dimensions, and
too few columns, see `C250_long_refuted` and `C250_short_refuted`. -/
theorem C250_long_partial (env : SaqEnv F S D) (q : Saq F S) (dim : Nat) (sc : S) (bounds : List (Nat × Nat))
    (hq : Ready q dim sc bounds) (hd : bounds.length < dim) (w : Nat) (hw : bounds.length < w) (codes : List (List Nat)) :
    dequantizeAny env q w codes = .error .quantization := by
  unfold dequantizeAny
  have hl := hq.len
  rw [if_neg (by simp [hq.inited, hq.trained]), if_neg (by omega), hq.hsc, hq.hbounds, hq.hdim]
  dsimp only
  cases h : decodeSplit w (bounds.zip q.books) codes (codes.map fun _ => List.replicate dim 0) with
  | error e => rfl
  | ok out =>
    exfalso
    have h1 := decodeSplit_ok_narrow w _ codes _ out h
    have h2 := tiles_narrow (w := w) hq.segs.tiles (by
      intro x hx
      obtain ⟨s, hs, rfl⟩ := List.mem_map.1 hx
      exact h1 s hs)
    rw [List.length_map, List.length_zip] at h2
    omega

/-- **C250 (refuted)**, too few columns: whenever the segments of the first `w` codes are single dimensions, which in exact arithmetic they are after every
training (C89), codes cut off after `w` columns are not refused: the missing part is decoded as zeros (in
normalised space, that is as the mean of the training data). -/
theorem C250_short_refuted (env : SaqEnv F S D) (q : Saq F S) (dim : Nat) (sc : S) (bounds : List (Nat × Nat))
    (hq : Ready q dim sc bounds) (w : Nat) (hw : w < bounds.length)
    (hu : bounds.take w = (List.range w).map (fun j => (j, j + 1))) (codes : List (List Nat))
    (hc : RowCodesOk (q.books.take w) codes) :
    dequantizeAny env q w codes =
      match env.inverse sc (codes.map fun r => decodeRow (q.books.take w) r ++ List.replicate (dim - w) 0) with
      | .error _ => .error .quantization
      | .ok out => .ok out := by
  have hl := hq.len
  have hfst : (bounds.zip q.books).map Prod.fst = bounds := List.map_fst_zip (by omega)
  have hsnd : (bounds.zip q.books).map Prod.snd = q.books := List.map_snd_zip (by omega)
  have hu0 : bounds.take w = (List.range w).map (fun j => (0 + j, 0 + j + 1)) := by simpa using hu
  have hunits := ready_units (segs := bounds.zip q.books) (a := 0) (k := w) (by rw [hfst, hu0]) hq.segs.cents
  have htiles := hq.segs.tiles
  rw [hfst] at htiles
  have hdrop := tiles_drop w htiles (by omega) hu0
  have hwd : w ≤ dim := by
    have := Saq.tiles_le hdrop
    omega
  have hlen : ((bounds.zip q.books).take w).length = w := by
    rw [List.length_take, List.length_zip]; omega
  have hrl : ∀ r ∈ codes, r.length = w := fun r hr => by
    have := (hc r hr).length_eq
    rw [List.length_take] at this; omega
  have key : decodeSplit w (bounds.zip q.books) codes (codes.map fun _ => List.replicate dim 0) =
      .ok (codes.map fun r => decodeRow (q.books.take w) r ++ List.replicate (dim - w) 0) := by
    have h1 := decodeSplit_units w ((bounds.zip q.books).take w) ((bounds.zip q.books).drop w) codes 0 (dim - w) (fun _ => [])
      hunits hrl (by omega) (by
        intro r hr j hj
        have h := List.forall₂_iff_get.1 (hc r hr)
        rw [hlen] at hj
        have hjr : j < r.length := by rw [hrl r hr]; exact hj
        have h2 := h.2 j (by rw [List.length_take]; omega) hjr
        rw [Nat.zero_add, List.getD_eq_getElem?_getD, List.getElem?_eq_getElem hjr]
        simpa using h2) (fun _ _ => rfl)
    rw [hlen, List.take_append_drop, show w + (dim - w) = dim by omega] at h1
    simp only [List.nil_append, List.drop_zero] at h1
    rw [h1, decodeSplit_skip, List.map_take, hsnd]
    intro s hs
    have : s.1 ∈ bounds.drop w := by
      rw [← hfst, ← List.map_drop]
      exact List.mem_map_of_mem hs
    have := tiles_starts hdrop _ this
    omega
  unfold dequantizeAny
  rw [if_neg (by simp [hq.inited, hq.trained]), if_neg (by omega), hq.hsc, hq.hbounds, hq.hdim]
  dsimp only
  rw [key]
  rfl

theorem zipWith_take_right {α β γ : Type} (f : α → β → γ) (l : List α) (r : List β) :
    List.zipWith f l r = List.zipWith f l (r.take l.length) := by
  induction l generalizing r with
  | nil => rfl
  | cons a l ih =>
    cases r with
    | nil => rfl
    | cons b r => simp only [List.length_cons, List.take_succ_cons, List.zipWith_cons_cons, ← ih]

/-- **C250 (refuted)**, too many columns, as many segments as dimensions: what is beyond the segments is ignored, whatever it is. -/
theorem C250_long_refuted (env : SaqEnv F S D) (q : Saq F S) (dim : Nat) (sc : S) (bounds : List (Nat × Nat))
    (hq : Ready q dim sc bounds) (hu : bounds = (List.range dim).map (fun j => (j, j + 1))) (w : Nat) (hw : dim < w)
    (codes : List (List Nat)) (hl : ∀ r ∈ codes, r.length = w) (hc : RowCodesOk q.books (codes.map (List.take dim))) :
    dequantizeAny env q w codes = dequantizeAny env q dim (codes.map (List.take dim)) := by
  have hbl : bounds.length = dim := by rw [hu]; simp
  have hlen := hq.len
  have hfst : (bounds.zip q.books).map Prod.fst = bounds := List.map_fst_zip (by omega)
  have hsnd : (bounds.zip q.books).map Prod.snd = q.books := List.map_snd_zip (by omega)
  have hzl : (bounds.zip q.books).length = dim := by rw [List.length_zip]; omega
  have hunits := ready_units (segs := bounds.zip q.books) (a := 0) (k := dim)
    (by rw [hfst, List.take_of_length_le (by omega)]; simpa using hu) hq.segs.cents
  rw [List.take_of_length_le (by omega)] at hunits
  have h1 := decodeSplit_units w (bounds.zip q.books) [] codes 0 0 (fun _ => []) hunits hl (by omega) (by
    intro r hr j hj
    have h := List.forall₂_iff_get.1 (hc _ (List.mem_map_of_mem hr))
    rw [hzl] at hj
    have hjr : j < r.length := by rw [hl r hr]; omega
    have h2 := h.2 j (by omega) (by rw [List.length_take]; omega)
    rw [Nat.zero_add, List.getD_eq_getElem?_getD, List.getElem?_eq_getElem hjr]
    simpa using h2) (fun _ _ => rfl)
  have hdr : codes.map (fun r => decodeRow q.books r) = (codes.map (List.take dim)).map (decodeRow q.books) := by
    rw [List.map_map]
    apply List.map_congr_left
    intro r _
    simp only [Function.comp_apply, decodeRow]
    rw [zipWith_take_right _ q.books r, hlen, hbl]
  rw [show (dequantizeAny env q dim (codes.map (List.take dim))) = dequantizeAny env q q.books.length (codes.map (List.take dim)) by
    rw [hlen, hbl], C250_right_width env q dim sc bounds hq _ hc]
  unfold dequantizeAny
  rw [if_neg (by simp [hq.inited, hq.trained]), if_neg (by omega), hq.hsc, hq.hbounds, hq.hdim]
  simp only [List.append_nil, hzl, Nat.add_zero, List.nil_append, List.drop_zero, hsnd, List.replicate_zero, decodeSplit, hdr] at h1
  dsimp only
  rw [h1]
  rfl

-- the example quantiser (segments [0,1) and [1,3)): one column is taken for a code, three are refused
example : dequantizeAny (exSaqEnv 3) exSaqTrained 1 [[1]] = .ok [[3, 0, 0]] ∧
    dequantizeAny (exSaqEnv 3) exSaqTrained 2 [[1, 1]] = .ok [[3, 1, 0]] ∧
    dequantizeAny (exSaqEnv 3) exSaqTrained 3 [[1, 1, 0]] = .error .quantization := by decide +kernel

example : (∃ sc bounds, Ready exSaqTrained 3 sc bounds) ∧ exSaqTrained.bounds = some [(0, 1), (1, 3)] ∧
    ([(0, 1), (1, 3)] : List (Nat × Nat)).take 1 = (List.range 1).map (fun j => (j, j + 1)) :=
  ⟨C55_train_ready (exSaq_kmeans 3) (exSaq_scaler 3) (exSaq_want 3) exSaq _ 3 exSaqData (by decide) (by decide) exSaq_rect exSaq_train,
    by decide +kernel, by decide⟩

/-- Two segments on data with two dimensions. -/
def exSaqSquare : Saq ℚ Unit := (Saq.train (exSaqEnv 2) exSaq (.mat 2 [[1, 0], [3, 1], [0, 2], [1, 1]])).2

example : ∃ sc bounds, Ready exSaqSquare 2 sc bounds :=
  C55_train_ready (exSaq_kmeans 2) (exSaq_scaler 2) (exSaq_want 2) exSaq _ 2 [[1, 0], [3, 1], [0, 2], [1, 1]] (by decide)
    (by decide) (by unfold Valori.Spec.Rect; decide) (by decide +kernel)

-- a third column is ignored, also if it names no centroid
example : exSaqSquare.bounds = some [(0, 1), (1, 2)] ∧
    dequantizeAny (exSaqEnv 2) exSaqSquare 3 [[1, 1, 99]] = .ok [[3, 1]] ∧
    dequantizeAny (exSaqEnv 2) exSaqSquare 2 [[1, 1]] = .ok [[3, 1]] ∧
    (∀ b ∈ exSaqSquare.books, 1 < b.length) := by decide +kernel

/-- **C250**, the refusals: decoding codes of any width fails with QuantizationError only, and always does so before training. -/
theorem C250_only_quantization_errors (env : SaqEnv F S D) (q : Saq F S) (w : Nat) (codes : List (List Nat)) :
    (∀ e, q.dequantizeAny env w codes = .error e → e = .quantization) ∧
    (q.inited = false ∨ q.trained = false → q.dequantizeAny env w codes = .error .quantization) := by
  refine ⟨?_, fun h => by unfold dequantizeAny; rw [if_pos h]⟩
  intro e h
  unfold dequantizeAny dequantize at h
  dsimp only at h
  repeat' split at h
  all_goals first
    | (cases h; done)
    | (cases h; rfl)

example : dequantizeAny (exSaqEnv 3) exSaq 5 [[1, 1, 0, 0, 0]] = .error .quantization := by decide +kernel

end Valori.Props
