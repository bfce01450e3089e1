import Verif.Model.Similarity
import Mathlib.Analysis.InnerProductSpace.PiL2
import Mathlib.Geometry.Euclidean.Angle.Unoriented.Basic
import Mathlib.InformationTheory.Hamming

/-!
# The similarity functions on real vectors
-/

namespace Valori
open WithLp

variable {n : Nat}

/-- A vector as a point of Euclidean space. -/
abbrev pt (a : Fin n → ℝ) : EuclideanSpace ℝ (Fin n) := toLp 2 a

theorem zipWith_ofFn {α β γ : Type} (f : α → β → γ) (a : Fin n → α) (b : Fin n → β) :
    List.zipWith f (List.ofFn a) (List.ofFn b) = List.ofFn fun i => f (a i) (b i) := by
  apply List.ext_getElem <;> simp

theorem dotL_ofFn (a b : Fin n → ℝ) : dotL (List.ofFn a) (List.ofFn b) = inner ℝ (pt a) (pt b) := by
  unfold dotL
  rw [zipWith_ofFn, List.sum_ofFn, PiLp.inner_apply]
  refine Finset.sum_congr rfl fun i _ => ?_
  simp [mul_comm]

theorem normL_ofFn (a : Fin n → ℝ) : normL Real.sqrt (List.ofFn a) = ‖pt a‖ := by
  unfold normL
  rw [List.map_ofFn, List.sum_ofFn, EuclideanSpace.norm_eq]
  congr 1
  refine Finset.sum_congr rfl fun i _ => ?_
  simp [sq]

theorem onVecs_ofFn {α β : Type} (f : List α → List α → Except Err β) (a b : Fin n → α) :
    onVecs f (some (List.ofFn a)) (some (List.ofFn b)) = f (List.ofFn a) (List.ofFn b) := by
  simp [onVecs]

theorem clip_cos (x : ℝ) : clipTo (-1) 1 (Real.cos x) = Real.cos x := by
  unfold clipTo
  rw [max_eq_left (Real.neg_one_le_cos x), min_eq_left (Real.cos_le_one x)]

theorem cosineSim_ofFn (a b : Fin n → ℝ) :
    cosineSim Real.sqrt (some (List.ofFn a)) (some (List.ofFn b)) =
      .ok (Real.cos (InnerProductGeometry.angle (pt a) (pt b))) := by
  unfold cosineSim
  rw [onVecs_ofFn]
  simp only [dotL_ofFn, normL_ofFn]
  split_ifs with h
  · rw [InnerProductGeometry.cos_angle]
    rcases h with h | h <;> simp [h]
  · rw [← InnerProductGeometry.cos_angle, clip_cos]

theorem euclidDist_ofFn (a b : Fin n → ℝ) :
    euclidDist Real.sqrt (some (List.ofFn a)) (some (List.ofFn b)) = .ok (dist (pt a) (pt b)) := by
  unfold euclidDist
  rw [onVecs_ofFn, zipWith_ofFn, normL_ofFn, dist_eq_norm]
  rfl

theorem euclidSq_ofFn (a b : Fin n → ℝ) :
    euclidSq (some (List.ofFn a)) (some (List.ofFn b)) = .ok (dist (pt a) (pt b) ^ 2) := by
  unfold euclidSq
  rw [onVecs_ofFn, zipWith_ofFn]
  simp only
  rw [dotL_ofFn, real_inner_self_eq_norm_sq, dist_eq_norm]
  rfl

theorem manhattan_ofFn (a b : Fin n → ℝ) :
    manhattan (some (List.ofFn a)) (some (List.ofFn b)) =
      .ok (dist (toLp 1 a : PiLp 1 fun _ : Fin n => ℝ) (toLp 1 b)) := by
  unfold manhattan
  rw [onVecs_ofFn, zipWith_ofFn, List.map_ofFn, List.sum_ofFn, PiLp.dist_eq_of_L1]
  simp [Real.dist_eq]

theorem foldl_max_le (l : List ℝ) (x b : ℝ) : l.foldl max x ≤ b ↔ x ≤ b ∧ ∀ y ∈ l, y ≤ b := by
  induction l generalizing x with
  | nil => simp
  | cons y l ih => rw [List.foldl_cons, ih]; simp [and_assoc]

theorem maxL_abs (a : Fin n → ℝ) (hn : 0 < n) :
    maxL ((List.ofFn a).map fun x => |x|) = .ok ‖a‖ := by
  rw [List.map_ofFn]
  cases h : List.ofFn ((fun x => |x|) ∘ a) with
  | nil => rw [List.ofFn_eq_nil_iff] at h; omega
  | cons x xs =>
    unfold maxL
    simp only [Except.ok.injEq]
    apply le_antisymm
    · rw [foldl_max_le]
      have key : ∀ y ∈ x :: xs, y ≤ ‖a‖ := by
        rw [← h]
        intro y hy
        obtain ⟨i, rfl⟩ := (List.mem_ofFn).1 hy
        exact norm_le_pi_norm a i
      exact ⟨key x (by simp), fun y hy => key y (by simp [hy])⟩
    · have hle := (foldl_max_le xs x (xs.foldl max x)).1 le_rfl
      have h0 : ∀ i, |a i| ≤ xs.foldl max x := by
        intro i
        have : |a i| ∈ x :: xs := by rw [← h]; exact (List.mem_ofFn).2 ⟨i, rfl⟩
        rcases List.mem_cons.1 this with e | e
        · rw [e]; exact hle.1
        · exact hle.2 _ e
      exact (pi_norm_le_iff_of_nonneg ((abs_nonneg _).trans (h0 ⟨0, hn⟩))).2 h0

theorem chebyshev_ofFn (a b : Fin n → ℝ) (hn : 0 < n) :
    chebyshev (some (List.ofFn a)) (some (List.ofFn b)) = .ok (dist a b) := by
  unfold chebyshev
  rw [onVecs_ofFn, zipWith_ofFn, maxL_abs _ hn, dist_eq_norm]
  rfl

theorem sum_ite_card (p : Fin n → Prop) [DecidablePred p] :
    (List.ofFn fun i => if p i then 1 else 0).sum = (Finset.univ.filter p).card := by
  rw [List.sum_ofFn, Finset.card_filter]

theorem hammingD_ofFn (a b : Fin n → ℝ) :
    hammingD (some (List.ofFn a)) (some (List.ofFn b)) =
      .ok (hammingDist (fun i => decide (0 < a i)) fun i => decide (0 < b i)) := by
  unfold hammingD
  rw [onVecs_ofFn]
  simp only [List.map_ofFn, zipWith_ofFn, Function.comp_apply]
  rw [sum_ite_card]
  rfl

/-- The positions with a positive entry. -/
noncomputable def posSet (a : Fin n → ℝ) : Finset (Fin n) := Finset.univ.filter fun i => 0 < a i

theorem jaccardSim_ofFn (a b : Fin n → ℝ) :
    jaccardSim (some (List.ofFn a)) (some (List.ofFn b)) =
      .ok (if posSet a ∪ posSet b = ∅ then 1
        else ((posSet a ∩ posSet b).card : ℝ) / ((posSet a ∪ posSet b).card : ℝ)) := by
  unfold jaccardSim
  rw [onVecs_ofFn]
  simp only [List.map_ofFn, zipWith_ofFn, Function.comp_apply, Bool.and_eq_true, Bool.or_eq_true,
    decide_eq_true_eq]
  have h1 : (List.ofFn fun i => if 0 < a i ∧ 0 < b i then 1 else 0).sum = (posSet a ∩ posSet b).card := by
    rw [sum_ite_card, posSet, posSet, Finset.filter_and]
  have h2 : (List.ofFn fun i => if 0 < a i ∨ 0 < b i then 1 else 0).sum = (posSet a ∪ posSet b).card := by
    rw [sum_ite_card, posSet, posSet, Finset.filter_or]
  rw [h1, h2]
  by_cases hu : posSet a ∪ posSet b = ∅
  · have hi : (posSet a ∩ posSet b).card = 0 := by
      rw [Finset.card_eq_zero]
      rw [Finset.union_eq_empty] at hu
      rw [hu.1, Finset.empty_inter]
    rw [if_pos (Finset.card_eq_zero.2 hu), if_pos hu, if_pos hi]
  · rw [if_neg (fun h => hu (Finset.card_eq_zero.1 h)), if_neg hu]

/-- One minus the Jaccard index of two sets, `0` when both are empty. -/
noncomputable def jacSet {α : Type} [DecidableEq α] (A B : Finset α) : ℝ :=
  1 - if A ∪ B = ∅ then 1 else ((A ∩ B).card : ℝ) / ((A ∪ B).card : ℝ)

section
variable {α : Type} [DecidableEq α]

/-- The sum of both differences. -/
noncomputable def sd (A B : Finset α) : ℝ := ((A \ B).card : ℝ) + ((B \ A).card : ℝ)

theorem sd_nonneg (A B : Finset α) : 0 ≤ sd A B := by unfold sd; positivity

theorem sd_comm (A B : Finset α) : sd A B = sd B A := by unfold sd; ring

theorem sd_triangle (A B C : Finset α) : sd A C ≤ sd A B + sd B C := by
  have key : ∀ X Y Z : Finset α, (X \ Z).card ≤ (X \ Y).card + (Y \ Z).card := by
    intro X Y Z
    refine le_trans (Finset.card_le_card ?_) (Finset.card_union_le _ _)
    intro x hx
    simp only [Finset.mem_union, Finset.mem_sdiff] at hx ⊢
    tauto
  have h1 := key A B C
  have h2 := key C B A
  unfold sd
  norm_cast
  omega

theorem sd_empty (A B : Finset α) : (B.card : ℝ) ≤ sd A B + A.card := by
  have : B.card ≤ (B \ A).card + A.card := by
    refine le_trans (Finset.card_le_card ?_) (Finset.card_union_le _ _)
    intro x hx
    simp only [Finset.mem_union, Finset.mem_sdiff]
    tauto
  unfold sd
  norm_cast
  omega

theorem union_card (A B : Finset α) :
    2 * ((A ∪ B).card : ℝ) = A.card + B.card + sd A B ∧
    2 * ((A ∩ B).card : ℝ) = A.card + B.card - sd A B := by
  have h1 := Finset.card_union_add_card_inter A B
  have h2 := Finset.card_sdiff_add_card_inter A B
  have h3 := Finset.card_sdiff_add_card_inter B A
  rw [Finset.inter_comm] at h3
  have h1' : ((A ∪ B).card : ℝ) + (A ∩ B).card = A.card + B.card := by exact_mod_cast h1
  have h2' : ((A \ B).card : ℝ) + (A ∩ B).card = A.card := by exact_mod_cast h2
  have h3' : ((B \ A).card : ℝ) + (A ∩ B).card = B.card := by exact_mod_cast h3
  unfold sd
  constructor <;> linarith

theorem jacSet_eq (A B : Finset α) : jacSet A B = 2 * sd A B / (A.card + B.card + sd A B) := by
  obtain ⟨h1, h2⟩ := union_card A B
  unfold jacSet
  split_ifs with h
  · have hA : A = ∅ := (Finset.union_eq_empty.1 h).1
    have hB : B = ∅ := (Finset.union_eq_empty.1 h).2
    subst hA hB
    simp [sd]
  · have hpos : (0 : ℝ) < (A ∪ B).card := by
      exact_mod_cast Finset.card_pos.2 (Finset.nonempty_iff_ne_empty.2 h)
    rw [← h1, eq_div_iff (by positivity), sub_mul]
    have : ((A ∩ B).card : ℝ) / (A ∪ B).card * (2 * (A ∪ B).card) = 2 * (A ∩ B).card := by
      field_simp
    rw [this]
    linarith

theorem jacSet_nonneg (A B : Finset α) : 0 ≤ jacSet A B := by
  rw [jacSet_eq]
  have := sd_nonneg A B
  positivity

theorem jacSet_comm (A B : Finset α) : jacSet A B = jacSet B A := by
  rw [jacSet_eq, jacSet_eq, sd_comm, add_comm (A.card : ℝ)]

theorem jacSet_le_one (A B : Finset α) : jacSet A B ≤ 1 := by
  unfold jacSet
  split_ifs
  · norm_num
  · have : (0 : ℝ) ≤ ((A ∩ B).card : ℝ) / ((A ∪ B).card : ℝ) := by positivity
    linarith

theorem jacSet_zero (A B : Finset α) : jacSet A B = 0 ↔ A = B := by
  constructor
  · intro h
    rw [jacSet_eq, div_eq_zero_iff] at h
    have hs : sd A B = 0 := by
      rcases h with h | h
      · linarith
      · have := sd_nonneg A B
        have h1 : (0 : ℝ) ≤ A.card := by positivity
        have h2 : (0 : ℝ) ≤ B.card := by positivity
        linarith
    unfold sd at hs
    norm_cast at hs
    have h1 : (A \ B) = ∅ := Finset.card_eq_zero.1 (by omega)
    have h2 : (B \ A) = ∅ := Finset.card_eq_zero.1 (by omega)
    exact Finset.Subset.antisymm (Finset.sdiff_eq_empty_iff_subset.1 h1)
      (Finset.sdiff_eq_empty_iff_subset.1 h2)
  · rintro rfl
    rw [jacSet_eq]
    simp [sd]

/-- The triangle inequality, by the argument of Steinhaus. -/
theorem jacSet_triangle (A B C : Finset α) : jacSet A C ≤ jacSet A B + jacSet B C := by
  by_cases hAC : A = C
  · subst hAC
    rw [(jacSet_zero A A).2 rfl]
    exact add_nonneg (jacSet_nonneg _ _) (jacSet_nonneg _ _)
  have hp0 : 0 < sd A C := by
    rcases (sd_nonneg A C).lt_or_eq with h | h
    · exact h
    · exfalso
      apply hAC
      rw [← jacSet_zero, jacSet_eq, ← h]
      simp
  rw [jacSet_eq, jacSet_eq, jacSet_eq]
  have t := sd_triangle A B C
  have e1 := sd_empty A B
  have e2 := sd_empty C B
  rw [sd_comm C B] at e2
  have n1 := sd_nonneg A B
  have n2 := sd_nonneg B C
  have cA : (0 : ℝ) ≤ A.card := by positivity
  have cB : (0 : ℝ) ≤ B.card := by positivity
  have cC : (0 : ℝ) ≤ C.card := by positivity
  have s1 : 2 * sd A C / (A.card + C.card + sd A C) ≤
      2 * (sd A B + sd B C) / (A.card + C.card + (sd A B + sd B C)) := by
    rw [div_le_div_iff₀ (by linarith) (by linarith)]
    nlinarith
  have s2 : ∀ x d e : ℝ, 0 ≤ x → 0 ≤ e → e ≤ d → 2 * x / d ≤ 2 * x / e ∨ e = 0 := by
    intro x d e hx he hed
    rcases he.lt_or_eq with h | h
    · exact Or.inl (div_le_div_of_nonneg_left (by linarith) h hed)
    · exact Or.inr h.symm
  have s3 : 2 * sd A B / (A.card + C.card + (sd A B + sd B C)) ≤ 2 * sd A B / (A.card + B.card + sd A B) := by
    rcases s2 (sd A B) (A.card + C.card + (sd A B + sd B C)) (A.card + B.card + sd A B) n1
      (by linarith) (by linarith) with h | h
    · exact h
    · have : sd A B = 0 := by linarith
      rw [this]; simp
  have s4 : 2 * sd B C / (A.card + C.card + (sd A B + sd B C)) ≤ 2 * sd B C / (B.card + C.card + sd B C) := by
    rcases s2 (sd B C) (A.card + C.card + (sd A B + sd B C)) (B.card + C.card + sd B C) n2
      (by linarith) (by linarith) with h | h
    · exact h
    · have : sd B C = 0 := by linarith
      rw [this]; simp
  calc _ ≤ _ := s1
    _ = 2 * sd A B / (A.card + C.card + (sd A B + sd B C)) +
        2 * sd B C / (A.card + C.card + (sd A B + sd B C)) := by ring
    _ ≤ _ := add_le_add s3 s4

end

theorem jaccardDist_ofFn (a b : Fin n → ℝ) :
    jaccardDist (some (List.ofFn a)) (some (List.ofFn b)) = .ok (jacSet (posSet a) (posSet b)) := by
  unfold jaccardDist
  rw [jaccardSim_ofFn]
  rfl

/-! ## Normalisation -/

theorem normalizeVec_of (norm : String) (a : Fin n → ℝ) (v : ℝ)
    (hv : (if norm = "l2" then .ok (normL Real.sqrt (List.ofFn a))
      else if norm = "l1" then .ok ((List.ofFn a).map fun x => |x|).sum
      else if norm = "max" then maxL ((List.ofFn a).map fun x => |x|)
      else .error .value : Except Err ℝ) = .ok v) :
    normalizeVec Real.sqrt (some (List.ofFn a)) norm =
      .ok (List.ofFn fun i => if v = 0 then a i else a i / v) := by
  unfold normalizeVec
  simp only [hv]
  by_cases h0 : v = 0
  · simp [h0]
  · simp only [h0, if_false, List.map_ofFn]
    rfl

/-! ## Batches -/

theorem dotL_zero (a b : Fin n → ℝ) (h : normL Real.sqrt (List.ofFn a) = 0 ∨ normL Real.sqrt (List.ofFn b) = 0) :
    dotL (List.ofFn a) (List.ofFn b) = 0 := by
  rw [normL_ofFn, normL_ofFn, norm_eq_zero, norm_eq_zero] at h
  rw [dotL_ofFn]
  rcases h with h | h <;> simp [h]

theorem zip_map_right {α β γ : Type} (l : List α) (f : α → β) (g : α × β → γ) :
    (l.zip (l.map f)).map g = l.map fun x => g (x, f x) := by
  induction l with
  | nil => rfl
  | cons x l ih => simp [ih]

theorem ofFn_of_length (l : List ℝ) (h : l.length = n) : ∃ a : Fin n → ℝ, l = List.ofFn a := by
  subst h
  exact ⟨l.get, (List.ofFn_get l).symm⟩

theorem batch_entry (r s : List ℝ) (h : r.length = s.length) :
    cosineSim Real.sqrt (some r) (some s) = .ok (clipTo (-1) 1 (dotL r s /
      ((if normL Real.sqrt r = 0 then 1 else normL Real.sqrt r) *
        (if normL Real.sqrt s = 0 then 1 else normL Real.sqrt s)))) := by
  obtain ⟨a, ha⟩ := ofFn_of_length (n := r.length) r rfl
  obtain ⟨b, hb⟩ := ofFn_of_length (n := r.length) s h.symm
  have hz := dotL_zero a b
  rw [← ha, ← hb] at hz
  unfold cosineSim
  simp only [onVecs, h, ne_eq, not_true_eq_false, if_false]
  by_cases h0 : normL Real.sqrt r = 0 ∨ normL Real.sqrt s = 0
  · rw [if_pos h0, hz h0]
    simp [clipTo]
  · rw [if_neg h0, if_neg (fun e => h0 (Or.inl e)), if_neg (fun e => h0 (Or.inr e))]

/-! ## helpers.py -/

theorem normL_scale (a : Fin n → ℝ) (c : ℝ) (hc : 0 ≤ c) :
    normL Real.sqrt ((List.ofFn a).map fun x => x / c) = ‖pt a‖ / c := by
  rw [List.map_ofFn, normL_ofFn]
  have : pt ((fun x => x / c) ∘ a) = (c⁻¹ : ℝ) • pt a := by
    ext i
    simp [div_eq_inv_mul]
  rw [this, norm_smul, Real.norm_eq_abs, abs_of_nonneg (by positivity)]
  ring

theorem dotL_scale (a b : Fin n → ℝ) (c d : ℝ) :
    dotL ((List.ofFn a).map fun x => x / c) ((List.ofFn b).map fun x => x / d) =
      inner ℝ (pt a) (pt b) / (c * d) := by
  rw [List.map_ofFn, List.map_ofFn, dotL_ofFn]
  have ha : pt ((fun x => x / c) ∘ a) = (c⁻¹ : ℝ) • pt a := by ext i; simp [div_eq_inv_mul]
  have hb : pt ((fun x => x / d) ∘ b) = (d⁻¹ : ℝ) • pt b := by ext i; simp [div_eq_inv_mul]
  rw [ha, hb, inner_smul_left, inner_smul_right]
  simp
  ring

end Valori
