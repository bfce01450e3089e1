import Verif.Lemmas.Similarity
import Verif.Lemmas.Duplicates

/-!
# Similarity functions and duplicate search: C74, C76, C77, C95 - C97

Vectors are functions `Fin n → ℝ`, handed to the code as lists; every list of length `n` is one.
-/

namespace Valori.Props
open WithLp

variable {n : Nat}

/-! ## C74 -/

/-- The groups of a matrix: disjoint, increasing, at least two members, all similar to the first;
of two similar indices one is in a group, and one that does not begin later than they do.  Moreover
nobody is left to a later group: whoever is similar to the first index of a group is in that group
or in one with a smaller first index.  Groups come in the order of their first indices. -/
theorem C74_groups {D : Type} [LinearOrder D] (sim : Nat → Nat → D) (thr : D) (n : Nat) :
    (∀ g ∈ findDuplicates sim thr n, ∃ h t, g = h :: t ∧ t ≠ [] ∧ g.Pairwise (· < ·) ∧
      (∀ j ∈ g, j < n) ∧ ∀ j ∈ t, thr ≤ sim h j) ∧
    (findDuplicates sim thr n).Pairwise (fun g g' => ∀ k ∈ g, k ∉ g') ∧
    (∀ i j, i < j → j < n → thr ≤ sim i j →
      ∃ h t, h :: t ∈ findDuplicates sim thr n ∧ h ≤ i ∧ (i ∈ h :: t ∨ j ∈ h :: t)) ∧
    (∀ h t j, h :: t ∈ findDuplicates sim thr n → h < j → j < n → thr ≤ sim h j →
      ∃ h' t', h' :: t' ∈ findDuplicates sim thr n ∧ h' ≤ h ∧ j ∈ h' :: t') ∧
    ((findDuplicates sim thr n).filterMap List.head?).Pairwise (· < ·) := by
  obtain ⟨P, hi⟩ := dupInv_final sim thr n
  refine ⟨?_, hi.disjoint, ?_, ?_, ?_⟩
  · intro g hg
    obtain ⟨h, t, rfl, h1, h2, h3, h4⟩ := hi.group g hg
    refine ⟨h, t, rfl, h1, h3, ?_, fun j hj => (h4 j hj).2⟩
    intro j hj
    rcases List.mem_cons.1 hj with rfl | hj
    · exact h2
    · exact (h4 j hj).1
  · intro i j hij hj hs
    rcases hi.pairs i j (by omega) hij hj hs with ⟨g, hg, hm⟩ | ⟨g, hg, hm, hle⟩
    · obtain ⟨h, t, rfl, -, -, hsort, -⟩ := hi.group g hg
      exact ⟨h, t, hg, ((List.pairwise_cons.1 hsort).1 i hm).le, Or.inl (List.mem_of_mem_tail hm)⟩
    · obtain ⟨h, t, rfl, -⟩ := hi.group g hg
      exact ⟨h, t, hg, hle h rfl, Or.inr hm⟩
  · intro h t j hg hhj hj hs
    rcases hi.pairs h j (by omega) hhj hj hs with ⟨g, hg', hm⟩ | ⟨g, hg', hm, hle⟩
    · -- the first index of a group is in no tail
      exfalso
      obtain ⟨h', t', rfl, -, -, hsort, -⟩ := hi.group g hg'
      have hlt : h' < h := (List.pairwise_cons.1 hsort).1 h hm
      have hne : h' :: t' ≠ h :: t := by
        intro e
        have := (List.cons.inj e).1
        omega
      have hd := hi.disjoint
      obtain ⟨p, q, hpq⟩ := List.append_of_mem hg'
      rw [hpq, List.pairwise_append, List.pairwise_cons] at hd
      rw [hpq] at hg
      rcases List.mem_append.1 hg with hg | hg
      · exact hd.2.2 _ hg (h' :: t') (by simp) h (by simp) (List.mem_cons_of_mem _ hm)
      · rcases List.mem_cons.1 hg with hg | hg
        · exact hne hg.symm
        · exact hd.2.1.1 _ hg h (List.mem_cons_of_mem _ hm) (by simp)
    · obtain ⟨h', t', rfl, -⟩ := hi.group g hg'
      exact ⟨h', t', hg', hle h' rfl, hm⟩
  · rw [List.pairwise_filterMap]
    exact (List.pairwise_map.1 hi.heads).imp fun h a ha b hb => h a ha b hb

/-- Four indices in a chain of similarities (0-1, 1-2, 0-3): 2 is similar to 1 only, and stays out. -/
def exDupSim (i j : Nat) : Nat := if (i, j) ∈ [(0, 1), (1, 2), (0, 3)] then 10 else 0

example : findDuplicates exDupSim 5 4 = [[0, 1, 3]] := by decide
example : findDuplicates exDupSim 0 4 = [[0, 1, 2, 3]] := by decide

/-! ## C76 -/

/-- Cosine similarity is the cosine of the angle between the vectors (Mathlib takes the angle with
the zero vector to be a right angle, as the code's `0.0` does). -/
theorem C76_cosine (a b : Fin n → ℝ) :
    cosineSim Real.sqrt (some (List.ofFn a)) (some (List.ofFn b)) =
      .ok (Real.cos (InnerProductGeometry.angle (pt a) (pt b))) := cosineSim_ofFn a b

/-- Range, symmetry, and one for a non-zero vector with itself or a positive multiple. -/
theorem C76_cosine_facts (a b : Fin n → ℝ) :
    ∃ s, cosineSim Real.sqrt (some (List.ofFn a)) (some (List.ofFn b)) = .ok s ∧
      cosineSim Real.sqrt (some (List.ofFn b)) (some (List.ofFn a)) = .ok s ∧
      -1 ≤ s ∧ s ≤ 1 ∧
      cosineDist Real.sqrt (some (List.ofFn a)) (some (List.ofFn b)) = .ok (1 - s) ∧
      0 ≤ 1 - s ∧ 1 - s ≤ 2 ∧
      (a ≠ 0 → (∃ c : ℝ, 0 < c ∧ b = c • a) → s = 1) ∧ (a = 0 → s = 0) := by
  refine ⟨Real.cos (InnerProductGeometry.angle (pt a) (pt b)), cosineSim_ofFn a b, ?_,
    Real.neg_one_le_cos _, Real.cos_le_one _, ?_, ?_, ?_, ?_, ?_⟩
  · rw [cosineSim_ofFn, InnerProductGeometry.angle_comm]
  · unfold cosineDist; rw [cosineSim_ofFn]
  · linarith [Real.cos_le_one (InnerProductGeometry.angle (pt a) (pt b))]
  · linarith [Real.neg_one_le_cos (InnerProductGeometry.angle (pt a) (pt b))]
  · rintro ha ⟨c, hc, rfl⟩
    have hne : pt a ≠ 0 := by
      intro h
      apply ha
      funext i
      exact congrArg (fun v : EuclideanSpace ℝ (Fin n) => v i) h
    have e : pt (c • a) = c • pt a := rfl
    rw [e, InnerProductGeometry.angle_smul_right_of_pos _ _ hc, InnerProductGeometry.angle_self hne,
      Real.cos_zero]
  · rintro rfl
    have e : pt (0 : Fin n → ℝ) = 0 := rfl
    rw [e, InnerProductGeometry.angle_zero_left, Real.cos_pi_div_two]

example : cosineSim Real.sqrt (some [3, 4]) (some [4, 3]) = .ok (24 / 25) := by
  have h : Real.sqrt (3 * 3 + 4 * 4) = 5 := by
    rw [show (3 * 3 + 4 * 4 : ℝ) = 5 * 5 by norm_num]
    exact Real.sqrt_mul_self (by norm_num)
  have h' : Real.sqrt (4 * 4 + 3 * 3) = 5 := by rw [add_comm]; exact h
  simp only [cosineSim, onVecs, normL, dotL, clipTo, List.zipWith, List.map, List.sum_cons,
    List.sum_nil, add_zero, h, h']
  norm_num

/-- The Euclidean, Manhattan and Chebyshev distances are the metrics of the three spaces
(Mathlib's `dist` on l2, l1 and sup-norm space), the squared distance is the square. -/
theorem C76_distances (a b : Fin n → ℝ) :
    euclidDist Real.sqrt (some (List.ofFn a)) (some (List.ofFn b)) = .ok (dist (pt a) (pt b)) ∧
    euclidSq (some (List.ofFn a)) (some (List.ofFn b)) = .ok (dist (pt a) (pt b) ^ 2) ∧
    dotProduct (some (List.ofFn a)) (some (List.ofFn b)) = .ok (∑ i, a i * b i) ∧
    manhattan (some (List.ofFn a)) (some (List.ofFn b)) =
      .ok (dist (toLp 1 a : PiLp 1 fun _ : Fin n => ℝ) (toLp 1 b)) ∧
    (0 < n → chebyshev (some (List.ofFn a)) (some (List.ofFn b)) = .ok (dist a b)) := by
  refine ⟨euclidDist_ofFn a b, euclidSq_ofFn a b, ?_, manhattan_ofFn a b, chebyshev_ofFn a b⟩
  unfold dotProduct
  rw [onVecs_ofFn]
  unfold dotL
  rw [zipWith_ofFn, List.sum_ofFn]

/-- A function that behaves as a metric on vectors of length `n`; `same` says which vectors it
cannot tell apart. -/
def IsMetricOn (n : Nat) (d : Option (List ℝ) → Option (List ℝ) → Except Err ℝ)
    (same : (Fin n → ℝ) → (Fin n → ℝ) → Prop) : Prop :=
  ∃ m : (Fin n → ℝ) → (Fin n → ℝ) → ℝ,
    (∀ a b, d (some (List.ofFn a)) (some (List.ofFn b)) = .ok (m a b)) ∧
    (∀ a b, 0 ≤ m a b) ∧ (∀ a b, m a b = m b a) ∧ (∀ a b, m a b = 0 ↔ same a b) ∧
    ∀ a b c, m a c ≤ m a b + m b c

/-- So all three are metrics. -/
theorem C76_metrics (n : Nat) :
    IsMetricOn n (euclidDist Real.sqrt) (· = ·) ∧ IsMetricOn n manhattan (· = ·) ∧
    (0 < n → IsMetricOn n chebyshev (· = ·)) := by
  refine ⟨⟨_, euclidDist_ofFn, fun _ _ => dist_nonneg, fun _ _ => dist_comm _ _, ?_,
      fun _ _ _ => dist_triangle _ _ _⟩,
    ⟨_, manhattan_ofFn, fun _ _ => dist_nonneg, fun _ _ => dist_comm _ _, ?_,
      fun _ _ _ => dist_triangle _ _ _⟩,
    fun hn => ⟨_, fun a b => chebyshev_ofFn a b hn, fun _ _ => dist_nonneg, fun _ _ => dist_comm _ _,
      fun _ _ => dist_eq_zero, fun _ _ _ => dist_triangle _ _ _⟩⟩
  · intro a b
    rw [dist_eq_zero]
    exact ⟨fun h => funext fun i => congrArg (fun v : EuclideanSpace ℝ (Fin n) => v i) h,
      fun h => h ▸ rfl⟩
  · intro a b
    rw [dist_eq_zero]
    exact ⟨fun h => funext fun i => congrArg (fun v : PiLp 1 (fun _ : Fin n => ℝ) => v i) h,
      fun h => h ▸ rfl⟩

/-- Hamming distance counts the positions where exactly one vector is positive; it is a metric up to
that identification. -/
theorem C76_hamming (a b c : Fin n → ℝ) :
    ∃ ab ba ac bc : Nat, hammingD (some (List.ofFn a)) (some (List.ofFn b)) = .ok ab ∧
      hammingD (some (List.ofFn b)) (some (List.ofFn a)) = .ok ba ∧
      hammingD (some (List.ofFn a)) (some (List.ofFn c)) = .ok ac ∧
      hammingD (some (List.ofFn b)) (some (List.ofFn c)) = .ok bc ∧
      ab = (Finset.univ.filter fun i => ¬ (0 < a i ↔ 0 < b i)).card ∧
      ab = ba ∧ ac ≤ ab + bc := by
  refine ⟨_, _, _, _, hammingD_ofFn a b, hammingD_ofFn b a, hammingD_ofFn a c, hammingD_ofFn b c, ?_,
    hammingDist_comm _ _, hammingDist_triangle _ _ _⟩
  unfold hammingDist
  congr 1
  ext i
  simp

/-- Jaccard similarity is the share of the common positive positions, between 0 and 1. -/
theorem C76_jaccard (a b : Fin n → ℝ) :
    ∃ s, jaccardSim (some (List.ofFn a)) (some (List.ofFn b)) = .ok s ∧
      jaccardSim (some (List.ofFn b)) (some (List.ofFn a)) = .ok s ∧ 0 ≤ s ∧ s ≤ 1 ∧
      (s = 1 ↔ ∀ i, 0 < a i ↔ 0 < b i) ∧
      s * ((Finset.univ.filter fun i => 0 < a i ∨ 0 < b i).card : ℝ) =
        ((Finset.univ.filter fun i => 0 < a i ∧ 0 < b i).card : ℝ) := by
  have hU : (Finset.univ.filter fun i => 0 < a i ∨ 0 < b i) = posSet a ∪ posSet b := by
    rw [Finset.filter_or]; rfl
  have hI : (Finset.univ.filter fun i => 0 < a i ∧ 0 < b i) = posSet a ∩ posSet b := by
    rw [Finset.filter_and]; rfl
  have e := jacSet_le_one (posSet a) (posSet b)
  have e' := jacSet_nonneg (posSet a) (posSet b)
  have ez := jacSet_zero (posSet a) (posSet b)
  refine ⟨1 - jacSet (posSet a) (posSet b), ?_, ?_, by linarith, by linarith, ?_, ?_⟩
  · rw [jaccardSim_ofFn]; simp [jacSet]
  · rw [jaccardSim_ofFn, jacSet_comm]; simp [jacSet]
  · constructor
    · intro h i
      have := ez.1 (by linarith)
      have hi := congrArg (fun s => i ∈ s) this
      simpa [posSet] using hi
    · intro h
      have : posSet a = posSet b := by
        unfold posSet
        exact Finset.filter_congr fun i _ => h i
      rw [ez.2 this]; ring
  · rw [hU, hI]
    unfold jacSet
    split_ifs with h
    · rw [Finset.union_eq_empty] at h
      simp [h.1, h.2]
    · have hpos : (0 : ℝ) < (posSet a ∪ posSet b).card := by
        exact_mod_cast Finset.card_pos.2 (Finset.nonempty_iff_ne_empty.2 h)
      rw [sub_sub_cancel, div_mul_cancel₀ _ hpos.ne']

example : hammingD (some [1, 0, 2, -1]) (some [0, 0, (1 : ℚ), 3]) = .ok 2 := by decide +kernel
example : jaccardSim (some [1, 0, 2, -1]) (some [0, 0, (1 : ℚ), 3]) = .ok (1 / 3) := by decide +kernel
example : manhattan (some [1, 0, 2, -1]) (some [0, 0, (1 : ℚ), 3]) = .ok 6 := by decide +kernel
example : chebyshev (some [1, 0, 2, -1]) (some [0, 0, (1 : ℚ), 3]) = .ok 4 := by decide +kernel

/-- Every function refuses arguments that are not two vectors of one length. -/
theorem C76_refuses {F : Type} [Field F] [LinearOrder F] (sqrt : F → F) (a b : Option (List F))
    (h : ∀ x y, a = some x → b = some y → x.length ≠ y.length) :
    cosineSim sqrt a b = .error .value ∧ cosineDist sqrt a b = .error .value ∧
    euclidDist sqrt a b = .error .value ∧ euclidSq a b = .error .value ∧
    dotProduct a b = .error .value ∧ manhattan a b = .error .value ∧
    chebyshev a b = .error .value ∧ hammingD a b = .error .value ∧
    jaccardSim a b = .error .value ∧ jaccardDist a b = .error .value := by
  have key : ∀ {β : Type} (f : List F → List F → Except Err β), onVecs f a b = .error .value := by
    intro β f
    unfold onVecs
    cases a with
    | none => rfl
    | some x =>
      cases b with
      | none => rfl
      | some y => exact if_pos (h x y rfl rfl)
  have kc : cosineSim sqrt a b = .error .value := key _
  have kj : jaccardSim a b = .error .value := key _
  refine ⟨kc, ?_, key _, key _, key _, key _, key _, key _, kj, ?_⟩
  · unfold cosineDist; rw [kc]
  · unfold jaccardDist; rw [kj]

/-! ## C77 -/

/-- Normalising in each of the three norms: zero vectors come back unchanged, every other vector is
scaled by a positive factor to norm one. -/
theorem C77_normalize (a : Fin n → ℝ) :
    (∃ r : Fin n → ℝ, normalizeVec Real.sqrt (some (List.ofFn a)) "l2" = .ok (List.ofFn r) ∧
      (a = 0 → r = a) ∧ (a ≠ 0 → (∃ c : ℝ, 0 < c ∧ r = c • a) ∧ ‖pt r‖ = 1)) ∧
    (∃ r : Fin n → ℝ, normalizeVec Real.sqrt (some (List.ofFn a)) "l1" = .ok (List.ofFn r) ∧
      (a = 0 → r = a) ∧ (a ≠ 0 → (∃ c : ℝ, 0 < c ∧ r = c • a) ∧ ∑ i, |r i| = 1)) ∧
    (0 < n → ∃ r : Fin n → ℝ, normalizeVec Real.sqrt (some (List.ofFn a)) "max" = .ok (List.ofFn r) ∧
      (a = 0 → r = a) ∧ (a ≠ 0 → (∃ c : ℝ, 0 < c ∧ r = c • a) ∧ ‖r‖ = 1)) := by
  have scale : ∀ v : ℝ, 0 < v → (fun i => if v = 0 then a i else a i / v) = v⁻¹ • a := by
    intro v hv
    funext i
    rw [if_neg hv.ne', Pi.smul_apply, smul_eq_mul, div_eq_inv_mul]
  have zero : ∀ v : ℝ, v = 0 → (fun i => if v = 0 then a i else a i / v) = a := by
    intro v hv
    funext i
    rw [if_pos hv]
  have hpt : a ≠ 0 → pt a ≠ 0 := fun ha h => ha (funext fun i =>
    congrArg (fun v : EuclideanSpace ℝ (Fin n) => v i) h)
  refine ⟨⟨_, normalizeVec_of "l2" a ‖pt a‖ (by simp [normL_ofFn]), ?_, ?_⟩,
    ⟨_, normalizeVec_of "l1" a (∑ i, |a i|) (by simp [List.map_ofFn, List.sum_ofFn]), ?_, ?_⟩,
    fun hn => ⟨_, normalizeVec_of "max" a ‖a‖ (by simpa using maxL_abs a hn), ?_, ?_⟩⟩
  · rintro rfl
    exact zero _ (by simp [show pt (0 : Fin n → ℝ) = 0 from rfl])
  · intro ha
    have hpos := norm_pos_iff.2 (hpt ha)
    rw [scale _ hpos]
    refine ⟨⟨_, inv_pos.2 hpos, rfl⟩, ?_⟩
    have e : pt (‖pt a‖⁻¹ • a) = ‖pt a‖⁻¹ • pt a := rfl
    rw [e, norm_smul, norm_inv, norm_norm, inv_mul_cancel₀ hpos.ne']
  · rintro rfl
    exact zero _ (by simp)
  · intro ha
    have hpos : 0 < ∑ i, |a i| := by
      obtain ⟨i, hi⟩ := Function.ne_iff.1 ha
      exact Finset.sum_pos' (fun i _ => abs_nonneg _) ⟨i, Finset.mem_univ _, abs_pos.2 hi⟩
    rw [scale _ hpos]
    refine ⟨⟨_, inv_pos.2 hpos, rfl⟩, ?_⟩
    simp only [hpos.ne', if_false, abs_div, abs_of_pos hpos]
    rw [← Finset.sum_div, div_self hpos.ne']
  · rintro rfl
    exact zero _ (by simp)
  · intro ha
    have hpos := norm_pos_iff.2 ha
    rw [scale _ hpos]
    refine ⟨⟨_, inv_pos.2 hpos, rfl⟩, ?_⟩
    rw [norm_smul, norm_inv, norm_norm, inv_mul_cancel₀ hpos.ne']

/-- Everything else is refused: other norms, arrays that are not vectors, and the maximum of an
empty vector. -/
theorem C77_refuses {F : Type} [Field F] [LinearOrder F] (sqrt : F → F) (v : Option (List F))
    (norm : String)
    (h : v = none ∨ (norm ≠ "l2" ∧ norm ≠ "l1" ∧ norm ≠ "max") ∨ (v = some [] ∧ norm = "max")) :
    normalizeVec sqrt v norm = .error .value := by
  rcases h with rfl | ⟨h1, h2, h3⟩ | ⟨rfl, rfl⟩
  · rfl
  · cases v with
    | none => rfl
    | some v => simp [normalizeVec, h1, h2, h3]
  · rfl

example : normalizeVec id (some [1, -3, (0 : ℚ)]) "l1" = .ok [1 / 4, -3 / 4, 0] := by decide +kernel
example : normalizeVec id (some [1, -4, (0 : ℚ)]) "max" = .ok [1 / 4, -1, 0] := by decide +kernel

/-! ## C95 -/

/-- The batch function gives, entry by entry, what the pairwise function gives. -/
theorem C95_batch (A B : Mat ℝ) (hc : A.cols = B.cols) (hA : ∀ r ∈ A.rows, r.length = A.cols)
    (hB : ∀ r ∈ B.rows, r.length = B.cols) :
    ∃ M, batchCosine Real.sqrt (some A) (some B) = .ok M ∧
      List.Forall₂ (fun r row => List.Forall₂ (fun s x =>
        cosineSim Real.sqrt (some r) (some s) = .ok x) B.rows row) A.rows M := by
  unfold batchCosine
  simp only
  rw [if_neg (by simp [hc])]
  refine ⟨_, rfl, ?_⟩
  rw [zip_map_right, List.forall₂_map_right_iff, List.forall₂_same]
  intro r hr
  simp only
  rw [zip_map_right, List.forall₂_map_right_iff, List.forall₂_same]
  intro s hs
  exact batch_entry r s (by rw [hA r hr, hB s hs, hc])

example : ∀ r ∈ (⟨[[3, 4], [0, 0]], 2⟩ : Mat ℝ).rows, r.length = 2 := by simp

/-! ## C96 -/

/-- The similarity of a vector with itself in the matrix of `compute_similarity_matrix`: with
`eps = 1e-8` it is below one, and exactly this much. -/
theorem C96_self_partial (a : Fin n → ℝ) (eps thr : ℝ) :
    findDuplicatesOf Real.sqrt eps [List.ofFn a, List.ofFn a] thr "cosine" =
      .ok (if thr ≤ (‖pt a‖ / (‖pt a‖ + eps)) ^ 2 then [[0, 1]] else []) := by
  have hd : dotL ((List.ofFn a).map fun x => x / (normL Real.sqrt (List.ofFn a) + eps))
      ((List.ofFn a).map fun x => x / (normL Real.sqrt (List.ofFn a) + eps)) =
      (‖pt a‖ / (‖pt a‖ + eps)) ^ 2 := by
    rw [dotL_scale, normL_ofFn, real_inner_self_eq_norm_sq, div_pow]
    ring
  unfold findDuplicatesOf similarityMatrix
  simp only [if_true, cosineMatrix, List.map_cons, List.map_nil, List.length_cons, List.length_nil, hd]
  by_cases h : thr ≤ (‖pt a‖ / (‖pt a‖ + eps)) ^ 2
  · rw [if_pos h]
    simp [findDuplicates, List.range_succ, dupOuter, dupInner, h]
  · rw [if_neg h]
    simp [findDuplicates, List.range_succ, dupOuter, dupInner, h]

/-- So identical vectors are not always reported: for every positive threshold there is a non-zero
vector whose copy is not found, and at threshold one no copy is ever found. -/
theorem C96_self_refuted (eps thr : ℝ) (heps : 0 < eps) (hthr : 0 < thr) :
    (∃ a : Fin 1 → ℝ, a ≠ 0 ∧
      findDuplicatesOf Real.sqrt eps [List.ofFn a, List.ofFn a] thr "cosine" = .ok []) ∧
    ∀ (n : Nat) (a : Fin n → ℝ), 1 ≤ thr →
      findDuplicatesOf Real.sqrt eps [List.ofFn a, List.ofFn a] thr "cosine" = .ok [] := by
  have small : ∀ x : ℝ, 0 ≤ x → (x / (x + eps)) ^ 2 < 1 := by
    intro x hx
    have h1 : x / (x + eps) < 1 := by rw [div_lt_one (by linarith)]; linarith
    have h0 : 0 ≤ x / (x + eps) := by positivity
    nlinarith
  constructor
  · -- a vector of length `eps * t / (1 + t)` with `t = min thr 1`
    set t := min thr 1 with ht
    have ht0 : 0 < t := lt_min hthr one_pos
    have ht1 : t ≤ thr := min_le_left _ _
    have ht2 : t ≤ 1 := min_le_right _ _
    set x := eps * t / 2 with hx
    have hx0 : 0 < x := by positivity
    refine ⟨fun _ => x, ?_, ?_⟩
    · intro h
      have := congrFun h 0
      simp only [Pi.zero_apply] at this
      linarith
    · rw [C96_self_partial, if_neg]
      have hn : ‖pt (fun _ : Fin 1 => x)‖ = x := by
        rw [EuclideanSpace.norm_eq]
        simp [Real.sqrt_sq hx0.le]
      rw [hn, not_le]
      have h1 : x / (x + eps) < t := by
        rw [div_lt_iff₀ (by linarith), hx]
        nlinarith
      have h0 : 0 ≤ x / (x + eps) := by positivity
      nlinarith
  · intro n a h1
    rw [C96_self_partial, if_neg]
    have := small ‖pt a‖ (norm_nonneg _)
    linarith

example : (0 : ℝ) < 1 / 10 ^ 8 ∧ (0 : ℝ) < 99 / 100 := by norm_num

/-! ## C97 -/

/-- Jaccard distance is a metric on the sets of positive positions, with values in [0, 1]. -/
theorem C97_jaccard_metric (n : Nat) :
    IsMetricOn n jaccardDist (fun a b => ∀ i, 0 < a i ↔ 0 < b i) ∧
    ∀ a b : Fin n → ℝ, ∃ d, jaccardDist (some (List.ofFn a)) (some (List.ofFn b)) = .ok d ∧ d ≤ 1 := by
  refine ⟨⟨_, jaccardDist_ofFn, fun _ _ => jacSet_nonneg _ _, fun _ _ => jacSet_comm _ _, ?_,
    fun _ _ _ => jacSet_triangle _ _ _⟩, fun a b => ⟨_, jaccardDist_ofFn a b, jacSet_le_one _ _⟩⟩
  intro a b
  rw [jacSet_zero]
  constructor
  · intro h i
    have hi := congrArg (fun s => i ∈ s) h
    simpa [posSet] using hi
  · intro h
    unfold posSet
    exact Finset.filter_congr fun i _ => h i

end Valori.Props
