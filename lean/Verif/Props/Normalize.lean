import Verif.Props.Similarity
import Mathlib.Data.List.OfFn

/-!
# Normalising rows and the similarity matrix: C152, C153
-/

namespace Valori.Props
open WithLp

variable {n m : Nat}

theorem mapM_ok {α β : Type} (f : α → Except Err β) (g : α → β) (l : List α)
    (h : ∀ x ∈ l, f x = .ok (g x)) : l.mapM f = .ok (l.map g) := by
  induction l with
  | nil => rfl
  | cons x l ih =>
    rw [List.mapM_cons, h x (by simp), ih fun y hy => h y (by simp [hy])]
    rfl

theorem foldl_min_ge (l : List ℝ) (x b : ℝ) : b ≤ l.foldl min x ↔ b ≤ x ∧ ∀ y ∈ l, b ≤ y := by
  induction l generalizing x with
  | nil => simp
  | cons y l ih => rw [List.foldl_cons, ih]; simp [and_assoc]

theorem foldl_max_mem (l : List ℝ) (x : ℝ) : l.foldl max x ∈ x :: l := by
  induction l generalizing x with
  | nil => simp
  | cons y l ih =>
    rw [List.foldl_cons]
    rcases List.mem_cons.1 (ih (max x y)) with h | h
    · rw [h]
      rcases max_choice x y with e | e <;> simp [e]
    · simp [h]

theorem foldl_min_mem (l : List ℝ) (x : ℝ) : l.foldl min x ∈ x :: l := by
  induction l generalizing x with
  | nil => simp
  | cons y l ih =>
    rw [List.foldl_cons]
    rcases List.mem_cons.1 (ih (min x y)) with h | h
    · rw [h]
      rcases min_choice x y with e | e <;> simp [e]
    · simp [h]

/-- The least and the greatest entry. -/
theorem minL_maxL (a : Fin n → ℝ) (hn : 0 < n) : ∃ lo hi : ℝ, minL (List.ofFn a) = .ok lo ∧
    maxL (List.ofFn a) = .ok hi ∧ IsLeast (Set.range a) lo ∧ IsGreatest (Set.range a) hi := by
  cases h : List.ofFn a with
  | nil => rw [List.ofFn_eq_nil_iff] at h; omega
  | cons x xs =>
    have hm : ∀ y, y ∈ x :: xs ↔ y ∈ Set.range a := by
      intro y
      rw [← h, List.mem_ofFn]
      rfl
    refine ⟨_, _, rfl, rfl, ⟨(hm _).1 (foldl_min_mem xs x), ?_⟩, ⟨(hm _).1 (foldl_max_mem xs x), ?_⟩⟩
    · intro y hy
      have hh := (foldl_min_ge xs x _).1 (le_refl (xs.foldl min x))
      rcases List.mem_cons.1 ((hm y).2 hy) with rfl | hy
      · exact hh.1
      · exact hh.2 y hy
    · intro y hy
      have hh := (foldl_max_le xs x _).1 (le_refl (xs.foldl max x))
      rcases List.mem_cons.1 ((hm y).2 hy) with rfl | hy
      · exact hh.1
      · exact hh.2 y hy

/-! ## C152 -/

/-- **C152** Rows normalised by a norm point in the same direction and have norm `N / (N + eps)`,
where `N` was the norm before: they are never of norm one. -/
theorem C152_norms_partial (eps : ℝ) (heps : 0 < eps) (rows : List (Fin n → ℝ)) :
    (∃ f : (Fin n → ℝ) → Fin n → ℝ, normalizeVectors Real.sqrt eps (rows.map List.ofFn) "l2" =
        .ok (rows.map fun a => List.ofFn (f a)) ∧
      ∀ a, (∃ c : ℝ, 0 < c ∧ f a = c • a) ∧ ‖pt (f a)‖ = ‖pt a‖ / (‖pt a‖ + eps) ∧ ‖pt (f a)‖ < 1) ∧
    (∃ f : (Fin n → ℝ) → Fin n → ℝ, normalizeVectors Real.sqrt eps (rows.map List.ofFn) "l1" =
        .ok (rows.map fun a => List.ofFn (f a)) ∧
      ∀ a, (∃ c : ℝ, 0 < c ∧ f a = c • a) ∧ ∑ i, |f a i| = (∑ i, |a i|) / (∑ i, |a i| + eps) ∧
        ∑ i, |f a i| < 1) ∧
    (0 < n → ∃ f : (Fin n → ℝ) → Fin n → ℝ,
      normalizeVectors Real.sqrt eps (rows.map List.ofFn) "max" =
        .ok (rows.map fun a => List.ofFn (f a)) ∧
      ∀ a, (∃ c : ℝ, 0 < c ∧ f a = c • a) ∧ ‖f a‖ = ‖a‖ / (‖a‖ + eps) ∧ ‖f a‖ < 1) := by
  have hlt : ∀ x : ℝ, 0 ≤ x → x / (x + eps) < 1 := fun x hx => by
    rw [div_lt_one (by linarith)]; linarith
  have run : ∀ (meth : String) (N : (Fin n → ℝ) → ℝ),
      (meth = "l2" ∨ meth = "l1" ∨ meth = "max" ∨ meth = "minmax") →
      (∀ a, normalizeRow Real.sqrt eps meth (List.ofFn a) =
        .ok (List.ofFn ((N a + eps)⁻¹ • a))) →
      normalizeVectors Real.sqrt eps (rows.map List.ofFn) meth =
        .ok (rows.map fun a => List.ofFn ((N a + eps)⁻¹ • a)) := by
    intro meth N hm h
    unfold normalizeVectors
    rw [if_pos hm, List.mapM_map]
    exact mapM_ok _ _ _ fun a _ => h a
  have fn : ∀ (a : Fin n → ℝ) (v : ℝ), ((List.ofFn a).map fun x => x / v) = List.ofFn (v⁻¹ • a) := by
    intro a v
    rw [List.map_ofFn]
    congr 1
    funext i
    simp [div_eq_inv_mul]
  refine ⟨⟨fun a => (‖pt a‖ + eps)⁻¹ • a, run "l2" _ (by simp) ?_, ?_⟩,
    ⟨fun a => (∑ i, |a i| + eps)⁻¹ • a, run "l1" _ (by simp) ?_, ?_⟩,
    fun hn => ⟨fun a => (‖a‖ + eps)⁻¹ • a, run "max" _ (by simp) ?_, ?_⟩⟩
  · intro a
    unfold normalizeRow
    rw [if_pos rfl, normL_ofFn, fn]
  · intro a
    have h0 := norm_nonneg (pt a)
    have hv : ‖pt ((‖pt a‖ + eps)⁻¹ • a)‖ = ‖pt a‖ / (‖pt a‖ + eps) := by
      have e : pt ((‖pt a‖ + eps)⁻¹ • a) = (‖pt a‖ + eps)⁻¹ • pt a := rfl
      rw [e, norm_smul, norm_inv, Real.norm_eq_abs, abs_of_pos (by linarith)]
      ring
    exact ⟨⟨_, by positivity, rfl⟩, hv, hv ▸ hlt _ h0⟩
  · intro a
    unfold normalizeRow
    rw [if_neg (by decide), if_pos rfl, fn]
    simp [List.map_ofFn, List.sum_ofFn]
  · intro a
    have h0 : 0 ≤ ∑ i, |a i| := Finset.sum_nonneg fun i _ => abs_nonneg _
    have hv : ∑ i, |((∑ i, |a i| + eps)⁻¹ • a) i| = (∑ i, |a i|) / (∑ i, |a i| + eps) := by
      simp only [Pi.smul_apply, smul_eq_mul, abs_mul, abs_inv]
      rw [abs_of_pos (show 0 < ∑ i, |a i| + eps by linarith), ← Finset.mul_sum]
      ring
    exact ⟨⟨_, by positivity, rfl⟩, hv, hv ▸ hlt _ h0⟩
  · intro a
    unfold normalizeRow
    rw [if_neg (by decide), if_neg (by decide), if_pos rfl, maxL_abs a hn]
    simp only
    rw [fn]
  · intro a
    have h0 := norm_nonneg a
    have hv : ‖(‖a‖ + eps)⁻¹ • a‖ = ‖a‖ / (‖a‖ + eps) := by
      rw [norm_smul, norm_inv, Real.norm_eq_abs, abs_of_pos (by linarith)]
      ring
    exact ⟨⟨_, by positivity, rfl⟩, hv, hv ▸ hlt _ h0⟩

/-- **C152 (refuted)** No row handed out has norm one, whatever the data. -/
theorem C152_norms_refuted (eps : ℝ) (heps : 0 < eps) (rows : List (Fin n → ℝ)) (b : Fin n → ℝ) :
    (∀ out, normalizeVectors Real.sqrt eps (rows.map List.ofFn) "l2" = .ok out → List.ofFn b ∈ out →
      ‖pt b‖ ≠ 1) ∧
    (∀ out, normalizeVectors Real.sqrt eps (rows.map List.ofFn) "l1" = .ok out → List.ofFn b ∈ out →
      ∑ i, |b i| ≠ 1) ∧
    (∀ out, normalizeVectors Real.sqrt eps (rows.map List.ofFn) "max" = .ok out → List.ofFn b ∈ out →
      ‖b‖ ≠ 1) := by
  obtain ⟨⟨f, hf, h2⟩, ⟨g, hg, h1⟩, hmax⟩ := C152_norms_partial eps heps rows
  refine ⟨fun out ho hb => ?_, fun out ho hb => ?_, fun out ho hb => ?_⟩
  · rw [hf] at ho
    cases ho
    obtain ⟨a, -, e⟩ := List.mem_map.1 hb
    rw [← List.ofFn_injective e]
    exact (h2 a).2.2.ne
  · rw [hg] at ho
    cases ho
    obtain ⟨a, -, e⟩ := List.mem_map.1 hb
    rw [← List.ofFn_injective e]
    exact (h1 a).2.2.ne
  · rcases Nat.eq_zero_or_pos n with rfl | hn
    · rw [Subsingleton.elim b 0, norm_zero]
      exact zero_ne_one
    · obtain ⟨f, hf, h⟩ := hmax hn
      rw [hf] at ho
      cases ho
      obtain ⟨a, -, e⟩ := List.mem_map.1 hb
      rw [← List.ofFn_injective e]
      exact (h a).2.2.ne

/-- **C152** Min-max: entries keep their order and go into `[0, 1)`, the least to `0`; rows that are
constant become zero. -/
theorem C152_minmax (eps : ℝ) (heps : 0 < eps) (hn : 0 < n) (rows : List (Fin n → ℝ)) :
    ∃ f : (Fin n → ℝ) → Fin n → ℝ, normalizeVectors Real.sqrt eps (rows.map List.ofFn) "minmax" =
        .ok (rows.map fun a => List.ofFn (f a)) ∧
      ∀ a, (∀ i, 0 ≤ f a i ∧ f a i < 1) ∧ (∃ i, f a i = 0) ∧
        (∀ i j, f a i ≤ f a j ↔ a i ≤ a j) ∧
        (∃ p q, (∀ i, a p ≤ a i ∧ a i ≤ a q) ∧
          ∀ i j, f a i - f a j = (a i - a j) / (a q - a p + eps)) ∧
        ((∀ i j, a i = a j) → f a = 0) := by
  choose lo hi hlo hhi hleast hgreat using fun a : Fin n → ℝ => minL_maxL a hn
  refine ⟨fun a i => (a i - lo a) / (hi a - lo a + eps), ?_, ?_⟩
  · unfold normalizeVectors
    rw [if_pos (by simp), List.mapM_map]
    refine mapM_ok _ _ _ fun a _ => ?_
    unfold normalizeRow
    simp only [Function.comp]
    rw [if_neg (by decide), if_neg (by decide), if_neg (by decide), hlo, hhi]
    simp only [List.map_ofFn]
    rfl
  · intro a
    have h1 : ∀ i, lo a ≤ a i := fun i => (hleast a).2 ⟨i, rfl⟩
    have h2 : ∀ i, a i ≤ hi a := fun i => (hgreat a).2 ⟨i, rfl⟩
    obtain ⟨p, hp⟩ := (hleast a).1
    obtain ⟨q, hq⟩ := (hgreat a).1
    have hpos : 0 < hi a - lo a + eps := by have := h1 q; rw [hq] at this; linarith
    refine ⟨fun i => ⟨div_nonneg (by linarith [h1 i]) hpos.le, ?_⟩, ⟨p, by simp [hp]⟩, ?_, ?_, ?_⟩
    · rw [div_lt_one hpos]; linarith [h2 i]
    · intro i j
      rw [div_le_div_iff_of_pos_right hpos]
      constructor <;> intro h <;> linarith
    · refine ⟨p, q, fun i => ⟨hp ▸ h1 i, hq ▸ h2 i⟩, fun i j => ?_⟩
      rw [hp, hq]
      ring
    · intro h
      funext i
      simp [← hp, h i p]

/-- **C152** Unknown methods are refused, whatever the vectors. -/
theorem C152_refuses {F : Type} [Field F] [LinearOrder F] (sqrt : F → F) (eps : F)
    (rows : List (List F)) (method : String) (h : method ∉ ["l2", "l1", "max", "minmax"]) :
    normalizeVectors sqrt eps rows method = .error .validation := by
  unfold normalizeVectors
  rw [if_neg (by simpa using h)]

/-- **C152** Vectors without coordinates come back as they are for the two norms that are sums; the other
two methods raise `ValueError` for them. -/
theorem C152_empty {F : Type} [Field F] [LinearOrder F] (sqrt : F → F) (eps : F) (k : Nat) :
    (∀ m ∈ ["l2", "l1"], normalizeVectors sqrt eps (List.replicate k []) m = .ok (List.replicate k [])) ∧
    (∀ m ∈ ["max", "minmax"],
      normalizeVectors sqrt eps (List.replicate (k + 1) []) m = .error .value) := by
  have h1 : ∀ m ∈ ["l2", "l1"], normalizeRow sqrt eps m [] = .ok [] := by
    simp [normalizeRow]
  have h2 : ∀ m ∈ ["max", "minmax"], normalizeRow sqrt eps m [] = .error .value := by
    simp [normalizeRow, maxL, minL]
  refine ⟨fun m hm => ?_, fun m hm => ?_⟩
  · unfold normalizeVectors
    rw [if_pos (by simp at hm; tauto)]
    induction k with
    | zero => rfl
    | succ n ih =>
      rw [List.replicate_succ, List.mapM_cons, h1 m hm, ih]
      rfl
  · unfold normalizeVectors
    rw [if_pos (by simp at hm; tauto), List.replicate_succ, List.mapM_cons, h2 m hm]
    rfl

example : normalizeVectors id (1 : ℚ) [[1, -3, 0], [2, 2, 2]] "l1" =
      .ok [[1 / 5, -3 / 5, 0], [2 / 7, 2 / 7, 2 / 7]] ∧
    normalizeVectors id (1 : ℚ) [[1, -3, 0], [2, 2, 2]] "minmax" =
      .ok [[4 / 5, 0, 3 / 5], [0, 0, 0]] ∧
    normalizeVectors id (1 : ℚ) [[1, -3, 0]] "L2" = .error .validation := by
  decide +kernel

/-! ## C153 -/

/-- What each metric should give for two vectors. -/
noncomputable def simSpec (eps : ℝ) (metric : String) (a b : Fin n → ℝ) : ℝ :=
  if metric = "cosine" then inner ℝ (pt a) (pt b) / ((‖pt a‖ + eps) * (‖pt b‖ + eps))
  else if metric = "euclidean" then 1 / (1 + dist (pt a) (pt b))
  else inner ℝ (pt a) (pt b)

/-- **C153** Every entry of the similarity matrix, for each metric. -/
theorem C153_matrix (eps : ℝ) (rows : Fin m → Fin n → ℝ) (metric : String)
    (h : metric ∈ ["cosine", "euclidean", "dot"]) :
    similarityMatrix Real.sqrt eps (List.ofFn fun i => List.ofFn (rows i)) metric =
      .ok (List.ofFn fun i => List.ofFn fun j => simSpec eps metric (rows i) (rows j)) := by
  simp only [List.mem_cons, List.not_mem_nil, or_false] at h
  rcases h with rfl | rfl | rfl
  · unfold similarityMatrix cosineMatrix simSpec
    simp only [if_true, List.map_ofFn, Except.ok.injEq]
    congr 1
    funext i
    simp only [Function.comp]
    congr 1
    funext j
    have := dotL_scale (rows i) (rows j) (normL Real.sqrt (List.ofFn (rows i)) + eps)
      (normL Real.sqrt (List.ofFn (rows j)) + eps)
    rw [List.map_ofFn, List.map_ofFn, normL_ofFn, normL_ofFn] at this
    simpa [normL_ofFn] using this
  · unfold similarityMatrix euclidMatrix simSpec
    rw [if_neg (by decide), if_pos rfl]
    simp only [List.map_ofFn, Except.ok.injEq]
    congr 1
    funext i
    simp only [Function.comp]
    congr 1
    funext j
    simp only [Function.comp]
    rw [if_neg (by decide), if_pos trivial, zipWith_ofFn, normL_ofFn, dist_eq_norm]
    rfl
  · unfold similarityMatrix dotMatrix simSpec
    rw [if_neg (by decide), if_neg (by decide), if_pos rfl]
    simp only [List.map_ofFn, Except.ok.injEq]
    congr 1
    funext i
    simp only [Function.comp]
    congr 1
    funext j
    simp only [Function.comp]
    rw [if_neg (by decide), if_neg (by decide), dotL_ofFn]

/-- **C153** The matrix is symmetric; Euclidean similarities are positive, at most one, and one for
equal vectors only; cosine similarities are between minus one and one. -/
theorem C153_facts (eps : ℝ) (heps : 0 < eps) (a b : Fin n → ℝ) (metric : String) :
    simSpec eps metric a b = simSpec eps metric b a ∧
    (0 < simSpec eps "euclidean" a b ∧ simSpec eps "euclidean" a b ≤ 1) ∧
    (simSpec eps "euclidean" a b = 1 ↔ a = b) ∧ |simSpec eps "cosine" a b| < 1 := by
  have hd : 0 < 1 + dist (pt a) (pt b) := by have := dist_nonneg (x := pt a) (y := pt b); linarith
  have heu : simSpec eps "euclidean" a b = 1 / (1 + dist (pt a) (pt b)) := by
    unfold simSpec; rw [if_neg (by decide), if_pos rfl]
  refine ⟨?_, ⟨heu ▸ by positivity, ?_⟩, ?_, ?_⟩
  · unfold simSpec
    rw [dist_comm, real_inner_comm, mul_comm]
  · rw [heu, div_le_one hd]
    have := dist_nonneg (x := pt a) (y := pt b); linarith
  · rw [heu, div_eq_one_iff_eq hd.ne']
    constructor
    · intro h
      have h0 : dist (pt a) (pt b) = 0 := by linarith
      have := dist_eq_zero.1 h0
      funext i
      exact congrArg (fun v : EuclideanSpace ℝ (Fin n) => v i) this
    · rintro rfl
      simp
  · unfold simSpec
    rw [if_pos rfl, abs_div]
    have ha := norm_nonneg (pt a)
    have hb := norm_nonneg (pt b)
    have hp : 0 < (‖pt a‖ + eps) * (‖pt b‖ + eps) := by positivity
    rw [abs_of_pos hp, div_lt_one hp]
    have := abs_real_inner_le_norm (pt a) (pt b)
    nlinarith [mul_nonneg ha heps.le, mul_nonneg hb heps.le, mul_pos heps heps]

/-- **C153** Unknown metrics are refused, by the duplicate search too. -/
theorem C153_refuses {F : Type} [Field F] [LinearOrder F] (sqrt : F → F) (eps thr : F)
    (rows : List (List F)) (metric : String) (h : metric ∉ ["cosine", "euclidean", "dot"]) :
    similarityMatrix sqrt eps rows metric = .error .validation ∧
    findDuplicatesOf sqrt eps rows thr metric = .error .validation := by
  have e : similarityMatrix sqrt eps rows metric = .error .validation := by
    simp only [List.mem_cons, List.not_mem_nil, or_false, not_or] at h
    unfold similarityMatrix
    rw [if_neg h.1, if_neg h.2.1, if_neg h.2.2]
  exact ⟨e, by unfold findDuplicatesOf; rw [e]⟩

/-- Two groups that share an index are the same. -/
theorem groups_eq {D : Type} [LinearOrder D] (sim : Nat → Nat → D) (thr : D) (k : Nat)
    (g g' : List Nat) (hg : g ∈ findDuplicates sim thr k) (hg' : g' ∈ findDuplicates sim thr k)
    (x : Nat) (hx : x ∈ g) (hx' : x ∈ g') : g = g' := by
  by_contra hne
  have hd := (C74_groups sim thr k).2.1
  have h1 : (findDuplicates sim thr k).Pairwise (fun g g' => g ≠ g' → ∀ k ∈ g, k ∉ g') := by
    refine hd.imp ?_
    intro a b h _
    exact h
  have h2 : (findDuplicates sim thr k).Pairwise (flip fun g g' => g ≠ g' → ∀ k ∈ g, k ∉ g') := by
    refine hd.imp ?_
    intro a b h _ k hk hk'
    exact h k hk' hk
  exact List.Pairwise.forall_of_forall_of_flip (by simp) h1 h2 hg hg' hne x hx hx'

/-- **C153** Duplicates by distance: all members of a group are within `1 / threshold - 1` of its
first member, of two vectors that close one is in a group, and for thresholds up to one identical
vectors are in the same group. -/
theorem C153_duplicates (eps thr : ℝ) (ht : 0 < thr) (rows : Fin m → Fin n → ℝ) :
    ∃ G, findDuplicatesOf Real.sqrt eps (List.ofFn fun i => List.ofFn (rows i)) thr "euclidean" =
        .ok G ∧
      (∀ h t, h :: t ∈ G → ∀ j ∈ t, ∃ (hh : h < m) (hj : j < m),
        dist (pt (rows ⟨h, hh⟩)) (pt (rows ⟨j, hj⟩)) ≤ 1 / thr - 1) ∧
      (∀ i j : Fin m, i < j → dist (pt (rows i)) (pt (rows j)) ≤ 1 / thr - 1 →
        ∃ g ∈ G, (i : Nat) ∈ g ∨ (j : Nat) ∈ g) ∧
      (thr ≤ 1 → ∀ i j : Fin m, i ≠ j → rows i = rows j → ∃ g ∈ G, (i : Nat) ∈ g ∧ (j : Nat) ∈ g) := by
  have hM := C153_matrix eps rows "euclidean" (by simp)
  set M := List.ofFn fun i => List.ofFn fun j => simSpec eps "euclidean" (rows i) (rows j) with hMd
  set sim : Nat → Nat → ℝ := fun i j => (M.getD i []).getD j 0 with hsim
  have hval : ∀ i j : Fin m, sim i j = 1 / (1 + dist (pt (rows i)) (pt (rows j))) := by
    intro i j
    simp only [hsim, hMd]
    simp only [List.getD_eq_getElem?_getD, List.getElem?_ofFn, i.2, j.2, dif_pos, Option.getD_some]
    unfold simSpec
    rw [if_neg (by decide), if_pos rfl]
  have hthr : ∀ i j : Fin m, thr ≤ sim i j ↔ dist (pt (rows i)) (pt (rows j)) ≤ 1 / thr - 1 := by
    intro i j
    have hd : 0 < 1 + dist (pt (rows i)) (pt (rows j)) := by
      have := dist_nonneg (x := pt (rows i)) (y := pt (rows j)); linarith
    rw [hval, le_div_comm₀ ht hd]
    constructor <;> intro h <;> linarith
  obtain ⟨c1, -, c3, c4, -⟩ := C74_groups sim thr m
  refine ⟨findDuplicates sim thr m, ?_, ?_, ?_, ?_⟩
  · unfold findDuplicatesOf
    rw [hM]
    simp
    rfl
  · intro h t hg j hj
    obtain ⟨h', t', e, -, -, hlt, hs⟩ := c1 _ hg
    obtain ⟨rfl, rfl⟩ := List.cons.inj e
    have hh := hlt h (by simp)
    have hjm := hlt j (by simp [hj])
    exact ⟨hh, hjm, (hthr ⟨h, hh⟩ ⟨j, hjm⟩).1 (hs j hj)⟩
  · intro i j hij hd
    obtain ⟨h, t, hg, -, hm⟩ := c3 i j hij j.2 ((hthr i j).2 hd)
    exact ⟨_, hg, hm⟩
  · intro hle
    have key : ∀ i j : Fin m, i < j → rows i = rows j →
        ∃ g ∈ findDuplicates sim thr m, (i : Nat) ∈ g ∧ (j : Nat) ∈ g := by
      intro i j hij heq
      have hsame : ∀ h : Fin m, sim h i = sim h j := fun h => by rw [hval, hval, heq]
      -- a group whose first index is at most `i` and that holds one of the two
      have hs : thr ≤ sim i j := by
        rw [hthr, heq, dist_self, sub_nonneg, le_div_iff₀ ht]; linarith
      -- any group holding `i` holds `j`
      have step1 : ∀ h t, h :: t ∈ findDuplicates sim thr m → (i : Nat) ∈ h :: t →
          (j : Nat) ∈ h :: t := by
        intro h t hg hi
        obtain ⟨h0, t0, e, -, hsort, hlt, hsim'⟩ := c1 _ hg
        obtain ⟨rfl, rfl⟩ := List.cons.inj e
        have hhm := hlt h (by simp)
        have hhi : h ≤ i := by
          rcases List.mem_cons.1 hi with e | e
          · omega
          · exact ((List.pairwise_cons.1 hsort).1 _ e).le
        have hthj : thr ≤ sim h j := by
          rcases List.mem_cons.1 hi with e | e
          · rwa [← e]
          · have := hsim' _ e
            rwa [hsame ⟨h, hhm⟩] at this
        obtain ⟨h', t', hg', hle', hj'⟩ := c4 h t j hg (by omega) j.2 hthj
        by_cases hcase : h' = h
        · subst hcase
          rwa [groups_eq sim thr m _ _ hg hg' h' (by simp) (by simp)]
        · exfalso
          obtain ⟨h1, t1, e1, -, hsort', hlt', hsim''⟩ := c1 _ hg'
          obtain ⟨rfl, rfl⟩ := List.cons.inj e1
          have hjt : (j : Nat) ∈ t' := by
            rcases List.mem_cons.1 hj' with e | e
            · omega
            · exact e
          have hthi : thr ≤ sim h' i := by
            have := hsim'' _ hjt
            rwa [← hsame ⟨h', hlt' h' (by simp)⟩] at this
          obtain ⟨h2, t2, hg2, hle2, hi2⟩ := c4 h' t' i hg' (by omega) i.2 hthi
          have := groups_eq sim thr m _ _ hg hg2 i hi hi2
          have := (List.cons.inj this).1
          omega
      obtain ⟨h, t, hg, hhi, hm' | hm'⟩ := c3 i j hij j.2 hs
      · exact ⟨_, hg, hm', step1 h t hg hm'⟩
      · obtain ⟨h0, t0, e, -, -, hlt, hsim'⟩ := c1 _ hg
        obtain ⟨rfl, rfl⟩ := List.cons.inj e
        by_cases hcase : h = i
        · exact ⟨_, hg, by simp [hcase], hm'⟩
        · have hjt : (j : Nat) ∈ t := by
            rcases List.mem_cons.1 hm' with e | e
            · have : (i : Nat) < j := hij
              omega
            · exact e
          have hthi : thr ≤ sim h i := by
            have := hsim' _ hjt
            rwa [← hsame ⟨h, hlt h (by simp)⟩] at this
          obtain ⟨h2, t2, hg2, -, hi2⟩ := c4 h t i hg (by omega) i.2 hthi
          exact ⟨_, hg2, hi2, step1 h2 t2 hg2 hi2⟩
    intro i j hne heq
    rcases lt_or_gt_of_ne hne with h | h
    · exact key i j h heq
    · obtain ⟨g, hg, h1, h2⟩ := key j i h heq.symm
      exact ⟨g, hg, h2, h1⟩

/-- Three points on a line with `sqrt` replaced by the identity: distances 0, 1, 1. -/
example : findDuplicatesOf id (1 : ℚ) [[0], [1], [0]] (9 / 10) "euclidean" = .ok [[0, 2]] ∧
    similarityMatrix id (1 : ℚ) [[0], [1], [0]] "euclidean" =
      .ok [[1, 1 / 2, 1], [1 / 2, 1, 1 / 2], [1, 1 / 2, 1]] := by
  decide +kernel

end Valori.Props
