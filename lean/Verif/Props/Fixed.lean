import Verif.Model.Fixed
import Verif.Spec.Fixed
import Mathlib.Analysis.Real.Sqrt
import Mathlib.Tactic.Linarith
import Mathlib.Tactic.Ring
import Mathlib.Tactic.NormNum

/-!
# C200: distances of integer vectors
-/

namespace Valori.Props

open Valori Spec

/-- The numbers of a type. -/
abbrev IntType.Holds (d : IntType) (x : Int) : Prop := InRange d.bits d.signed x

theorem wrap_id (d : IntType) (hb : 0 < d.bits) {x : Int} (h : IntType.Holds d x) : d.wrap x = x := by
  obtain ⟨n, s⟩ := d
  obtain ⟨n, rfl⟩ : ∃ m, n = m + 1 := ⟨n - 1, by simp only at hb; omega⟩
  simp only [IntType.Holds, InRange, IntType.wrap, Nat.add_sub_cancel] at h ⊢
  have hp : (2 : Int) ^ (n + 1) = 2 * 2 ^ n := by ring
  cases s
  · simp only [Bool.false_eq_true, if_false] at h ⊢
    exact Int.emod_eq_of_lt h.1 h.2
  · simp only [if_true] at h ⊢
    have hc : ((2 ^ (n + 1) : Nat) : Int) = 2 * 2 ^ n := by push_cast; ring
    apply Int.bmod_eq_of_le <;> rw [hc] <;> omega

theorem wrap_add (d : IntType) (x y : Int) : d.wrap (d.wrap x + y) = d.wrap (x + y) := by
  unfold IntType.wrap
  split
  · exact Int.bmod_add_bmod ..
  · exact Int.emod_add_emod ..

theorem wrap_add' (d : IntType) (x y : Int) : d.wrap (x + d.wrap y) = d.wrap (x + y) := by
  rw [Int.add_comm, wrap_add, Int.add_comm]

theorem wrap_zero (d : IntType) : d.wrap 0 = 0 := by
  unfold IntType.wrap; split <;> simp

/-- Wrapping at every step is wrapping once. -/
theorem total_eq (d : IntType) (a : List Int) : d.total a = d.wrap a.sum := by
  have : ∀ (a : List Int) (x : Int), a.foldl (fun acc x => d.wrap (acc + x)) (d.wrap x) = d.wrap (x + a.sum) := by
    intro a
    induction a with
    | nil => intro x; simp
    | cons y a ih => intro x; rw [List.foldl_cons, wrap_add, ih, List.sum_cons, Int.add_assoc]
  have h := this a 0
  rw [wrap_zero, Int.zero_add] at h
  exact h

theorem dot_eq (d : IntType) (a b : List Int) :
    d.dot a b = d.wrap (List.zipWith (· * ·) a b).sum := by
  rw [IntType.dot, total_eq]
  have : ∀ l : List (Int), d.wrap (l.map d.wrap).sum = d.wrap l.sum := by
    intro l
    induction l with
    | nil => rfl
    | cons x l ih =>
      rw [List.map_cons, List.sum_cons, List.sum_cons, wrap_add, ← wrap_add', ih, wrap_add']
  rw [← this (List.zipWith (· * ·) a b), List.map_zipWith]

/-- The exact differences. -/
def diffs (a b : List Int) : List Int := List.zipWith (· - ·) a b

theorem floats_diffs (a : List Int) : ∀ b : List Int,
    (IntType.floats (diffs a b) : List ℝ) = List.zipWith (· - ·) (IntType.floats a) (IntType.floats b) := by
  induction a with
  | nil => intro b; simp [diffs, IntType.floats]
  | cons x a ih =>
    intro b
    cases b with
    | nil => simp [diffs, IntType.floats]
    | cons y b =>
      have := ih b
      simp only [diffs, IntType.floats, List.zipWith_cons_cons, List.map_cons] at this ⊢
      rw [this]; push_cast; rfl

theorem cast_dot (a : List Int) : ∀ b : List Int,
    (((List.zipWith (· * ·) a b).sum : Int) : ℝ) = dotL (IntType.floats a) (IntType.floats b) := by
  induction a with
  | nil => intro b; simp [dotL, IntType.floats]
  | cons x a ih =>
    intro b
    cases b with
    | nil => simp [dotL, IntType.floats]
    | cons y b =>
      have := ih b
      simp only [dotL, IntType.floats, List.zipWith_cons_cons, List.map_cons, List.sum_cons] at this ⊢
      rw [← this]; push_cast; rfl

theorem sub_exact (d : IntType) (hb : 0 < d.bits) (a : List Int) : ∀ b : List Int,
    (∀ x ∈ diffs a b, IntType.Holds d x) → d.sub a b = diffs a b := by
  induction a with
  | nil => intro b _; simp [IntType.sub, diffs]
  | cons x a ih =>
    intro b h
    cases b with
    | nil => simp [IntType.sub, diffs]
    | cons y b =>
      simp only [diffs, IntType.sub, List.zipWith_cons_cons, List.mem_cons, forall_eq_or_imp] at h ih ⊢
      rw [wrap_id d hb h.1, ih b h.2]

theorem abs_exact (d : IntType) (hb : 0 < d.bits) (l : List Int) (h : ∀ x ∈ l, IntType.Holds d |x|) :
    d.abs l = l.map fun x => |x| := by
  refine List.map_congr_left fun x hx => wrap_id d hb (h x hx)

theorem cast_abs (l : List Int) :
    (IntType.floats (l.map fun x => |x|) : List ℝ) = (IntType.floats l).map fun x => |x| := by
  simp [IntType.floats, Function.comp_def]

theorem cast_sum (l : List Int) : ((l.sum : Int) : ℝ) = (IntType.floats l : List ℝ).sum := by
  induction l with
  | nil => simp [IntType.floats]
  | cons x l ih => simp only [IntType.floats, List.map_cons, List.sum_cons] at ih ⊢; rw [← ih]; push_cast; rfl

theorem cast_foldl_max (l : List Int) : ∀ x : Int,
    ((l.foldl max x : Int) : ℝ) = (IntType.floats l : List ℝ).foldl max (x : ℝ) := by
  induction l with
  | nil => intro x; rfl
  | cons y l ih => intro x; simp only [IntType.floats, List.map_cons, List.foldl_cons] at ih ⊢; rw [ih]; push_cast; rfl

/-- A result as a float. -/
def asFloat : Except Err Int → Except Err ℝ
  | .ok x => .ok (x : ℝ)
  | .error e => .error e

/-- **C200 (partial).** The distance functions give for integer arrays what they give for the same numbers as
floats, as long as everything that is computed in the integer type fits into it: the products added up for
the scalar product and the cosine; the differences for the Euclidean distance; also their absolute values
for the other distances.  Missing for the full claim: results that do not fit, where it is false. -/
theorem C200_exact_partial (d : IntType) (hb : 0 < d.bits) (a b : List Int) :
    (IntType.Holds d (List.zipWith (· * ·) a b).sum →
      d.cosineSim Real.sqrt (some a) (some b) =
        cosineSim Real.sqrt (some (IntType.floats a)) (some (IntType.floats b)) ∧
      asFloat (d.dotProduct (some a) (some b)) =
        dotProduct (some (IntType.floats a)) (some (IntType.floats b))) ∧
    ((∀ x ∈ diffs a b, IntType.Holds d x) →
      d.euclidDist Real.sqrt (some a) (some b) =
        euclidDist Real.sqrt (some (IntType.floats a)) (some (IntType.floats b)) ∧
      (IntType.Holds d (List.zipWith (· * ·) (diffs a b) (diffs a b)).sum →
        asFloat (d.euclidSq (some a) (some b)) = euclidSq (some (IntType.floats a)) (some (IntType.floats b))) ∧
      ((∀ x ∈ diffs a b, IntType.Holds d |x|) →
        asFloat (d.chebyshev (some a) (some b)) =
          chebyshev (some (IntType.floats a)) (some (IntType.floats b)) ∧
        (IntType.Holds d.wide ((diffs a b).map fun x => |x|).sum →
          asFloat (d.manhattan (some a) (some b)) =
            manhattan (some (IntType.floats a)) (some (IntType.floats b))))) := by
  have hlen : ∀ l : List Int, (IntType.floats l : List ℝ).length = l.length := by
    intro l; simp [IntType.floats]
  by_cases hl : a.length = b.length
  swap
  · simp [IntType.cosineSim, cosineSim, IntType.dotProduct, dotProduct, IntType.euclidDist, euclidDist,
      IntType.euclidSq, euclidSq, IntType.chebyshev, chebyshev, IntType.manhattan, manhattan, onVecs, hlen, hl,
      asFloat]
  have hl' : (IntType.floats a : List ℝ).length = (IntType.floats b : List ℝ).length := by rw [hlen, hlen, hl]
  refine ⟨fun h => ⟨?_, ?_⟩, fun h => ⟨?_, fun h2 => ?_, fun h3 => ⟨?_, fun h4 => ?_⟩⟩⟩
  · simp only [IntType.cosineSim, cosineSim, onVecs, hl, hl', ne_eq, not_true, if_false]
    rw [dot_eq, wrap_id d hb h, cast_dot]
  · simp only [IntType.dotProduct, dotProduct, onVecs, hl, hl', ne_eq, not_true, if_false, asFloat]
    rw [dot_eq, wrap_id d hb h, cast_dot]
  · simp only [IntType.euclidDist, euclidDist, onVecs, hl, hl', ne_eq, not_true, if_false]
    rw [sub_exact d hb a b h, floats_diffs]
  · simp only [IntType.euclidSq, euclidSq, onVecs, hl, hl', ne_eq, not_true, if_false, asFloat]
    rw [sub_exact d hb a b h, dot_eq, wrap_id d hb h2, cast_dot, floats_diffs]
  · simp only [IntType.chebyshev, chebyshev, onVecs, hl, hl', ne_eq, not_true, if_false]
    rw [sub_exact d hb a b h, abs_exact d hb _ h3, ← floats_diffs, ← cast_abs]
    cases (diffs a b).map fun x => |x| with
    | nil => rfl
    | cons x xs =>
      simp only [asFloat, IntType.floats, List.map_cons, maxL]
      rw [cast_foldl_max]; rfl
  · simp only [IntType.manhattan, manhattan, onVecs, hl, hl', ne_eq, not_true, if_false, asFloat]
    have hw : 0 < d.wide.bits := by simp only [IntType.wide]; omega
    rw [sub_exact d hb a b h, abs_exact d hb _ h3, total_eq, wrap_id _ hw h4, cast_sum, cast_abs, floats_diffs]

/-- **C200 (partial).** The same for the distances of the HNSW and IVF indices: the cosine distance, 1 if
one vector is zero, is exact if the scalar product fits, the Euclidean one if the differences fit; other
metrics are refused. -/
theorem C200_index_partial (d : IntType) (hb : 0 < d.bits) (a b : List Int) :
    (IntType.Holds d (List.zipWith (· * ·) a b).sum →
      ((∀ x ∈ a, x = 0) ∨ (∀ x ∈ b, x = 0) → d.indexDist Real.sqrt "cosine" a b = .ok (1 : ℝ)) ∧
      ((∃ x ∈ a, x ≠ 0) → (∃ x ∈ b, x ≠ 0) → d.indexDist Real.sqrt "cosine" a b =
        .ok (1 - ((List.zipWith (· * ·) a b).sum : Int) /
          (√((a.map fun x => x * x).sum : Int) * √((b.map fun x => x * x).sum : Int))))) ∧
    ((∀ x ∈ diffs a b, IntType.Holds d x) → d.indexDist Real.sqrt "euclidean" a b =
      .ok √(((diffs a b).map fun x => x * x).sum : Int)) ∧
    ∀ m, m ≠ "cosine" → m ≠ "euclidean" → d.indexDist Real.sqrt m a b = .error .index := by
  have hn : ∀ l : List Int, normL Real.sqrt (IntType.floats l) = √((l.map fun x => x * x).sum : Int) := by
    intro l
    unfold normL
    rw [cast_sum]
    simp [IntType.floats, Function.comp_def]
  have h0 : ∀ l : List Int, √((l.map fun x => x * x).sum : Int) = 0 ↔ ∀ x ∈ l, x = 0 := by
    intro l
    have hnn : ∀ l : List Int, 0 ≤ (l.map fun x => x * x).sum := by
      intro l
      refine List.sum_nonneg fun y hy => ?_
      obtain ⟨z, -, rfl⟩ := List.mem_map.1 hy
      exact mul_self_nonneg z
    rw [Real.sqrt_eq_zero (by exact_mod_cast hnn l)]
    norm_cast
    induction l with
    | nil => simp
    | cons y l ih =>
      simp only [List.map_cons, List.sum_cons, List.mem_cons, forall_eq_or_imp, ← ih]
      have := hnn l
      have := mul_self_nonneg y
      constructor
      · intro h
        exact ⟨mul_self_eq_zero.1 (by omega), by omega⟩
      · rintro ⟨rfl, h⟩
        omega
  refine ⟨fun h => ⟨fun hz => ?_, fun h1 h2 => ?_⟩, fun h => ?_, fun m h1 h2 => ?_⟩
  · simp only [IntType.indexDist, if_true, hn, h0]
    rw [if_pos hz]
  · simp only [IntType.indexDist, if_true, hn, h0]
    rw [if_neg (by push Not; exact ⟨h1, h2⟩), dot_eq, wrap_id d hb h]
  · have hne : ("euclidean" : String) ≠ "cosine" := by decide
    simp only [IntType.indexDist, if_neg hne, if_true, hn]
    rw [sub_exact d hb a b h]
  · simp only [IntType.indexDist, if_neg h1, if_neg h2]

/-- In `uint8`, with the larger numbers on the left. -/
example : (∀ x ∈ diffs [200, 10] [195, 7], IntType.Holds ⟨8, false⟩ x ∧ IntType.Holds ⟨8, false⟩ |x|) ∧
    IntType.Holds ⟨8, false⟩ (List.zipWith (· * ·) (diffs [200, 10] [195, 7]) (diffs [200, 10] [195, 7])).sum ∧
    IntType.manhattan ⟨8, false⟩ (some [200, 10]) (some [195, 7]) = .ok 8 ∧
    IntType.euclidSq ⟨8, false⟩ (some [200, 10]) (some [195, 7]) = .ok 34 := by decide

theorem mem_diffs (a : List Int) : ∀ (b : List Int) (x : Int), x ∈ diffs a b → ∃ u ∈ a, ∃ v ∈ b, x = u - v := by
  induction a with
  | nil => intro b x h; simp [diffs] at h
  | cons u a ih =>
    intro b x h
    cases b with
    | nil => simp [diffs] at h
    | cons v b =>
      simp only [diffs, List.zipWith_cons_cons, List.mem_cons] at h ih
      rcases h with rfl | h
      · exact ⟨u, by simp, v, by simp, rfl⟩
      · obtain ⟨u', h1, v', h2, h3⟩ := ih b x h
        exact ⟨u', by simp [h1], v', by simp [h2], h3⟩

/-- **C200 (partial).** In a signed type it is enough for the Euclidean and the Chebyshev distance that one
bit is unused in every number. -/
theorem C200_room_partial (d : IntType) (hs : d.signed = true) (hb : 2 ≤ d.bits) (a b : List Int)
    (ha : ∀ x ∈ a, InRange (d.bits - 1) true x) (hb' : ∀ x ∈ b, InRange (d.bits - 1) true x) :
    d.euclidDist Real.sqrt (some a) (some b) =
        euclidDist Real.sqrt (some (IntType.floats a)) (some (IntType.floats b)) ∧
    asFloat (d.chebyshev (some a) (some b)) =
        chebyshev (some (IntType.floats a)) (some (IntType.floats b)) := by
  have key : ∀ x ∈ diffs a b, IntType.Holds d x ∧ IntType.Holds d |x| := by
    intro x hx
    obtain ⟨u, hu, v, hv, rfl⟩ := mem_diffs a b x hx
    obtain ⟨n, s⟩ := d
    obtain ⟨n, rfl⟩ : ∃ m, n = m + 2 := ⟨n - 2, by simp only at hb; omega⟩
    simp only at hs
    subst hs
    have h1 := ha u hu
    have h2 := hb' v hv
    have e : n + 2 - 1 = n + 1 := by omega
    have hp : (2 : Int) ^ (n + 1) = 2 * 2 ^ n := by ring
    simp only [IntType.Holds, InRange, if_true, e, Nat.add_sub_cancel, hp] at h1 h2 ⊢
    refine ⟨⟨by omega, by omega⟩, ?_, ?_⟩
    · have := abs_nonneg (u - v)
      have : (0 : Int) < 2 ^ n := by positivity
      omega
    · rw [abs_lt]; omega
  obtain ⟨h1, -, h2⟩ := (C200_exact_partial d (by omega) a b).2 fun x hx => (key x hx).1
  exact ⟨h1, (h2 fun x hx => (key x hx).2).1⟩

/-- In `int8` with numbers between -64 and 63. -/
example : (∀ x ∈ [-64, 63, 0], InRange (8 - 1) true x) ∧ InRange 8 true (63 - (-64)) ∧
    IntType.manhattan ⟨8, true⟩ (some [-64, 63, 0]) (some [63, -64, 1]) = .ok 255 := by decide

theorem unsigned_pair (n : Nat) {x y : Int} (hx : InRange n false x) (hy : InRange n false y) :
    (x - y) % 2 ^ n + (y - x) % 2 ^ n = 2 ^ n * (if x = y then 0 else 1) := by
  simp only [InRange, Bool.false_eq_true, if_false] at hx hy
  have key : ∀ u v : Int, 0 ≤ u → u < v → v < 2 ^ n → (u - v) % 2 ^ n + (v - u) % 2 ^ n = 2 ^ n := by
    intro u v h0 h h'
    rw [Int.emod_eq_of_lt (a := v - u) (by omega) (by omega), ← Int.add_emod_right,
      Int.emod_eq_of_lt (a := u - v + 2 ^ n) (by omega) (by omega)]
    omega
  by_cases h : x = y
  · subst h; simp
  · rw [if_neg h, mul_one]
    rcases lt_or_gt_of_ne h with h | h
    · exact key x y hx.1 h hy.2
    · rw [add_comm]; exact key y x hy.1 h hx.2

theorem unsigned_manhattan (n : Nat) (hn : n ≤ 32) (a b : List Int) (hl : a.length = b.length)
    (hlen : a.length < 2 ^ 32) :
    (⟨n, false⟩ : IntType).manhattan (some a) (some b) =
      .ok (List.zipWith (fun x y => (x - y) % 2 ^ n) a b).sum := by
  have hpos : (0 : Int) < 2 ^ n := by positivity
  have h1 : (⟨n, false⟩ : IntType).abs ((⟨n, false⟩ : IntType).sub a b) =
      List.zipWith (fun x y => (x - y) % 2 ^ n) a b := by
    simp only [IntType.abs, IntType.sub, List.map_zipWith, IntType.wrap, Bool.false_eq_true, if_false]
    congr 1
    funext x y
    rw [abs_of_nonneg (Int.emod_nonneg _ hpos.ne'), Int.emod_emod]
  have h2 : ∀ (a b : List Int), 0 ≤ (List.zipWith (fun x y => (x - y) % 2 ^ n) a b).sum ∧
      (List.zipWith (fun x y => (x - y) % 2 ^ n) a b).sum ≤ (a.length : Int) * 2 ^ 32 := by
    intro a
    induction a with
    | nil => intro b; simp
    | cons x a ih =>
      intro b
      cases b with
      | nil => simp
      | cons y b =>
        obtain ⟨i1, i2⟩ := ih b
        have h3 := Int.emod_nonneg (x - y) hpos.ne'
        have h4 := Int.emod_lt_of_pos (x - y) hpos
        have h5 : (2 : Int) ^ n ≤ 2 ^ 32 := by
          apply pow_le_pow_right₀ (by norm_num) hn
        simp only [List.zipWith_cons_cons, List.sum_cons, List.length_cons]
        push_cast
        constructor
        · omega
        · nlinarith
  obtain ⟨h3, h4⟩ := h2 a b
  simp only [IntType.manhattan, onVecs, hl, ne_eq, not_true, if_false]
  rw [h1, total_eq, wrap_id]
  · simp [IntType.wide]
  · have hw : max n 64 = 64 := by omega
    simp only [IntType.Holds, IntType.wide, InRange, hw, Bool.false_eq_true, if_false]
    refine ⟨h3, ?_⟩
    have : (a.length : Int) < 2 ^ 32 := by exact_mod_cast hlen
    calc _ ≤ (a.length : Int) * 2 ^ 32 := h4
      _ < 2 ^ 64 := by nlinarith

/-- **C200 (refuted).** In an unsigned type the Manhattan distance is not symmetric: the distances in the two
directions add up to `2 ^ bits` for every coordinate in which the vectors differ, so that for different
vectors at most one of them can be the true one, unless that is half of the sum. -/
theorem C200_manhattan_refuted (n : Nat) (hn : n ≤ 32) (a b : List Int) (hl : a.length = b.length)
    (hlen : a.length < 2 ^ 32) (ha : ∀ x ∈ a, InRange n false x) (hb : ∀ x ∈ b, InRange n false x) :
    ∃ p q : Int, (⟨n, false⟩ : IntType).manhattan (some a) (some b) = .ok p ∧
      (⟨n, false⟩ : IntType).manhattan (some b) (some a) = .ok q ∧
      p + q = 2 ^ n * ((List.zipWith (fun x y => if x = y then 0 else 1) a b).sum : Int) := by
  refine ⟨_, _, unsigned_manhattan n hn a b hl hlen, unsigned_manhattan n hn b a hl.symm (hl ▸ hlen), ?_⟩
  clear hlen hl
  induction a generalizing b with
  | nil => simp
  | cons x a ih =>
    cases b with
    | nil => simp
    | cons y b =>
      have h1 := ih b (fun x hx => ha x (List.mem_cons_of_mem _ hx)) fun x hx => hb x (List.mem_cons_of_mem _ hx)
      have h2 := unsigned_pair n (ha x List.mem_cons_self) (hb y List.mem_cons_self)
      simp only [List.zipWith_cons_cons, List.sum_cons, mul_add]
      linarith

example : IntType.manhattan ⟨8, false⟩ (some [1, 5]) (some [2, 3]) = .ok 257 ∧
    IntType.manhattan ⟨8, false⟩ (some [2, 3]) (some [1, 5]) = .ok 255 := by decide

/-- **C200 (refuted).** Whatever the type, the Euclidean distance of an HNSW or IVF index puts the farthest
vector before a near one: there are a query and two vectors with the true distances in one order and the
computed ones in the other. -/
theorem C200_order_refuted (d : IntType) (hb : 2 ≤ d.bits) :
    ∃ q near far x y, IntType.Holds d q ∧ IntType.Holds d near ∧ IntType.Holds d far ∧
      |q - near| < |q - far| ∧
      d.indexDist Real.sqrt "euclidean" [q] [near] = .ok x ∧
      d.indexDist Real.sqrt "euclidean" [q] [far] = .ok y ∧ y < x := by
  have hn : ∀ z : Int, normL Real.sqrt (IntType.floats [z]) = |(z : ℝ)| := by
    intro z
    simp only [normL, IntType.floats, List.map_cons, List.map_nil, List.sum_cons, List.sum_nil, add_zero]
    exact Real.sqrt_mul_self_eq_abs _
  have hd : ∀ q z : Int, d.indexDist Real.sqrt "euclidean" [q] [z] = .ok |((d.wrap (q - z) : Int) : ℝ)| := by
    intro q z
    rw [← hn]
    simp [IntType.indexDist, IntType.sub]
  obtain ⟨n, s⟩ := d
  obtain ⟨n, rfl⟩ : ∃ m, n = m + 2 := ⟨n - 2, by simp only at hb; omega⟩
  have hp : (2 : Int) ^ (n + 2) = 4 * 2 ^ n := by ring
  have hp' : (2 : Int) ^ (n + 1) = 2 * 2 ^ n := by ring
  have hpos : (0 : Int) < 2 ^ n := by positivity
  have e : n + 2 - 1 = n + 1 := by omega
  cases s
  · refine ⟨0, 1, 2 ^ (n + 2) - 1, _, _, ?_, ?_, ?_, ?_, hd _ _, hd _ _, ?_⟩
    · simp only [IntType.Holds, InRange, Bool.false_eq_true, if_false]; omega
    · simp only [IntType.Holds, InRange, Bool.false_eq_true, if_false]; omega
    · simp only [IntType.Holds, InRange, Bool.false_eq_true, if_false]; omega
    · rw [abs_of_nonpos (by omega), abs_of_nonpos (by omega)]; omega
    · have h1 : IntType.wrap ⟨n + 2, false⟩ (0 - 1) = 2 ^ (n + 2) - 1 := by
        simp only [IntType.wrap, Bool.false_eq_true, if_false]
        rw [← Int.add_emod_right, Int.emod_eq_of_lt (by omega) (by omega)]; omega
      have h2 : IntType.wrap ⟨n + 2, false⟩ (0 - (2 ^ (n + 2) - 1)) = 1 := by
        simp only [IntType.wrap, Bool.false_eq_true, if_false]
        rw [← Int.add_emod_right, Int.emod_eq_of_lt (by omega) (by omega)]; omega
      rw [h1, h2, ← Int.cast_abs, ← Int.cast_abs]
      rw [Int.cast_lt, abs_of_pos (by omega), abs_of_pos (by omega)]; omega
  · refine ⟨-2 ^ (n + 1), 0, 2 ^ (n + 1) - 1, _, _, ?_, ?_, ?_, ?_, hd _ _, hd _ _, ?_⟩
    · simp only [IntType.Holds, InRange, if_true, e]; omega
    · simp only [IntType.Holds, InRange, if_true, e]; omega
    · simp only [IntType.Holds, InRange, if_true, e]; omega
    · rw [abs_of_nonpos (by omega), abs_of_nonpos (by omega)]; omega
    · have h1 : IntType.wrap ⟨n + 2, true⟩ (-2 ^ (n + 1) - 0) = -2 ^ (n + 1) := by
        rw [Int.sub_zero]
        refine wrap_id _ (by simp) ?_
        simp only [IntType.Holds, InRange, if_true, e]; omega
      have h2 : IntType.wrap ⟨n + 2, true⟩ (-2 ^ (n + 1) - (2 ^ (n + 1) - 1)) = 1 := by
        have h3 : -2 ^ (n + 1) - (2 ^ (n + 1) - 1) = (1 : Int) - ((2 ^ (n + 2) : Nat) : Int) := by
          push_cast; omega
        have h4 : IntType.wrap ⟨n + 2, true⟩ 1 = 1 := by
          refine wrap_id _ (by simp) ?_
          simp only [IntType.Holds, InRange, if_true, e]; omega
        rw [h3]
        simp only [IntType.wrap, if_true] at h4 ⊢
        rw [← Int.one_mul ((2 ^ (n + 2) : Nat) : Int), Int.sub_mul_bmod_self_right]
        exact h4
      rw [h1, h2, ← Int.cast_abs, ← Int.cast_abs]
      rw [Int.cast_lt, abs_of_pos (by omega), abs_of_nonpos (by omega)]; omega

/-- **C200 (refuted).** The squared distance of different vectors may be 0, and the cosine of a vector with
itself may be 0. -/
theorem C200_zero_refuted :
    (IntType.euclidSq ⟨8, false⟩ (some [16]) (some [0]) = .ok 0) ∧
    (IntType.euclidSq ⟨8, true⟩ (some [16]) (some [0]) = .ok 0) ∧
    (IntType.cosineSim Real.sqrt ⟨8, false⟩ (some [16]) (some [16]) = .ok (0 : ℝ)) ∧
    cosineSim Real.sqrt (some (IntType.floats [16])) (some (IntType.floats [16])) = .ok (1 : ℝ) := by
  have hd : IntType.dot ⟨8, false⟩ [16] [16] = 0 := by decide
  have hn : normL Real.sqrt (IntType.floats [16]) = 16 := by
    simp only [normL, IntType.floats, List.map_cons, List.map_nil, List.sum_cons, List.sum_nil, add_zero]
    push_cast
    exact Real.sqrt_mul_self (by norm_num)
  refine ⟨by decide, by decide, ?_, ?_⟩
  · simp [IntType.cosineSim, onVecs, hd, hn, clipTo]
  · simp only [cosineSim, onVecs, hn, ne_eq, not_true, if_false]
    norm_num [dotL, IntType.floats, clipTo]

end Valori.Props
