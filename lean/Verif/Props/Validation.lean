import Verif.Model.Validation
import Verif.Lemmas.Chunking
import Mathlib.Tactic.Linarith
import Mathlib.Tactic.Tauto

/-!
# Validators: C75, C98
-/

namespace Valori.Props
open Valori.Spec (IsTrim)

/-- A finite number. -/
def PyFinite (x : PyFloat) : Prop := ∃ q, x = .fin q

theorem vd_finite (l : List PyFloat) :
    (l.any PyFloat.isNan || l.any PyFloat.isInf) = false ↔ ∀ x ∈ l, PyFinite x := by
  rw [Bool.or_eq_false_iff, List.any_eq_false, List.any_eq_false]
  constructor
  · rintro ⟨h1, h2⟩ x hx
    cases x with
    | fin q => exact ⟨q, rfl⟩
    | inf n => exact absurd rfl (h2 _ hx)
    | nan => exact absurd (by simp [PyFloat.isNan]) (h1 _ hx)
  · intro h
    constructor
    · intro x hx
      obtain ⟨q, rfl⟩ := h x hx
      simp [PyFloat.isNan]
    · intro x hx
      obtain ⟨q, rfl⟩ := h x hx
      simp [PyFloat.isInf]

theorem vd_zero (l : List PyFloat) : l.all PyFloat.isZero = false ↔ ∃ x ∈ l, x ≠ .fin 0 := by
  rw [List.all_eq_false]
  simp [PyFloat.isZero]

theorem vd_any {α : Type} (o : Option α) (p : α → Bool) :
    o.any p = false ↔ ∀ m, o = some m → p m = false := by
  cases o <;> simp

/-- `validate_vector` accepts exactly the non-empty one-dimensional arrays of finite numbers that
meet the restrictions given. -/
theorem C75_vector (a : Option NdArr) (minDim maxDim : Option Int) (dtype : Option String)
    (allowZero : Bool) :
    validateVector a minDim maxDim dtype allowZero = .ok () ↔
      ∃ arr v, a = some arr ∧ arr.data = .d1 v ∧ v ≠ [] ∧
        (∀ m, minDim = some m → m ≤ v.length) ∧ (∀ m, maxDim = some m → (v.length : Int) ≤ m) ∧
        (∀ d, dtype = some d → arr.dtype = d) ∧ (allowZero = false → ∃ x ∈ v, x ≠ .fin 0) ∧
        ∀ x ∈ v, PyFinite x := by
  cases a with
  | none => simp [validateVector]
  | some arr =>
    unfold validateVector
    obtain ⟨dt, data⟩ := arr
    cases data with
    | d2 r c => simp
    | other => simp
    | d1 v =>
      simp only
      have hz := vd_zero v
      have hf := vd_finite v
      have h1 := vd_any minDim fun m => decide ((v.length : Int) < m)
      have h2 := vd_any maxDim fun m => decide ((v.length : Int) > m)
      have h3 := vd_any dtype fun d => decide (dt ≠ d)
      constructor
      · intro h
        split_ifs at h with g1 g2 g3 g4 g5 g6
        refine ⟨_, v, rfl, rfl, by simpa using g1, ?_, ?_, ?_, ?_, hf.1 (by simpa using g6)⟩
        · intro m hm
          have := h1.1 (by simpa using g2) m hm
          simpa using this
        · intro m hm
          have := h2.1 (by simpa using g3) m hm
          simpa using this
        · intro d hd
          have := h3.1 (by simpa using g4) d hd
          simpa using this
        · intro haz
          subst haz
          exact hz.1 (by simpa using g5)
      · rintro ⟨arr, w, e1, e2, g1, g2, g3, g4, g5, g6⟩
        obtain rfl := Option.some.inj e1
        obtain rfl := NdData.d1.inj e2
        rw [if_neg (by simpa using g1), if_neg, if_neg, if_neg, if_neg, if_neg]
        · rw [hf.2 g6]; simp
        · cases allowZero with
          | true => simp
          | false => rw [hz.2 (g5 rfl)]; simp
        · rw [h3.2 (fun d hd => by simpa using g4 d hd)]; simp
        · rw [h2.2 (fun d hd => by simpa using g3 d hd)]; simp
        · rw [h1.2 (fun d hd => by simpa using g2 d hd)]; simp

/-- `validate_vectors` accepts exactly the two-dimensional arrays with at least one row and column,
of finite numbers, that meet the restrictions given. -/
theorem C75_vectors (a : Option NdArr) (minDim maxDim : Option Int) (dtype : Option String)
    (allowZero : Bool) :
    validateVectors a minDim maxDim dtype allowZero = .ok () ↔
      ∃ arr rows cols, a = some arr ∧ arr.data = .d2 rows cols ∧ rows ≠ [] ∧ cols ≠ 0 ∧
        (∀ m, minDim = some m → m ≤ cols) ∧ (∀ m, maxDim = some m → (cols : Int) ≤ m) ∧
        (∀ d, dtype = some d → arr.dtype = d) ∧
        (allowZero = false → ∀ r ∈ rows, ∃ x ∈ r, x ≠ .fin 0) ∧
        ∀ r ∈ rows, ∀ x ∈ r, PyFinite x := by
  cases a with
  | none => simp [validateVectors]
  | some arr =>
    unfold validateVectors
    obtain ⟨dt, data⟩ := arr
    cases data with
    | d1 v => simp
    | other => simp
    | d2 rows cols =>
      simp only
      have hz : (rows.any fun r => r.all PyFloat.isZero) = false ↔ ∀ r ∈ rows, ∃ x ∈ r, x ≠ .fin 0 := by
        rw [List.any_eq_false]
        refine forall₂_congr fun r _ => ?_
        rw [← vd_zero, Bool.not_eq_true]
      have hf := vd_finite rows.flatten
      have h1 := vd_any minDim fun m => decide ((cols : Int) < m)
      have h2 := vd_any maxDim fun m => decide ((cols : Int) > m)
      have h3 := vd_any dtype fun d => decide (dt ≠ d)
      constructor
      · intro h
        split_ifs at h with g0 g1 g2 g3 g4 g5 g6
        refine ⟨_, rows, cols, rfl, rfl, by simpa using g0, by simpa using g1, ?_, ?_, ?_, ?_, ?_⟩
        · intro m hm
          have := h1.1 (by simpa using g2) m hm
          simpa using this
        · intro m hm
          have := h2.1 (by simpa using g3) m hm
          simpa using this
        · intro d hd
          have := h3.1 (by simpa using g4) d hd
          simpa using this
        · intro haz
          subst haz
          exact hz.1 (by simpa using g5)
        · intro r hr x hx
          refine hf.1 ?_ x (List.mem_flatten.2 ⟨r, hr, hx⟩)
          cases hb : (rows.flatten.any PyFloat.isNan || rows.flatten.any PyFloat.isInf) with
          | false => rfl
          | true => exact absurd hb g6
      · rintro ⟨arr, w, c, e1, e2, g0, g1, g2, g3, g4, g5, g6⟩
        obtain rfl := Option.some.inj e1
        obtain ⟨rfl, rfl⟩ := NdData.d2.inj e2
        rw [if_neg (by simpa using g0), if_neg (by simpa using g1), if_neg, if_neg, if_neg, if_neg,
          if_neg]
        · rw [hf.2]; simp
          intro x hx
          obtain ⟨r, hr, hx⟩ := List.mem_flatten.1 hx
          exact g6 r hr x hx
        · cases allowZero with
          | true => simp
          | false => rw [hz.2 (g5 rfl)]; simp
        · rw [h3.2 (fun d hd => by simpa using g4 d hd)]; simp
        · rw [h2.2 (fun d hd => by simpa using g3 d hd)]; simp
        · rw [h1.2 (fun d hd => by simpa using g2 d hd)]; simp

/-- `validate_k` accepts exactly the positive integers up to the limit, and `True` as `1`. -/
theorem C75_k (k : PyVal) (maxK : Option Int) :
    validateK k maxK = .ok () ↔
      ∃ i : Int, (k = .int i ∨ (k = .bool true ∧ i = 1)) ∧ 0 < i ∧ ∀ m, maxK = some m → i ≤ m := by
  have h := fun i : Int => vd_any maxK fun m => decide (i > m)
  have key : ∀ i : Int, ((if i ≤ 0 then .error .validation
      else if maxK.any fun m => decide (i > m) then .error .validation
      else .ok () : Except Err Unit) = .ok ()) ↔ 0 < i ∧ ∀ m, maxK = some m → i ≤ m := by
    intro i
    constructor
    · intro hh
      split_ifs at hh with g1 g2
      refine ⟨by omega, fun m hm => ?_⟩
      have := (h i).1 (by simpa using g2) m hm
      simpa using this
    · rintro ⟨g1, g2⟩
      rw [if_neg (by omega), if_neg]
      rw [(h i).2 (fun m hm => by simpa using g2 m hm)]; simp
  unfold validateK
  cases k with
  | int i =>
    simp only [PyVal.isInstance, Bool.true_eq_false, if_false]
    rw [key]
    simp
  | bool b =>
    simp only [PyVal.isInstance, Bool.true_eq_false, if_false]
    rw [key]
    cases b <;> simp
  | null => simp [PyVal.isInstance]
  | float x => simp [PyVal.isInstance]
  | str s => simp [PyVal.isInstance]
  | other t => simp [PyVal.isInstance]

/-- `validate_id` accepts exactly the integers (Booleans included) and the strings that are not
blank. -/
theorem C75_id (id : PyVal) :
    validateId id = .ok () ↔ (∃ i, id = .int i) ∨ (∃ b, id = .bool b) ∨
      ∃ s, id = .str s ∧ ∃ c ∈ s.toList, isSpace c = false := by
  unfold validateId
  cases id with
  | int i => simp [PyVal.isInstance]
  | bool b => simp [PyVal.isInstance]
  | null => simp [PyVal.isInstance]
  | float x => simp [PyVal.isInstance]
  | other t => simp [PyVal.isInstance]
  | str s =>
    simp only [PyVal.isInstance, Bool.true_or, Bool.true_eq_false, if_false]
    have key : (strip s.toList).length = 0 ↔ ¬ ∃ c ∈ s.toList, isSpace c = false := by
      rw [List.length_eq_zero_iff]
      constructor
      · rintro h ⟨c, hc, hf⟩
        rw [strip_eq_nil h c hc] at hf
        simp at hf
      · intro h
        obtain ⟨a, b, hab, -, -, hh, -⟩ := strip_isTrim s.toList
        cases hs : strip s.toList with
        | nil => rfl
        | cons x t =>
          exact absurd ⟨x, by rw [hab, hs]; simp, hh x (by rw [hs]; rfl)⟩ h
    constructor
    · intro h
      split_ifs at h with g
      rw [key, not_not] at g
      exact Or.inr (Or.inr ⟨s, rfl, g⟩)
    · rintro (⟨i, h⟩ | ⟨b, h⟩ | ⟨s', h, hc⟩)
      · cases h
      · cases h
      · obtain rfl := PyVal.str.inj h
        rw [if_neg (fun g => key.1 g hc)]

/-- When Python takes two ids for the same: `True == 1` and `False == 0`. -/
def SameId (x y : PyVal) : Prop :=
  x = y ∨ (∃ b : Bool, x = .bool b ∧ y = .int b.toNat) ∨ ∃ b : Bool, y = .bool b ∧ x = .int b.toNat

theorem sameId_iff (x y : PyVal) : SameId x y ↔ x.hashKey = y.hashKey := by
  unfold SameId
  cases x with
  | bool b =>
    cases y with
    | bool c => cases b <;> cases c <;> simp [PyVal.hashKey]
    | int i => cases b <;> simp [PyVal.hashKey, eq_comm]
    | _ => simp [PyVal.hashKey]
  | int i =>
    cases y with
    | bool c => cases c <;> simp [PyVal.hashKey]
    | _ => simp [PyVal.hashKey]
  | _ => cases y <;> simp [PyVal.hashKey]

/-- `validate_ids` accepts exactly the non-empty lists of valid ids no two of which are the same. -/
theorem C75_ids (ids : Option (List PyVal)) :
    validateIds ids = .ok () ↔ ∃ l, ids = some l ∧ l ≠ [] ∧ (∀ x ∈ l, validateId x = .ok ()) ∧
      l.Pairwise fun x y => ¬ SameId x y := by
  cases ids with
  | none => simp [validateIds]
  | some l =>
    have heach : validateEach l = .ok () ↔ ∀ x ∈ l, validateId x = .ok () := by
      induction l with
      | nil => simp [validateEach]
      | cons x l ih =>
        unfold validateEach
        cases hx : validateId x with
        | error e => simp [hx]
        | ok u => simp [hx, ih]
    have herr : validateEach l = .ok () ∨ validateEach l = .error .validation := by
      clear heach
      induction l with
      | nil => exact Or.inl rfl
      | cons x l ih =>
        unfold validateEach
        cases validateId x with
        | error e => exact Or.inr rfl
        | ok u => exact ih
    have hd : l.length = (l.map PyVal.hashKey).dedup.length ↔ l.Pairwise fun x y => ¬ SameId x y := by
      have hp : (l.Pairwise fun x y => ¬ SameId x y) ↔ (l.map PyVal.hashKey).Nodup := by
        rw [List.Nodup, List.pairwise_map]
        simp only [sameId_iff, ne_eq]
      rw [hp]
      constructor
      · intro h
        have : (l.map PyVal.hashKey).dedup = l.map PyVal.hashKey :=
          (List.dedup_sublist _).eq_of_length (by rw [← h, List.length_map])
        rw [← this]
        exact List.nodup_dedup _
      · intro h
        rw [List.dedup_eq_self.2 h, List.length_map]
    unfold validateIds
    simp only
    constructor
    · intro h
      by_cases g : l.length = 0
      · rw [if_pos g] at h
        cases h
      rw [if_neg g] at h
      rcases herr with he | he
      · rw [he] at h
        simp only at h
        split_ifs at h with g2
        exact ⟨l, rfl, by simpa using g, heach.1 he, hd.1 (not_not.1 g2)⟩
      · rw [he] at h
        simp at h
    · rintro ⟨l', e, g1, g2, g3⟩
      obtain rfl := Option.some.inj e
      rw [if_neg (by simpa using g1), heach.2 g2]
      simp only
      rw [if_neg (not_not.2 (hd.2 g3))]

/-- `validate_metric` accepts exactly the seven documented names. -/
theorem C75_metric (m : PyVal) :
    validateMetric m = .ok () ↔ m = .str "cosine" ∨ m = .str "euclidean" ∨ m = .str "dot_product" ∨
      m = .str "manhattan" ∨ m = .str "chebyshev" ∨ m = .str "hamming" ∨ m = .str "jaccard" := by
  cases m with
  | str s =>
    simp [validateMetric, validMetrics]
    tauto
  | _ => simp [validateMetric]

theorem config_iff (config : Option (Dict String PyVal)) (required : List String)
    (allowed : Option (List String)) (types : Dict String PyType)
    (ranges : Dict String (PyFloat × PyFloat)) :
    validateConfig config required allowed types ranges = .ok () ↔
      ∃ c, config = some c ∧ (∀ k ∈ required, ∃ v, c.get? k = some v) ∧
        (∀ al, allowed = some al → ∀ k v, (k, v) ∈ c → k ∈ al) ∧
        (∀ k t v, (k, t) ∈ types → c.get? k = some v → v.isInstance t = true) ∧
        ∀ k lo hi v x, (k, lo, hi) ∈ ranges → c.get? k = some v → v.num? = some x →
          x.lt lo = false ∧ hi.lt x = false := by
  cases config with
  | none => simp [validateConfig]
  | some c =>
    have h1 : ¬ ((required.filter fun k => !Dict.mem c k) ≠ []) ↔ ∀ k ∈ required, ∃ v, c.get? k = some v := by
      rw [not_not, List.filter_eq_nil_iff]
      refine forall₂_congr fun k _ => ?_
      rw [Bool.not_eq_true, Bool.not_eq_false', Dict.mem, Option.isSome_iff_exists]
    have h2 : (allowed.any fun al => decide ((Dict.keys c).filter (fun k => decide (k ∉ al)) ≠ [])) = false ↔
        ∀ al, allowed = some al → ∀ k v, (k, v) ∈ c → k ∈ al := by
      rw [vd_any]
      refine forall₂_congr fun al _ => ?_
      rw [decide_eq_false_iff_not, not_not, List.filter_eq_nil_iff]
      constructor
      · intro h k v hk
        have := h k (List.mem_map_of_mem (f := Prod.fst) hk)
        simpa using this
      · intro h k hk
        obtain ⟨⟨k', v⟩, hkv, rfl⟩ := List.mem_map.1 hk
        simpa using h k' v hkv
    unfold validateConfig
    simp only
    constructor
    · intro h
      split_ifs at h with g1 g2 g3 g4
      refine ⟨c, rfl, h1.1 g1, h2.1 (by simpa using g2), ?_, ?_⟩
      · intro k t v hk hv
        rw [Bool.not_eq_true, List.any_eq_false] at g3
        have := g3 _ hk
        simpa [hv] using this
      · intro k lo hi v x hk hv hx
        rw [Bool.not_eq_true, List.any_eq_false] at g4
        have := g4 _ hk
        simpa [hv, hx] using this
    · rintro ⟨c', e, g1, g2, g3, g4⟩
      obtain rfl := Option.some.inj e
      rw [if_neg (h1.2 g1), if_neg (by rw [h2.2 g2]; simp), if_neg, if_neg]
      · rw [Bool.not_eq_true, List.any_eq_false]
        rintro ⟨k, lo, hi⟩ hk
        simp only
        cases hv : Dict.get? c k with
        | none => simp
        | some v =>
          simp only
          cases hx : v.num? with
          | none => simp
          | some x =>
            obtain ⟨a, b⟩ := g4 k lo hi v x hk hv hx
            simp [a, b]
      · rw [Bool.not_eq_true, List.any_eq_false]
        rintro ⟨k, t⟩ hk
        simp only
        cases hv : Dict.get? c k with
        | none => simp
        | some v => simp [g3 k t v hk hv]

/-- Which values are of which type: truth values are integers too. -/
inductive IsA : PyVal → PyType → Prop
  | bool (b : Bool) : IsA (.bool b) .bool
  | boolInt (b : Bool) : IsA (.bool b) .int
  | int (i : Int) : IsA (.int i) .int
  | float (x : PyFloat) : IsA (.float x) .float
  | str (s : String) : IsA (.str s) .str

/-- The number a value stands for: `True` is 1, `False` is 0. -/
inductive Stands : PyVal → PyFloat → Prop
  | yes : Stands (.bool true) (.fin 1)
  | no : Stands (.bool false) (.fin 0)
  | int (i : Int) : Stands (.int i) (.fin i)
  | float (x : PyFloat) : Stands (.float x) x

/-- One number is smaller than another one; NaN is not comparable. -/
inductive Smaller : PyFloat → PyFloat → Prop
  | fin (a b : ℚ) (h : a < b) : Smaller (.fin a) (.fin b)
  | top (a : ℚ) : Smaller (.fin a) (.inf false)
  | bot (a : ℚ) : Smaller (.inf true) (.fin a)
  | both : Smaller (.inf true) (.inf false)

theorem isA_iff (v : PyVal) (t : PyType) : v.isInstance t = true ↔ IsA v t := by
  constructor
  · intro h
    cases v <;> cases t <;> simp [PyVal.isInstance] at h <;> constructor
  · intro h; cases h <;> rfl

theorem stands_iff (v : PyVal) (x : PyFloat) : v.num? = some x ↔ Stands v x := by
  constructor
  · intro h
    cases v with
    | bool b =>
      cases b <;> simp only [PyVal.num?, Option.some.injEq, if_true, if_false, Bool.false_eq_true] at h <;>
        subst h <;> constructor
    | int i => simp only [PyVal.num?, Option.some.injEq] at h; subst h; constructor
    | float y => simp only [PyVal.num?, Option.some.injEq] at h; subst h; constructor
    | null => simp [PyVal.num?] at h
    | str s => simp [PyVal.num?] at h
    | other n => simp [PyVal.num?] at h
  · intro h; cases h <;> rfl

theorem smaller_iff (x y : PyFloat) : x.lt y = true ↔ Smaller x y := by
  constructor
  · intro h
    rcases x with a | n | _ <;> rcases y with b | m | _ <;> simp [PyFloat.lt] at h
    · exact .fin a b h
    · subst h; exact .top a
    · subst h; exact .bot b
    · obtain ⟨rfl, rfl⟩ := h; exact .both
  · intro h
    cases h with
    | fin a b h => simp [PyFloat.lt, h]
    | top a => rfl
    | bot a => rfl
    | both => rfl

/-- `validate_config` accepts exactly the dictionaries with all required keys, no key that is not
allowed, values of the types named, and no number below or above its range. -/
theorem C75_config (config : Option (Dict String PyVal)) (required : List String)
    (allowed : Option (List String)) (types : Dict String PyType)
    (ranges : Dict String (PyFloat × PyFloat)) :
    validateConfig config required allowed types ranges = .ok () ↔
      ∃ c, config = some c ∧ (∀ k ∈ required, ∃ v, c.get? k = some v) ∧
        (∀ al, allowed = some al → ∀ k v, (k, v) ∈ c → k ∈ al) ∧
        (∀ k t v, (k, t) ∈ types → c.get? k = some v → IsA v t) ∧
        ∀ k lo hi v x, (k, lo, hi) ∈ ranges → c.get? k = some v → Stands v x →
          ¬ Smaller x lo ∧ ¬ Smaller hi x := by
  rw [config_iff]
  simp only [isA_iff, stands_iff, ← smaller_iff, Bool.not_eq_true]

/-- `True` is in the range from 1 to 1 and not in the range from 2 on, and is an `int`. -/
example : validateConfig (some [("k", .bool true)]) [] none [("k", .int)] [("k", .fin 1, .fin 1)] = .ok () ∧
    validateConfig (some [("k", .bool true)]) [] none [] [("k", .fin 2, .inf false)] = .error .validation := by
  decide +kernel

/-- `validate_metadata` accepts exactly nothing at all, or a dictionary of string keys and values
that `json.dumps` takes. -/
theorem C75_metadata (jsonOk : PyVal → Bool) (m : MetaArg) :
    validateMetadata jsonOk m = .ok () ↔ m = .none ∨ ∃ items, m = .dict items ∧
      ∀ k v, (k, v) ∈ items → (∃ s, k = .str s) ∧ jsonOk v = true := by
  cases m with
  | none => simp [validateMetadata]
  | other => simp [validateMetadata]
  | dict items =>
    unfold validateMetadata
    simp only
    have hs : ∀ k : PyVal, k.isInstance .str = true ↔ ∃ s, k = .str s := by
      intro k; cases k <;> simp [PyVal.isInstance]
    constructor
    · intro h
      split_ifs at h with g
      rw [Bool.not_eq_true, List.any_eq_false] at g
      refine Or.inr ⟨items, rfl, fun k v hkv => ?_⟩
      have := g _ hkv
      simp only [Bool.or_eq_true, Bool.not_eq_true', not_or, Bool.not_eq_false] at this
      exact ⟨(hs k).1 this.1, this.2⟩
    · rintro (h | ⟨l, e, h⟩)
      · cases h
      · obtain rfl := MetaArg.dict.inj e
        rw [if_neg]
        rw [Bool.not_eq_true, List.any_eq_false]
        rintro ⟨k, v⟩ hkv
        obtain ⟨a, b⟩ := h k v hkv
        simp [(hs k).2 a, b]

/-- Whatever is not accepted is refused with `ValidationError`. -/
theorem C75_error (jsonOk : PyVal → Bool) (a : Option NdArr) (mn mx : Option Int) (dt : Option String)
    (az : Bool) (k x : PyVal) (ids : Option (List PyVal)) (cfg : Option (Dict String PyVal))
    (req : List String) (al : Option (List String)) (ty : Dict String PyType)
    (rg : Dict String (PyFloat × PyFloat)) (m : MetaArg) (e : Err) :
    (validateVector a mn mx dt az = .error e → e = .validation) ∧
    (validateVectors a mn mx dt az = .error e → e = .validation) ∧
    (validateK k mx = .error e → e = .validation) ∧
    (validateId x = .error e → e = .validation) ∧
    (validateIds ids = .error e → e = .validation) ∧
    (validateMetric x = .error e → e = .validation) ∧
    (validateConfig cfg req al ty rg = .error e → e = .validation) ∧
    (validateMetadata jsonOk m = .error e → e = .validation) := by
  have hid : ∀ y, validateId y = .error e → e = .validation := by
    intro y h
    unfold validateId at h
    split_ifs at h
    · exact (Except.error.inj h).symm
    · split at h
      · split_ifs at h
        exact (Except.error.inj h).symm
      · cases h
  refine ⟨?_, ?_, ?_, hid x, ?_, ?_, ?_, ?_⟩
  · intro h
    unfold validateVector at h
    repeat' (first | split at h | split_ifs at h)
    all_goals first | exact (Except.error.inj h).symm | cases h
  · intro h
    unfold validateVectors at h
    repeat' (first | split at h | split_ifs at h)
    all_goals first | exact (Except.error.inj h).symm | cases h
  · intro h
    unfold validateK at h
    simp only at h
    split_ifs at h
    all_goals first | exact (Except.error.inj h).symm | cases h
  · intro h
    have heach : ∀ l, validateEach l = .error e → e = .validation := by
      intro l
      induction l with
      | nil => intro h; cases h
      | cons y l ih =>
        intro h
        unfold validateEach at h
        split at h
        · exact (Except.error.inj h).symm
        · exact ih h
    unfold validateIds at h
    split at h
    · exact (Except.error.inj h).symm
    · rename_i l
      by_cases g : l.length = 0
      · rw [if_pos g] at h
        exact (Except.error.inj h).symm
      · rw [if_neg g] at h
        split at h
        · rename_i e' he
          obtain rfl := Except.error.inj h
          exact heach _ he
        · split_ifs at h
          exact (Except.error.inj h).symm
  · intro h
    unfold validateMetric at h
    split at h
    · split_ifs at h
      exact (Except.error.inj h).symm
    · exact (Except.error.inj h).symm
  · intro h
    unfold validateConfig at h
    split at h
    · exact (Except.error.inj h).symm
    · split_ifs at h
      all_goals exact (Except.error.inj h).symm
  · intro h
    unfold validateMetadata at h
    split at h
    · cases h
    · exact (Except.error.inj h).symm
    · split_ifs at h
      exact (Except.error.inj h).symm

/-! Concrete cases. -/

def exVdArr : NdArr := ⟨"float32", .d1 [.fin 1, .fin 0, .fin (-1 / 2)]⟩

example : validateVector (some exVdArr) (some 2) (some 3) (some "float32") false = .ok () := by
  decide +kernel
example : validateVector (some exVdArr) (some 4) none none true = .error .validation := by
  decide +kernel
example : validateVector (some ⟨"float32", .d1 [.fin 1, .nan]⟩) none none none true =
    .error .validation := by decide +kernel
example : validateVectors (some ⟨"float64", .d2 [[.fin 1, .fin 0], [.fin 2, .inf true]] 2⟩) none none
    none true = .error .validation := by decide +kernel
example : validateK (.int 5) (some 5) = .ok () ∧ validateK (.int 6) (some 5) = .error .validation ∧
    validateK (.float (.fin 3)) none = .error .validation := by decide +kernel
example : validateIds (some [.int 1, .str "a", .str " b "]) = .ok () ∧
    validateIds (some [.int 1, .bool true]) = .error .validation ∧
    validateIds (some [.str " \t"]) = .error .validation := by decide +kernel

def exVdCfg : Dict String PyVal := [("k", .int 5), ("name", .str "x")]

example : validateConfig (some exVdCfg) ["k"] (some ["k", "name"]) [("k", .int), ("name", .str)]
    [("k", .fin 1, .fin 10)] = .ok () := by decide +kernel
example : validateConfig (some exVdCfg) ["k"] (some ["k", "name"]) [] [("k", .fin 1, .fin 4)] =
    .error .validation := by decide +kernel

/-! ## C98 -/

/-- A number that passes and is not NaN is in its range (finite bounds). -/
theorem C98_range_partial (c : Dict String PyVal) (required : List String)
    (allowed : Option (List String)) (types : Dict String PyType)
    (ranges : Dict String (PyFloat × PyFloat))
    (h : validateConfig (some c) required allowed types ranges = .ok ())
    (k : String) (lo hi q : ℚ) (v : PyVal) (hr : (k, .fin lo, .fin hi) ∈ ranges)
    (hv : c.get? k = some v) (hq : Stands v (.fin q)) : lo ≤ q ∧ q ≤ hi := by
  rw [← stands_iff] at hq
  obtain ⟨c', e, -, -, -, h4⟩ := (config_iff _ _ _ _ _).1 h
  obtain rfl := Option.some.inj e
  obtain ⟨a, b⟩ := h4 k _ _ v _ hr hv hq
  simp only [PyFloat.lt, decide_eq_false_iff_not, not_lt] at a b
  exact ⟨a, b⟩

/-- NaN passes every range check, and so does whatever is no number, a string for instance. -/
theorem C98_range_refuted (lo hi : PyFloat) :
    validateConfig (some [("threshold", .float .nan)]) ["threshold"] none [("threshold", .float)]
      [("threshold", lo, hi)] = .ok () ∧
    ∀ s, validateConfig (some [("threshold", .str s)]) ["threshold"] none []
      [("threshold", lo, hi)] = .ok () := by
  constructor
  · rw [config_iff]
    refine ⟨_, rfl, ?_, by simp, ?_, ?_⟩
    · intro k hk
      simp only [List.mem_singleton] at hk
      subst hk
      exact ⟨_, rfl⟩
    · intro k t v hk hv
      simp only [List.mem_singleton, Prod.mk.injEq] at hk
      obtain ⟨rfl, rfl⟩ := hk
      obtain rfl := Option.some.inj hv
      rfl
    · intro k l h v x hk hv hx
      simp only [List.mem_singleton, Prod.mk.injEq] at hk
      obtain ⟨rfl, rfl, rfl⟩ := hk
      obtain rfl := Option.some.inj hv
      obtain rfl := Option.some.inj hx
      exact ⟨rfl, by cases h <;> rfl⟩
  · intro s
    rw [config_iff]
    refine ⟨_, rfl, ?_, by simp, by simp, ?_⟩
    · intro k hk
      simp only [List.mem_singleton] at hk
      subst hk
      exact ⟨_, rfl⟩
    · intro k l h v x hk hv hx
      simp only [List.mem_singleton, Prod.mk.injEq] at hk
      obtain ⟨rfl, rfl, rfl⟩ := hk
      obtain rfl := Option.some.inj hv
      cases hx

example : validateConfig (some [("threshold", .float (.fin (1 / 2)))]) [] none []
    [("threshold", .fin 0, .fin 1)] = .ok () := by decide +kernel

end Valori.Props
