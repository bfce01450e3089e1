import Verif.Props.Configs
import Mathlib.Tactic.SplitIfs

/-!
# Which configurations make an index and a storage: C209
-/

namespace Valori.Props

/-- The value of a parameter is a number greater than zero. -/
def IsPositive (v : Cfg) : Prop :=
  (∃ i : Int, v = .int i ∧ 0 < i) ∨ (∃ q : ℚ, v = .num q ∧ 0 < q) ∨ v = .bool true

/-- Not something that can be compared with a number. -/
def NoNumber (v : Cfg) : Prop :=
  v = .null ∨ (∃ s, v = .str s) ∨ ∃ d, v = .dict d

/-- The seeds NumPy takes. -/
def IsSeed (v : Cfg) : Prop :=
  v = .null ∨ (∃ b, v = .bool b) ∨ ∃ i : Int, v = .int i ∧ 0 ≤ i ∧ i < 4294967296

/-- The value under a key, or the documented default. -/
def valueOr (c : Conf) (k : String) (dflt : Cfg) (v : Cfg) : Prop :=
  (∃ w, c.get? k = some w ∧ v = w) ∨ (c.get? k = none ∧ v = dflt)

theorem valueOr_iff (c : Conf) (k : String) (dflt v : Cfg) : valueOr c k dflt v ↔ v = getD c k dflt := by
  unfold valueOr getD
  cases h : c.get? k with
  | none => simp
  | some w => simp [eq_comm]

theorem positive_ok (v : Cfg) : positive v = .ok () ↔ IsPositive v := by
  unfold positive IsPositive
  cases v with
  | null => simp [Cfg.asNum]
  | str s => simp [Cfg.asNum]
  | dict d => simp [Cfg.asNum]
  | bool b => cases b <;> simp [Cfg.asNum]
  | int i =>
    simp only [Cfg.asNum]
    by_cases h : (i : ℚ) ≤ 0
    · have : ¬ 0 < i := by
        have := Int.cast_nonpos.1 h
        omega
      simp [this, h]
    · have : 0 < i := by
        rw [Int.cast_nonpos] at h
        omega
      simp [this]
  | num q =>
    simp only [Cfg.asNum]
    by_cases h : q ≤ 0
    · simp [h]
    · simp [h, not_le.1 h]

theorem positive_err (v : Cfg) (e : Err) (h : positive v = .error e) :
    (NoNumber v ∧ e = .typeE) ∨ (¬ NoNumber v ∧ e = .index) := by
  unfold positive at h
  unfold NoNumber
  cases v with
  | null => simp [Cfg.asNum] at h ⊢; exact h.symm
  | str s => simp [Cfg.asNum] at h ⊢; exact h.symm
  | dict d => simp [Cfg.asNum] at h ⊢; exact h.symm
  | bool b => simp only [Cfg.asNum] at h; split_ifs at h <;> simp_all
  | int i => simp only [Cfg.asNum] at h; split_ifs at h; simp_all
  | num q => simp only [Cfg.asNum] at h; split_ifs at h; simp_all

theorem rngSeed_ok (v : Cfg) : rngSeed v = .ok () ↔ IsSeed v := by
  unfold rngSeed IsSeed
  cases v with
  | int i =>
    simp only
    split_ifs with h
    · simp; omega
    · simp; omega
  | _ => simp

/-- The five index types. -/
def indexTypes : List String := ["flat", "hnsw", "ivf", "lsh", "annoy"]

theorem create_lsh (lib : Bool) (c : Conf) :
    (∃ i, createIndex lib (.str "lsh") (.dict c) = .ok i) ↔
      IsPositive (getD c "num_hash_tables" (.int 10)) ∧ IsPositive (getD c "hash_size" (.int 16)) ∧
      IsPositive (getD c "num_projections" (.int 64)) ∧ IsSeed (getD c "random_seed" (.int 42)) := by
  rw [← positive_ok, ← positive_ok, ← positive_ok, ← rngSeed_ok]
  have e1 : (Cfg.str "lsh" = .str "flat") = False := by simp
  have e2 : (Cfg.str "lsh" = .str "hnsw") = False := by simp
  have e3 : (Cfg.str "lsh" = .str "ivf") = False := by simp
  unfold createIndex
  simp only [e1, e2, e3, if_false, if_true]
  cases positive (getD c "num_hash_tables" (.int 10)) <;>
  cases positive (getD c "hash_size" (.int 16)) <;>
  cases positive (getD c "num_projections" (.int 64)) <;>
  cases rngSeed (getD c "random_seed" (.int 42)) <;>
  simp [bind, Except.bind]

theorem create_annoy (lib : Bool) (c : Conf) :
    (∃ i, createIndex lib (.str "annoy") (.dict c) = .ok i) ↔
      lib = true ∧ IsPositive (getD c "num_trees" (.int 10)) ∧
        ∃ m ∈ ["angular", "euclidean", "manhattan", "hamming", "dot"],
          getD c "metric" (.str "angular") = .str m := by
  rw [← positive_ok]
  have e1 : (Cfg.str "annoy" = .str "flat") = False := by simp
  have e2 : (Cfg.str "annoy" = .str "hnsw") = False := by simp
  have e3 : (Cfg.str "annoy" = .str "ivf") = False := by simp
  have e4 : (Cfg.str "annoy" = .str "lsh") = False := by simp
  unfold createIndex
  simp only [e1, e2, e3, e4, if_false, if_true]
  cases positive (getD c "num_trees" (.int 10)) with
  | error e => simp [bind, Except.bind]
  | ok u =>
    simp only [bind, Except.bind]
    by_cases hm : getD c "metric" (.str "angular") ∈
        [Cfg.str "angular", .str "euclidean", .str "manhattan", .str "hamming", .str "dot"]
    · have hm' : ∃ m ∈ ["angular", "euclidean", "manhattan", "hamming", "dot"],
          getD c "metric" (.str "angular") = .str m := by
        simp only [List.mem_cons, List.not_mem_nil, or_false] at hm
        rcases hm with h | h | h | h | h <;> exact ⟨_, by simp, h⟩
      cases lib <;> simp only [hm, hm', not_true_eq_false, if_false, if_true] <;> simp
    · have hm' : ¬ ∃ m ∈ ["angular", "euclidean", "manhattan", "hamming", "dot"],
          getD c "metric" (.str "angular") = .str m := by
        rintro ⟨m, h, he⟩
        apply hm
        rw [he]
        simp only [List.mem_cons, List.not_mem_nil, or_false] at h
        rcases h with rfl | rfl | rfl | rfl | rfl <;> simp
      simp only [hm, hm', not_false_eq_true, if_true, and_false]
      simp

/-- What the factory accepts as an index, and which error it raises otherwise for the type and for a
configuration that is no dictionary. -/
theorem C209_index (lib : Bool) (ty config : Cfg) :
    ((∃ i, createIndex lib ty config = .ok i) ↔
      ∃ t c, ty = .str t ∧ config = .dict c ∧ t ∈ indexTypes ∧
        (t = "lsh" → (∀ v, valueOr c "num_hash_tables" (.int 10) v → IsPositive v) ∧
          (∀ v, valueOr c "hash_size" (.int 16) v → IsPositive v) ∧
          (∀ v, valueOr c "num_projections" (.int 64) v → IsPositive v) ∧
          ∀ v, valueOr c "random_seed" (.int 42) v → IsSeed v) ∧
        (t = "annoy" → lib = true ∧ (∀ v, valueOr c "num_trees" (.int 10) v → IsPositive v) ∧
          ∀ v, valueOr c "metric" (.str "angular") v →
            ∃ m ∈ ["angular", "euclidean", "manhattan", "hamming", "dot"], v = .str m)) ∧
    ((∀ t ∈ indexTypes, ty ≠ .str t) → createIndex lib ty config = .error .value) ∧
    (∀ t ∈ indexTypes, ty = .str t → (∀ c, config ≠ .dict c) →
      createIndex lib ty config = .error .attribute) := by
  have unknown : (∀ t ∈ indexTypes, ty ≠ .str t) → createIndex lib ty config = .error .value := by
    intro h
    unfold createIndex
    rw [if_neg (h _ (by simp [indexTypes])), if_neg (h _ (by simp [indexTypes])),
      if_neg (h _ (by simp [indexTypes])), if_neg (h _ (by simp [indexTypes])),
      if_neg (h _ (by simp [indexTypes]))]
  have nodict : ∀ t ∈ indexTypes, ty = .str t → (∀ c, config ≠ .dict c) →
      createIndex lib ty config = .error .attribute := by
    intro t ht hty hc
    subst hty
    simp only [indexTypes, List.mem_cons, List.not_mem_nil, or_false] at ht
    cases config with
    | dict c => exact absurd rfl (hc c)
    | _ => rcases ht with rfl | rfl | rfl | rfl | rfl <;> simp [createIndex]
  refine ⟨?_, unknown, nodict⟩
  by_cases hty : ∃ t ∈ indexTypes, ty = .str t
  · obtain ⟨t, ht, rfl⟩ := hty
    by_cases hd : ∃ c, config = .dict c
    · obtain ⟨c, rfl⟩ := hd
      have key : (∃ i, createIndex lib (.str t) (.dict c) = .ok i) ↔
          (t = "lsh" → (∀ v, valueOr c "num_hash_tables" (.int 10) v → IsPositive v) ∧
            (∀ v, valueOr c "hash_size" (.int 16) v → IsPositive v) ∧
            (∀ v, valueOr c "num_projections" (.int 64) v → IsPositive v) ∧
            ∀ v, valueOr c "random_seed" (.int 42) v → IsSeed v) ∧
          (t = "annoy" → lib = true ∧ (∀ v, valueOr c "num_trees" (.int 10) v → IsPositive v) ∧
            ∀ v, valueOr c "metric" (.str "angular") v →
              ∃ m ∈ ["angular", "euclidean", "manhattan", "hamming", "dot"], v = .str m) := by
        simp only [valueOr_iff, forall_eq]
        have ht' := ht
        simp only [indexTypes, List.mem_cons, List.not_mem_nil, or_false] at ht'
        rcases ht' with rfl | rfl | rfl | rfl | rfl
        · exact ⟨fun _ => ⟨by simp, by simp⟩, fun _ => ⟨_, rfl⟩⟩
        · exact ⟨fun _ => ⟨by simp, by simp⟩, fun _ => ⟨_, rfl⟩⟩
        · exact ⟨fun _ => ⟨by simp, by simp⟩, fun _ => ⟨_, rfl⟩⟩
        · rw [create_lsh]
          exact ⟨fun h => ⟨fun _ => h, by simp⟩, fun h => h.1 rfl⟩
        · rw [create_annoy]
          exact ⟨fun h => ⟨by simp, fun _ => h⟩, fun h => h.2 rfl⟩
      rw [key]
      constructor
      · intro h
        exact ⟨t, c, rfl, rfl, ht, h⟩
      · rintro ⟨t', c', e1, e2, -, h⟩
        cases e1
        cases e2
        exact h
    · rw [nodict t ht rfl fun c hc => hd ⟨c, hc⟩]
      constructor
      · rintro ⟨i, hi⟩
        cases hi
      · rintro ⟨t', c, -, e, -⟩
        exact absurd ⟨c, e⟩ hd
  · rw [unknown fun t ht he => hty ⟨t, ht, he⟩]
    constructor
    · rintro ⟨i, hi⟩
      cases hi
    · rintro ⟨t, c, e, -, h, -⟩
      exact absurd ⟨t, h, e⟩ hty

example : (∃ i, createIndex true (.str "lsh") (.dict [("hash_size", .int 8)]) = .ok i) ∧
    ¬ ∃ i, createIndex true (.str "lsh") (.dict [("hash_size", .int 0)]) = .ok i :=
  ⟨⟨_, rfl⟩, fun ⟨_, h⟩ => by cases h⟩

/-- The error for a size that does not fit. -/
def badErr : Cfg → Err
  | .null => .typeE
  | .str _ => .typeE
  | .dict _ => .typeE
  | _ => .index

theorem positive_bad (v : Cfg) (h : ¬ IsPositive v) :
    positive v = .error (badErr v) := by
  cases hp : positive v with
  | ok u => exact absurd ((positive_ok v).1 hp) h
  | error e =>
    rcases positive_err v e hp with ⟨hn, rfl⟩ | ⟨hn, rfl⟩
    · rcases hn with rfl | ⟨s, rfl⟩ | ⟨d, rfl⟩ <;> rfl
    · cases v with
      | null => exact absurd (Or.inl rfl) hn
      | str s => exact absurd (Or.inr (Or.inl ⟨s, rfl⟩)) hn
      | dict d => exact absurd (Or.inr (Or.inr ⟨d, rfl⟩)) hn
      | _ => rfl

/-- The errors of LSH and Annoy: the first parameter, in this order, that does not fit decides.  A size
that is no number raises `TypeError`, one that is not positive `ValoriIndexError`; a seed out of range
`ValueError`; an unknown metric or a missing library `ValoriIndexError`. -/
theorem C209_errors (lib : Bool) (c : Conf) :
    (∀ pre k dflt post, [("num_hash_tables", Cfg.int 10), ("hash_size", .int 16),
        ("num_projections", .int 64)] = pre ++ (k, dflt) :: post →
      (∀ x ∈ pre, ∀ v, valueOr c x.1 x.2 v → IsPositive v) →
      ∀ v, valueOr c k dflt v → ¬ IsPositive v →
        (NoNumber v → createIndex lib (.str "lsh") (.dict c) = .error .typeE) ∧
        (¬ NoNumber v → createIndex lib (.str "lsh") (.dict c) = .error .index)) ∧
    ((∀ x ∈ [("num_hash_tables", Cfg.int 10), ("hash_size", .int 16), ("num_projections", .int 64)],
        ∀ v, valueOr c x.1 x.2 v → IsPositive v) →
      ∀ v, valueOr c "random_seed" (.int 42) v → ¬ IsSeed v →
        ((∃ i, v = .int i) → createIndex lib (.str "lsh") (.dict c) = .error .value) ∧
        ((¬ ∃ i, v = .int i) → createIndex lib (.str "lsh") (.dict c) = .error .typeE)) ∧
    (∀ v, valueOr c "num_trees" (.int 10) v → ¬ IsPositive v →
      (NoNumber v → createIndex lib (.str "annoy") (.dict c) = .error .typeE) ∧
      (¬ NoNumber v → createIndex lib (.str "annoy") (.dict c) = .error .index)) ∧
    (∀ e, (∀ v, valueOr c "num_trees" (.int 10) v → IsPositive v) →
      createIndex lib (.str "annoy") (.dict c) = .error e → e = .index) := by
  have e1 : ∀ t ∈ ["lsh", "annoy"], (Cfg.str t = .str "flat") = False ∧ (Cfg.str t = .str "hnsw") = False ∧
      (Cfg.str t = .str "ivf") = False := by simp
  have e4 : (Cfg.str "annoy" = .str "lsh") = False := by simp
  obtain ⟨l1, l2, l3⟩ := e1 "lsh" (by simp)
  obtain ⟨a1, a2, a3⟩ := e1 "annoy" (by simp)
  have cls : ∀ v, (NoNumber v → badErr v = .typeE) ∧ (¬ NoNumber v → badErr v = .index) := by
    intro v
    cases v <;> simp [NoNumber, badErr]
  simp only [valueOr_iff, forall_eq]
  refine ⟨?_, ?_, ?_, ?_⟩
  · intro pre k dflt post hl hp
    intro hb
    have hc := cls (getD c k dflt)
    have hbad := positive_bad _ hb
    have go : createIndex lib (.str "lsh") (.dict c) = positive (getD c k dflt) >>= fun _ => .error .other := by
      unfold createIndex
      simp only [l1, l2, l3, if_false, if_true]
      match pre, hl, hp with
      | [], hl, _ =>
        cases hl
        rw [hbad]
        rfl
      | [x], hl, hp =>
        cases hl
        have := (positive_ok _).2 (hp ("num_hash_tables", .int 10) (by simp))
        simp only at this
        rw [this, hbad]
        rfl
      | [x, y], hl, hp =>
        cases hl
        have h1 := (positive_ok _).2 (hp _ List.mem_cons_self)
        have h2 := (positive_ok _).2 (hp ("hash_size", .int 16) (by simp))
        simp only at h1 h2
        rw [h1, h2, hbad]
        rfl
      | _ :: _ :: _ :: pre, hl, _ =>
        simp at hl
    rw [go, hbad]
    exact ⟨fun h => by rw [hc.1 h]; rfl, fun h => by rw [hc.2 h]; rfl⟩
  · intro hp hs
    have h1 := (positive_ok _).2 (hp _ List.mem_cons_self)
    have h2 := (positive_ok _).2 (hp ("hash_size", .int 16) (by simp))
    have h3 := (positive_ok _).2 (hp ("num_projections", .int 64) (by simp))
    simp only at h1 h2 h3
    unfold createIndex
    simp only [l1, l2, l3, if_false, if_true]
    rw [h1, h2, h3]
    simp only [bind, Except.bind]
    rw [← rngSeed_ok] at hs
    revert hs
    cases getD c "random_seed" (.int 42) with
    | int i => simp only [rngSeed]; split_ifs <;> simp_all
    | _ => simp [rngSeed]
  · intro hb
    have hc := cls (getD c "num_trees" (.int 10))
    have hbad := positive_bad _ hb
    unfold createIndex
    simp only [a1, a2, a3, e4, if_false, if_true]
    rw [hbad]
    exact ⟨fun h => by rw [hc.1 h]; rfl, fun h => by rw [hc.2 h]; rfl⟩
  · intro e hp
    unfold createIndex
    simp only [a1, a2, a3, e4, if_false, if_true]
    rw [(positive_ok _).2 hp]
    simp only [bind, Except.bind]
    split_ifs <;> intro h <;> cases h <;> rfl

example : createIndex true (.str "lsh") (.dict [("hash_size", .str "8")]) = .error .typeE ∧
    createIndex true (.str "lsh") (.dict [("hash_size", .int 0)]) = .error .index ∧
    createIndex true (.str "lsh") (.dict [("random_seed", .int (-1))]) = .error .value := ⟨rfl, rfl, rfl⟩

/-- The defaults of the parameters of an index. -/
def defaultParam : IndexObj → String → Option Cfg
  | .flat _, k => if k = "metric" then some (.str "cosine") else none
  | .hnsw .., k => if k = "m" then some (.int 16) else if k = "ef_construction" then some (.int 200)
      else if k = "ef_search" then some (.int 50) else if k = "metric" then some (.str "cosine") else none
  | .ivf .., k => if k = "n_clusters" then some (.int 100) else if k = "n_probes" then some (.int 10)
      else if k = "metric" then some (.str "cosine") else none
  | .lsh .., k => if k = "metric" then some (.str "cosine")
      else if k = "num_hash_tables" then some (.int 10) else if k = "hash_size" then some (.int 16)
      else if k = "num_projections" then some (.int 64) else if k = "random_seed" then some (.int 42)
      else if k = "threshold" then some (.num (1 / 2)) else none
  | .annoy .., k => if k = "num_trees" then some (.int 10)
      else if k = "metric" then some (.str "angular") else if k = "search_k" then some (.int (-1))
      else if k = "build_on_disk" then some (.bool false)
      else if k = "random_seed" then some (.int 42) else none

/-- The parameters an index object carries, under the names its constructor reads. -/
def carries : IndexObj → String → Option Cfg
  | .hnsw m efc efs metric, k =>
    if k = "m" then some m else if k = "ef_construction" then some efc
    else if k = "ef_search" then some efs else if k = "metric" then some metric else none
  | obj, k => indexParam obj k

/-- The class of an index object by the name of its type. -/
def objType : IndexObj → String
  | .flat _ => "flat" | .hnsw .. => "hnsw" | .ivf .. => "ivf" | .lsh .. => "lsh" | .annoy .. => "annoy"

/-- The index built is of the type asked for, and each of its parameters has the value given, or its
default. -/
theorem C209_parameters (lib : Bool) (t : String) (c : Conf) (i : IndexObj)
    (h : createIndex lib (.str t) (.dict c) = .ok i) :
    objType i = t ∧ ∀ k dflt, defaultParam i k = some dflt →
      ∃ v, carries i k = some v ∧ valueOr c k dflt v := by
  have ht : ∃ u ∈ indexTypes, Cfg.str t = .str u := by
    obtain ⟨u, c', e, -, hu, -⟩ := (C209_index lib (.str t) (.dict c)).1.1 ⟨i, h⟩
    exact ⟨u, hu, e⟩
  obtain ⟨u, hu, e⟩ := ht
  cases e
  simp only [valueOr_iff, exists_eq_right]
  simp only [indexTypes, List.mem_cons, List.not_mem_nil, or_false] at hu
  rcases hu with rfl | rfl | rfl | rfl | rfl
  · simp [createIndex] at h
    subst h
    refine ⟨rfl, fun k dflt hd => ?_⟩
    simp only [defaultParam] at hd
    split_ifs at hd with h1
    cases hd
    subst h1
    rfl
  · simp [createIndex] at h
    subst h
    refine ⟨rfl, fun k dflt hd => ?_⟩
    simp only [defaultParam] at hd
    split_ifs at hd with h1 h2 h3 h4 <;> cases hd <;> subst_vars <;> rfl
  · simp [createIndex] at h
    subst h
    refine ⟨rfl, fun k dflt hd => ?_⟩
    simp only [defaultParam] at hd
    split_ifs at hd with h1 h2 h3 <;> cases hd <;> subst_vars <;> rfl
  · have hi : i = .lsh (getD c "metric" (.str "cosine")) (getD c "num_hash_tables" (.int 10))
        (getD c "hash_size" (.int 16)) (getD c "num_projections" (.int 64))
        (getD c "random_seed" (.int 42)) (getD c "threshold" (.num (1 / 2))) := by
      have e1 : (Cfg.str "lsh" = .str "flat") = False := by simp
      have e2 : (Cfg.str "lsh" = .str "hnsw") = False := by simp
      have e3 : (Cfg.str "lsh" = .str "ivf") = False := by simp
      unfold createIndex at h
      simp only [e1, e2, e3, if_false, if_true] at h
      revert h
      cases positive (getD c "num_hash_tables" (.int 10)) <;>
      cases positive (getD c "hash_size" (.int 16)) <;>
      cases positive (getD c "num_projections" (.int 64)) <;>
      cases rngSeed (getD c "random_seed" (.int 42)) <;>
      simp only [bind, Except.bind] <;> intro h <;> cases h
      rfl
    subst hi
    refine ⟨rfl, fun k dflt hd => ?_⟩
    simp only [defaultParam] at hd
    split_ifs at hd with h1 h2 h3 h4 h5 h6 <;> cases hd <;> subst_vars <;> rfl
  · have hi : i = .annoy (getD c "num_trees" (.int 10)) (getD c "metric" (.str "angular"))
        (getD c "search_k" (.int (-1))) (getD c "build_on_disk" (.bool false))
        (getD c "random_seed" (.int 42)) := by
      have e1 : (Cfg.str "annoy" = .str "flat") = False := by simp
      have e2 : (Cfg.str "annoy" = .str "hnsw") = False := by simp
      have e3 : (Cfg.str "annoy" = .str "ivf") = False := by simp
      have e4 : (Cfg.str "annoy" = .str "lsh") = False := by simp
      unfold createIndex at h
      simp only [e1, e2, e3, e4, if_false, if_true] at h
      revert h
      cases positive (getD c "num_trees" (.int 10)) with
      | error e => simp only [bind, Except.bind]; intro h; cases h
      | ok u =>
        simp only [bind, Except.bind]
        split_ifs <;> intro h <;> cases h
        rfl
    subst hi
    refine ⟨rfl, fun k dflt hd => ?_⟩
    simp only [defaultParam] at hd
    split_ifs at hd with h1 h2 h3 h4 h5 <;> cases hd <;> subst_vars <;> rfl

example : ∃ i, createIndex true (.str "ivf") (.dict [("n_probes", .int 3)]) = .ok i ∧
    carries i "n_probes" = some (.int 3) ∧ carries i "n_clusters" = some (.int 100) := ⟨_, rfl, rfl, rfl⟩

/-- Refuted: flat, HNSW and IVF take any metric and any sizes, negative numbers and texts included, so
that a database is made which raises at the first search. -/
theorem C209_unchecked_refuted (lib : Bool) (t : String) (ht : t = "flat" ∨ t = "hnsw" ∨ t = "ivf")
    (c : Conf) : ∃ i, createIndex lib (.str t) (.dict c) = .ok i := by
  rcases ht with rfl | rfl | rfl <;> exact ⟨_, rfl⟩

/-- The storages: a memory storage takes any configuration, a disk storage needs a text as directory. -/
theorem C209_storage (ty config : Cfg) :
    ((∃ s, createStorage ty config = .ok s) ↔
      ty = .str "memory" ∨
      (ty = .str "disk" ∧ ∃ c, config = .dict c ∧ ∃ d, valueOr c "data_dir" (.str "./valori_data") (.str d)) ∨
      (ty = .str "hybrid" ∧ ∃ c, config = .dict c ∧ ∃ c', valueOr c "disk" (.dict []) (.dict c') ∧
        ∃ d, valueOr c' "data_dir" (.str "./valori_data") (.str d))) ∧
    (∀ s, createStorage ty config = .ok s →
      (ty = .str "memory" → s = .memory) ∧
      (ty = .str "disk" → ∃ c d, config = .dict c ∧ s = .disk d ∧
        valueOr c "data_dir" (.str "./valori_data") (.str d)) ∧
      (ty = .str "hybrid" → ∃ c c' d n, config = .dict c ∧ s = .hybrid n d ∧
        valueOr c "disk" (.dict []) (.dict c') ∧ valueOr c' "data_dir" (.str "./valori_data") (.str d) ∧
        valueOr c "memory_limit" (.int 10000) n)) ∧
    ((∀ t ∈ ["memory", "disk", "hybrid"], ty ≠ .str t) → createStorage ty config = .error .value) := by
  have dir : ∀ (cfg : Cfg) (d : String), diskDir cfg = .ok d ↔
      ∃ c, cfg = .dict c ∧ valueOr c "data_dir" (.str "./valori_data") (.str d) := by
    intro cfg d
    unfold diskDir
    cases cfg with
    | dict c =>
      simp only [valueOr_iff, Cfg.dict.injEq, exists_eq_left']
      cases getD c "data_dir" (.str "./valori_data") <;> simp [eq_comm]
    | _ => simp
  have map_ok : ∀ {α β : Type} (x : Except Err α) (f : α → β) (b : β),
      x.map f = .ok b ↔ ∃ a, x = .ok a ∧ f a = b := by
    intro α β x f b
    cases x <;> simp [Except.map]
  refine ⟨?_, ?_, ?_⟩
  · unfold createStorage
    split_ifs with h1 h2 h3
    · simp [h1]
    · subst h2
      simp only [map_ok, dir]
      simp
      constructor
      · rintro ⟨d, c, e, hv⟩; exact ⟨c, e, d, hv⟩
      · rintro ⟨c, e, d, hv⟩; exact ⟨d, c, e, hv⟩
    · subst h3
      cases config with
      | dict c =>
        simp only [map_ok, dir, valueOr_iff]
        simp
        constructor
        · rintro ⟨d, c', e, hv⟩; exact ⟨c', e.symm, d, hv⟩
        · rintro ⟨c', e, d, hv⟩; exact ⟨d, c', e.symm, hv⟩
      | _ => simp
    · simp [h1, h2, h3]
  · intro s hs
    unfold createStorage at hs
    split_ifs at hs with h1 h2 h3
    · subst h1
      cases hs
      simp
    · subst h2
      rw [map_ok] at hs
      obtain ⟨d, hd, rfl⟩ := hs
      obtain ⟨c, e, hv⟩ := (dir _ _).1 hd
      exact ⟨by simp, fun _ => ⟨c, d, e, rfl, hv⟩, by simp⟩
    · subst h3
      cases config with
      | dict c =>
        simp only [map_ok] at hs
        obtain ⟨d, hd, rfl⟩ := hs
        obtain ⟨c', e, hv⟩ := (dir _ _).1 hd
        exact ⟨by simp, by simp, fun _ => ⟨c, c', d, _, rfl, rfl, (valueOr_iff _ _ _ _).2 e.symm, hv,
          (valueOr_iff _ _ _ _).2 rfl⟩⟩
      | _ => cases hs
  · intro h
    unfold createStorage
    rw [if_neg (h _ (by simp)), if_neg (h _ (by simp)), if_neg (h _ (by simp))]

example : ∃ s, createStorage (.str "hybrid") (.dict [("disk", .dict [("data_dir", .str "/d")])]) = .ok s ∧
    s = .hybrid (.int 10000) "/d" := ⟨_, rfl, rfl⟩

end Valori.Props
