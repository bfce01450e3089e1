import Verif.Model.Configs
import Verif.Lemmas.Dict
import Mathlib.Algebra.Order.Floor.Ring
import Mathlib.Tactic.NormNum
import Mathlib.Tactic.Linarith

/-!
# Configurations and factories: C78, C79, C99–C104
-/

namespace Valori.Props

/-! ## C78 -/

/-- `get_recommended_config` raises `ValueError` for every description of the data. -/
theorem C78_recommended_refuted (n d : Int) (useCase storageType : String) :
    getRecommendedConfig n d useCase storageType = .error .value := by
  have h1 : getConfig "index" "small_dataset" = .error .value := by decide +kernel
  have h2 : getConfig "index" "medium_dataset" = .error .value := by decide +kernel
  have h3 : getConfig "index" "high_dimensional" = .error .value := by decide +kernel
  have h4 : getConfig "index" "large_dataset" = .error .value := by decide +kernel
  have h : recommendedIndex n d useCase = .error .value := by
    unfold recommendedIndex
    rw [h1, h2, h3, h4]
    split_ifs <;> rfl
  unfold getRecommendedConfig
  rw [h]

/-! ## C79 -/

/-- For all integers and use cases the recommendation is one of the five types with a configuration
its constructor accepts (the annoy package being installed); which type is chosen is exactly as
documented, and small data sets get the exact index. -/
theorem C79_recommend (n d : Int) (useCase : String) :
    ∃ ty c obj, recommendIndex (.int n) (.int d) (.str useCase) = .ok (ty, c) ∧
      createIndex true (.str ty) (.dict c) = .ok obj ∧
      ty = (if n < 1000 then "flat"
        else if n < 100000 then (if useCase = "accuracy" then "hnsw" else "annoy")
        else if 1000 < d then "lsh" else "ivf") ∧
      (ty = "flat" → obj = .flat (.str "cosine")) ∧
      (ty = "ivf" → obj = .ivf (.int 1000) (.int 10) (.str "cosine")) := by
  have e1 : ((n : ℚ) < 1000) ↔ n < 1000 := by exact_mod_cast Iff.rfl
  have e2 : ((n : ℚ) < 100000) ↔ n < 100000 := by exact_mod_cast Iff.rfl
  have e3 : ((d : ℚ) > 1000) ↔ 1000 < d := by
    rw [gt_iff_lt]; exact_mod_cast Iff.rfl
  unfold recommendIndex
  simp only [Cfg.asNum]
  by_cases g1 : n < 1000
  · rw [if_pos (e1.2 g1), if_pos g1]
    exact ⟨_, _, _, rfl, rfl, rfl, fun _ => rfl, fun h => absurd h (by decide)⟩
  rw [if_neg (fun h => g1 (e1.1 h)), if_neg g1]
  by_cases g2 : n < 100000
  · rw [if_pos (e2.2 g2), if_pos g2]
    by_cases g3 : useCase = "speed"
    · subst g3
      rw [if_pos rfl, if_neg (by decide)]
      exact ⟨_, _, .annoy (.int 10) (.str "angular") (.int (-1)) (.bool false) (.int 42), rfl,
        by decide +kernel, rfl, fun h => absurd h (by decide), fun h => absurd h (by decide)⟩
    · rw [if_neg (by simpa using g3)]
      by_cases g4 : useCase = "accuracy"
      · rw [if_pos (by rw [g4]), if_pos g4]
        exact ⟨_, _, _, rfl, rfl, rfl, fun h => absurd h (by decide), fun h => absurd h (by decide)⟩
      · rw [if_neg (by simpa using g4), if_neg g4]
        exact ⟨_, _, .annoy (.int 20) (.str "angular") (.int (-1)) (.bool false) (.int 42), rfl,
          by decide +kernel, rfl, fun h => absurd h (by decide), fun h => absurd h (by decide)⟩
  rw [if_neg (fun h => g2 (e2.1 h)), if_neg g2]
  by_cases g5 : 1000 < d
  · rw [if_pos (e3.2 g5), if_pos g5]
    exact ⟨_, _, .lsh (.str "cosine") (.int 15) (.int 20) (.int 100) (.int 42) (.num (3 / 10)), rfl,
      by decide +kernel, rfl, fun h => absurd h (by decide), fun h => absurd h (by decide)⟩
  · rw [if_neg (fun h => g5 (e3.1 h)), if_neg g5]
    have hm : min (1000 : Int) ⌊(n : ℚ) / 100⌋ = 1000 := by
      apply min_eq_left
      rw [Int.le_floor]
      have : (100000 : ℚ) ≤ n := by exact_mod_cast not_lt.1 g2
      push_cast
      linarith
    rw [hm]
    exact ⟨_, _, _, rfl, rfl, rfl, fun h => absurd h (by decide), fun _ => rfl⟩

example : recommendIndex (.int 250000) (.int 128) (.str "memory") =
    .ok ("ivf", [("metric", .str "cosine"), ("n_clusters", .int 1000), ("n_probes", .int 10)]) := by
  decide +kernel

/-! ## C99 -/

/-- A name is listed under a category by `list_configs()`. -/
def IsListed (category name : String) : Prop :=
  ∃ all, listConfigs none = .ok all ∧
    ((∃ l, all.get? category = some (.names l) ∧ name ∈ l) ∨
      ∃ d sub l, all.get? category = some (.groups d) ∧ (sub, l) ∈ d ∧ name ∈ l)

theorem findNested_some (name : String) (t : Dict String (Dict String Conf)) (c : Conf)
    (h : findNested name t = some c) : ∃ sub cs, (sub, cs) ∈ t ∧ cs.get? name = some c := by
  induction t with
  | nil => cases h
  | cons e t ih =>
    obtain ⟨sub, cs⟩ := e
    unfold findNested at h
    cases hc : Dict.get? cs name with
    | some x =>
      rw [hc] at h
      obtain rfl := Option.some.inj h
      exact ⟨sub, cs, List.mem_cons_self, hc⟩
    | none =>
      rw [hc] at h
      obtain ⟨s, c', hm, hg⟩ := ih h
      exact ⟨s, c', List.mem_cons_of_mem _ hm, hg⟩

theorem findNested_none (name : String) (t : Dict String (Dict String Conf))
    (h : findNested name t = none) : ∀ sub cs, (sub, cs) ∈ t → cs.get? name = none := by
  induction t with
  | nil => intro sub cs hm; cases hm
  | cons e t ih =>
    obtain ⟨sub, cs⟩ := e
    unfold findNested at h
    cases hc : Dict.get? cs name with
    | some x => rw [hc] at h; cases h
    | none =>
      rw [hc] at h
      intro s c' hm
      rcases List.mem_cons.1 hm with e | hm
      · obtain ⟨rfl, rfl⟩ := Prod.mk.inj e
        exact hc
      · exact ih h s c' hm

theorem get?_map_snd {α β : Type} (f : α → β) (d : Dict String α) (k : String) :
    Dict.get? (d.map fun p => (p.1, f p.2)) k = (Dict.get? d k).map f := by
  induction d with
  | nil => rfl
  | cons e d ih =>
    simp only [List.map_cons, Dict.get?]
    split_ifs
    · rfl
    · exact ih

/-- What `list_configs()` says of one table. -/
def tableListing : CfgTable → Listing
  | .nested t => .groups (groupNames t)
  | .flat t => .names (Dict.keys t)

theorem listConfigs_all (category : String) :
    ∃ all, listConfigs none = .ok all ∧
      all.get? category = (configMap.get? category).map tableListing := by
  refine ⟨_, rfl, ?_⟩
  rw [← get?_map_snd]
  congr 1

theorem get?_isSome_iff {α : Type} (d : Dict String α) (k : String) :
    (∃ a, d.get? k = some a) ↔ k ∈ d.keys := by
  rw [Dict.mem_keys, Option.isSome_iff_exists]

/-- `get_config(category, name)` succeeds exactly on the names that `list_configs()` lists for that
category, and raises `ValueError` otherwise. -/
theorem C99_names (category name : String) :
    ((∃ c, getConfig category name = .ok c) ↔ IsListed category name) ∧
      (¬ IsListed category name → getConfig category name = .error .value) := by
  obtain ⟨all, hall, hget⟩ := listConfigs_all category
  have hL : IsListed category name ↔ ∃ t, configMap.get? category = some t ∧
      ((∃ l, tableListing t = .names l ∧ name ∈ l) ∨
        ∃ d sub l, tableListing t = .groups d ∧ (sub, l) ∈ d ∧ name ∈ l) := by
    constructor
    · rintro ⟨all', h, h2⟩
      rw [hall] at h
      obtain rfl := Except.ok.inj h
      rw [hget] at h2
      cases ht : Dict.get? configMap category with
      | none => rw [ht] at h2; simp at h2
      | some t =>
        rw [ht] at h2
        simp only [Option.map_some, Option.some.injEq] at h2
        exact ⟨t, rfl, h2⟩
    · rintro ⟨t, ht, h2⟩
      refine ⟨all, hall, ?_⟩
      rw [hget, ht]
      simpa only [Option.map_some, Option.some.injEq] using h2
  rw [hL]
  unfold getConfig
  cases ht : Dict.get? configMap category with
  | none => simp
  | some t =>
    cases t with
    | flat t =>
      simp only [Option.some.injEq, exists_eq_left', tableListing, Listing.names.injEq, reduceCtorEq,
        false_and, exists_false, or_false]
      rw [← get?_isSome_iff]
      cases hn : Dict.get? t name with
      | none => simp
      | some c => simp
    | nested t =>
      simp only [Option.some.injEq, exists_eq_left', tableListing, Listing.groups.injEq, reduceCtorEq,
        false_and, exists_false, false_or]
      have hg : (∃ d sub l, groupNames t = d ∧ (sub, l) ∈ d ∧ name ∈ l) ↔
          ∃ sub cs, (sub, cs) ∈ t ∧ ∃ c, Dict.get? cs name = some c := by
        constructor
        · rintro ⟨d, sub, l, rfl, hm, hn⟩
          obtain ⟨⟨s, cs⟩, hmt, he⟩ := List.mem_map.1 hm
          obtain ⟨rfl, rfl⟩ := Prod.mk.inj he
          exact ⟨s, cs, hmt, (get?_isSome_iff _ _).2 hn⟩
        · rintro ⟨sub, cs, hm, hc⟩
          exact ⟨_, sub, Dict.keys cs, rfl, List.mem_map.2 ⟨_, hm, rfl⟩, (get?_isSome_iff _ _).1 hc⟩
      rw [hg]
      cases hn : findNested name t with
      | none =>
        have := findNested_none _ _ hn
        simp only [reduceCtorEq, exists_false, false_iff, implies_true, and_true]
        rintro ⟨sub, cs, hm, c, hc⟩
        rw [this sub cs hm] at hc
        cases hc
      | some c =>
        obtain ⟨sub, cs, hm, hc⟩ := findNested_some _ _ _ hn
        constructor
        · exact ⟨fun _ => ⟨sub, cs, hm, c, hc⟩, fun _ => ⟨_, rfl⟩⟩
        · intro h
          exact absurd ⟨sub, cs, hm, c, hc⟩ h

/-- No index configuration hides another: a name listed in a subcategory is answered with that
subcategory's entry. -/
theorem C99_index (sub name : String) (cs : Dict String Conf) (c : Conf)
    (hs : (sub, cs) ∈ indexConfigs) (hc : (name, c) ∈ cs) :
    getConfig "index" name = .ok (.dict c) := by
  have h : ∀ p ∈ indexConfigs, ∀ q ∈ p.2, getConfig "index" q.1 = .ok (.dict q.2) := by
    decide +kernel
  exact h _ hs _ hc

/-- `list_configs(category)` lists the same names as the listing of everything, and refuses unknown
categories. -/
theorem C99_category (category : String) (hne : category ≠ "") :
    (∃ l, listConfigs (some category) = .ok l ∧
      ∀ name, IsListed category name ↔ ∃ key names, (key, .names names) ∈ l ∧ name ∈ names) ∨
    (listConfigs (some category) = .error .value ∧ ∀ name, ¬ IsListed category name) := by
  obtain ⟨all, hall, hget⟩ := listConfigs_all category
  unfold IsListed
  rw [hall]
  unfold listConfigs
  simp only [hne, ne_eq, not_false_eq_true, if_true, Except.ok.injEq, exists_eq_left', hget]
  cases ht : Dict.get? configMap category with
  | none => right; simp
  | some t =>
    left
    cases t with
    | flat t =>
      refine ⟨_, rfl, fun name => ?_⟩
      simp [tableListing]
    | nested t =>
      refine ⟨_, rfl, fun name => ?_⟩
      simp only [Option.map_some, Option.some.injEq, tableListing, reduceCtorEq, false_and, exists_false,
        Listing.groups.injEq, false_or]
      constructor
      · rintro ⟨d, sub, l, rfl, hm, hn⟩
        exact ⟨sub, l, List.mem_map.2 ⟨(sub, l), hm, rfl⟩, hn⟩
      · rintro ⟨key, l, hm, hn⟩
        obtain ⟨⟨s, l'⟩, hmt, he⟩ := List.mem_map.1 hm
        simp only [Prod.mk.injEq, Listing.names.injEq] at he
        obtain ⟨rfl, rfl⟩ := he
        exact ⟨_, s, l', rfl, hmt, hn⟩

example : IsListed "index" "hnsw_fast" ∧ ¬ IsListed "index" "real_time" :=
  ⟨(C99_names _ _).1.1 ⟨_, C99_index "real_time" "hnsw_fast" _ _
      (List.mem_of_mem_getLast? rfl) (List.mem_of_mem_getLast? rfl)⟩,
    fun h => by
      obtain ⟨c, hc⟩ := (C99_names _ _).1.2 h
      have : getConfig "index" "real_time" = .error .value := by decide +kernel
      rw [this] at hc
      cases hc⟩

/-! ## C100 -/

/-- The five index types. -/
def knownTypes : List String := ["flat", "hnsw", "ivf", "lsh", "annoy"]

/-- Without an index type and without a number of vectors, all of which are optional,
`create_vector_db` raises `TypeError`; in particular `create_vector_db()`. -/
theorem C100_defaults_refuted (E : FactoryEnv) (kw : Conf) (h1 : kw.get? "index_type" = none)
    (h2 : kw.get? "num_vectors" = none) : createVectorDb E kw = .error .typeE := by
  unfold createVectorDb getD
  rw [h1, h2]
  rfl

example : createVectorDb ⟨true, fun _ _ => .ok ()⟩ [("storage_type", .str "memory")] = .error .typeE :=
  C100_defaults_refuted _ _ rfl rfl

theorem create_known (ty : String) (h : ty ∈ knownTypes) :
    ∃ i, createIndex true (.str ty) (.dict []) = .ok i := by
  have : ∀ t ∈ knownTypes, (match createIndex true (.str t) (.dict []) with
      | .ok _ => true | .error _ => false) = true := by decide +kernel
  have := this ty h
  split at this
  · next i hi => exact ⟨i, hi⟩
  · cases this

/-- What is missing for the full claim: with a known index type, or with the numbers given, and a
known storage type, it succeeds if the components can be initialised. -/
theorem C100_given_partial (E : FactoryEnv) (kw : Conf) (st : String)
    (hlib : E.lib = true) (hst : st ∈ ["memory", "disk", "hybrid"])
    (hs : getD kw "storage_type" (.str "memory") = .str st)
    (hsc : kw.get? "storage_config" = none)
    (hinit : ∀ i s, E.start i s = .ok ())
    (h : (∃ ty ∈ knownTypes, kw.get? "index_type" = some (.str ty) ∧ kw.get? "index_config" = none) ∨
      (kw.get? "index_type" = none ∧ ∃ n d : Int, ∃ u : String, kw.get? "num_vectors" = some (.int n) ∧
        kw.get? "dimension" = some (.int d) ∧ getD kw "use_case" (.str "balanced") = .str u)) :
    ∃ i s, createVectorDb E kw = .ok (i, s) := by
  have hstor : ∃ s, createStorage (.str st) (.dict []) = .ok s := by
    rcases List.mem_cons.1 hst with rfl | hst
    · exact ⟨_, rfl⟩
    rcases List.mem_cons.1 hst with rfl | hst
    · exact ⟨_, rfl⟩
    rcases List.mem_cons.1 hst with rfl | hst
    · exact ⟨_, rfl⟩
    · cases hst
  obtain ⟨s, hstor⟩ := hstor
  have hsd : getD kw "storage_config" (.dict []) = .dict [] := by rw [getD, hsc]; rfl
  rcases h with ⟨ty, hty, h1, h2⟩ | ⟨h1, n, d, u, h2, h3, h4⟩
  · obtain ⟨i, hi⟩ := create_known ty hty
    refine ⟨i, s, ?_⟩
    have e1 : getD kw "index_type" .null = .str ty := by rw [getD, h1]; rfl
    have e2 : getD kw "index_config" (.dict []) = .dict [] := by rw [getD, h2]; rfl
    have ht : (Cfg.str ty).truthy = true := by
      have : ∀ t ∈ knownTypes, (Cfg.str t).truthy = true := by decide +kernel
      exact this ty hty
    unfold createVectorDb
    simp only [e1, e2, hs, hsd, ht, if_true, hlib]
    simp only [bind, Except.bind, hi, hstor, hinit]
  · obtain ⟨ty, c, i, hr, hi, -⟩ := C79_recommend n d u
    refine ⟨i, s, ?_⟩
    have e1 : getD kw "index_type" .null = .null := by rw [getD, h1]; rfl
    have e2 : getD kw "num_vectors" .null = .int n := by rw [getD, h2]; rfl
    have e3 : getD kw "dimension" .null = .int d := by rw [getD, h3]; rfl
    unfold createVectorDb
    simp only [e1, e2, e3, h4, hs, hsd, hlib, hr, Cfg.truthy, Bool.false_eq_true, if_false]
    simp only [Except.map, bind, Except.bind, hi, hstor, hinit]

example : ∃ i s, createVectorDb ⟨true, fun _ _ => .ok ()⟩ [("index_type", .str "lsh")] = .ok (i, s) :=
  C100_given_partial _ _ "memory" rfl (by decide) rfl rfl (fun _ _ => rfl)
    (Or.inl ⟨"lsh", by decide, rfl, rfl⟩)

/-! ## C101 -/

/-- The attribute of an index object that a configuration key is meant for. -/
def indexParam : IndexObj → String → Option Cfg
  | .flat metric, k => if k = "metric" then some metric else none
  | .hnsw m efc efs metric, k =>
    if k = "M" then some m else if k = "ef_construction" then some efc
    else if k = "ef_search" then some efs else if k = "metric" then some metric else none
  | .ivf c p metric, k =>
    if k = "n_clusters" then some c else if k = "n_probes" then some p
    else if k = "metric" then some metric else none
  | .lsh metric t s p seed thr, k =>
    if k = "metric" then some metric else if k = "num_hash_tables" then some t
    else if k = "hash_size" then some s else if k = "num_projections" then some p
    else if k = "random_seed" then some seed else if k = "threshold" then some thr else none
  | .annoy t metric sk disk seed, k =>
    if k = "num_trees" then some t else if k = "metric" then some metric
    else if k = "search_k" then some sk else if k = "build_on_disk" then some disk
    else if k = "random_seed" then some seed else none

/-- An index was built from a configuration and every key but the description took effect. -/
def TakesEffect (skip : List String) (obj : IndexObj) (c : Conf) : Prop :=
  ∀ k v, (k, v) ∈ c → k ∉ skip → indexParam obj k = some v

/-- The key `"M"`, used for HNSW by every shipped configuration, has no effect whatever its value. -/
theorem C101_hnsw_refuted (lib : Bool) (c : Conf) (v : Cfg) :
    createIndex lib (.str "hnsw") (.dict (c.set "M" v)) = createIndex lib (.str "hnsw") (.dict c) := by
  have h : ∀ k, k ≠ "M" → ∀ d, getD (c.set "M" v) k d = getD c k d := by
    intro k hk d
    unfold getD
    rw [Dict.get?_set, if_neg hk]
  have e1 : (Cfg.str "hnsw" = .str "flat") = False := by simp
  unfold createIndex
  simp only [e1, if_false, if_true]
  rw [h "m" (by decide), h "ef_construction" (by decide), h "ef_search" (by decide),
    h "metric" (by decide)]

/-- So the shipped `hnsw_fast` (M = 8) builds an index with 16 links. -/
theorem C101_fast_refuted :
    ∃ c obj, getConfig "index" "hnsw_fast" = .ok c ∧ createIndex true (.str "hnsw") c = .ok obj ∧
      c.sub "M" = .ok (.int 8) ∧ indexParam obj "M" = some (.int 16) :=
  ⟨_, _, rfl, rfl, rfl, rfl⟩

/-- What is missing: all other keys of all shipped index configurations take effect. -/
theorem C101_shipped_partial (sub name : String) (cs : Dict String Conf) (c : Conf)
    (hs : (sub, cs) ∈ indexConfigs) (hc : (name, c) ∈ cs) :
    ∃ ty ∈ knownTypes, ty.isPrefixOf name = true ∧
      ∃ obj, createIndex true (.str ty) (.dict c) = .ok obj ∧ TakesEffect ["M", "description"] obj c := by
  have h : ∀ p ∈ indexConfigs, ∀ q ∈ p.2, knownTypes.any (fun ty => ty.isPrefixOf q.1 &&
      match createIndex true (.str ty) (.dict q.2) with
      | .error _ => false
      | .ok obj => q.2.all fun e =>
          decide (e.1 ∈ ["M", "description"]) || decide (indexParam obj e.1 = some e.2)) = true := by
    decide +kernel
  obtain ⟨ty, hty, ht⟩ := List.any_eq_true.1 (h _ hs _ hc)
  rw [Bool.and_eq_true] at ht
  refine ⟨ty, hty, ht.1, ?_⟩
  have h2 := ht.2
  split at h2
  · cases h2
  · next obj ho =>
    refine ⟨obj, ho, fun k v hk hn => ?_⟩
    have := List.all_eq_true.1 h2 _ hk
    rw [Bool.or_eq_true, decide_eq_true_eq, decide_eq_true_eq] at this
    rcases this with this | this
    · exact absurd this hn
    · exact this

/-- The same for the hybrid storage: none of the three keys of the shipped configuration has any
effect. -/
theorem C101_hybrid_refuted (c : Conf) (k : String) (v : Cfg)
    (hk : k ∈ ["memory_limit_mb", "disk_path", "cache_size"]) :
    createStorage (.str "hybrid") (.dict (c.set k v)) = createStorage (.str "hybrid") (.dict c) := by
  have h : ∀ k', k' ≠ k → ∀ d, getD (c.set k v) k' d = getD c k' d := by
    intro k' hk' d
    unfold getD
    rw [Dict.get?_set, if_neg hk']
  have n1 : "disk" ≠ k := by rintro rfl; revert hk; decide
  have n2 : "memory_limit" ≠ k := by rintro rfl; revert hk; decide
  have e1 : (Cfg.str "hybrid" = .str "memory") = False := by simp
  have e2 : (Cfg.str "hybrid" = .str "disk") = False := by simp
  unfold createStorage
  simp only [e1, e2, if_false, if_true]
  rw [h _ n1, h _ n2]

/-! ## C102 -/

/-- Every template name gives a database of the type it names; every other name gives `ValueError`. -/
theorem C102_templates (E : FactoryEnv) (name : String) (hlib : E.lib = true)
    (hinit : ∀ i s, E.start i s = .ok ()) :
    (∀ t, (name, t) ∈ templates → ∃ i s ty sty, createFromTemplate E name [] = .ok (i, s) ∧
      t.get? "index_type" = some (.str ty) ∧ t.get? "storage_type" = some (.str sty) ∧
      createIndex true (.str ty) (getD t "index_config" (.dict [])) = .ok i ∧
      createStorage (.str sty) (.dict []) = .ok s ∧
      ∀ c, t.get? "index_config" = some (.dict c) → TakesEffect ["M"] i c) ∧
    (name ∉ templates.keys → ∀ o, createFromTemplate E name o = .error .value) := by
  constructor
  · intro t ht
    obtain ⟨lib, start⟩ := E
    simp only at hlib hinit
    subst hlib
    have hn : (templates.keys).Nodup := by decide +kernel
    have hget := Dict.get?_of_mem hn ht
    have hall : ∀ p ∈ templates, ∃ i s ty sty, createFromTemplate ⟨true, fun _ _ => .ok ()⟩ p.1 [] =
        .ok (i, s) ∧ p.2.get? "index_type" = some (.str ty) ∧
        p.2.get? "storage_type" = some (.str sty) ∧
        createIndex true (.str ty) (getD p.2 "index_config" (.dict [])) = .ok i ∧
        createStorage (.str sty) (.dict []) = .ok s ∧
        ∀ c, p.2.get? "index_config" = some (.dict c) → TakesEffect ["M"] i c := by
      have te : ∀ (i : IndexObj) (o : Option Cfg),
          (match o with
            | some (.dict c) => c.all fun e => decide (e.1 ∈ ["M"]) || decide (indexParam i e.1 = some e.2)
            | _ => true) = true → ∀ c, o = some (.dict c) → TakesEffect ["M"] i c := by
        intro i o h c hc k v hk hnm
        subst hc
        have := List.all_eq_true.1 h _ hk
        rw [Bool.or_eq_true, decide_eq_true_eq, decide_eq_true_eq] at this
        exact this.resolve_left hnm
      intro p hp
      simp only [templates, List.mem_cons, List.not_mem_nil, or_false] at hp
      rcases hp with rfl | rfl | rfl | rfl | rfl | rfl
      · exact ⟨.flat (.str "cosine"), .memory, "flat", "memory", by decide +kernel, rfl, rfl,
          by decide +kernel, rfl, te _ _ (by decide +kernel)⟩
      · exact ⟨.annoy (.int 10) (.str "angular") (.int (-1)) (.bool false) (.int 42), .memory, "annoy",
          "memory", by decide +kernel, rfl, rfl, by decide +kernel, rfl, te _ _ (by decide +kernel)⟩
      · exact ⟨.ivf (.int 1000) (.int 10) (.str "cosine"), .disk "./valori_data", "ivf",
          "disk", by decide +kernel, rfl, rfl, by decide +kernel, rfl, te _ _ (by decide +kernel)⟩
      · exact ⟨.lsh (.str "cosine") (.int 15) (.int 20) (.int 100) (.int 42) (.num (3 / 10)), .memory,
          "lsh", "memory", by decide +kernel, rfl, rfl, by decide +kernel, rfl,
          te _ _ (by decide +kernel)⟩
      · exact ⟨.annoy (.int 5) (.str "angular") (.int 10) (.bool false) (.int 42), .memory, "annoy",
          "memory", by decide +kernel, rfl, rfl, by decide +kernel, rfl, te _ _ (by decide +kernel)⟩
      · exact ⟨.hnsw (.int 16) (.int 200) (.int 50) (.str "cosine"), .memory, "hnsw",
          "memory", by decide +kernel, rfl, rfl, by decide +kernel, rfl, te _ _ (by decide +kernel)⟩
    have hfun : start = fun _ _ => .ok () := by
      funext i s
      exact hinit i s
    rw [hfun]
    exact hall _ ht
  · intro h o
    unfold createFromTemplate
    rw [(Dict.get?_eq_none _ _).2 h]

example : createFromTemplate ⟨true, fun _ _ => .ok ()⟩ "real_time_search" [] =
    .ok (.annoy (.int 5) (.str "angular") (.int 10) (.bool false) (.int 42), .memory) := by
  decide +kernel

/-! ## C103 -/

/-- The keyword arguments that `create_vector_db` looks at. -/
def dbKeys : List String := ["num_vectors", "dimension", "use_case", "index_type", "storage_type",
  "index_config", "storage_config"]

theorem createVectorDb_congr (E : FactoryEnv) (kw kw' : Conf)
    (h : ∀ k ∈ dbKeys, kw.get? k = kw'.get? k) : createVectorDb E kw = createVectorDb E kw' := by
  have g : ∀ k ∈ dbKeys, ∀ d, getD kw k d = getD kw' k d := by
    intro k hk d
    unfold getD
    rw [h k hk]
  unfold createVectorDb
  rw [g "num_vectors" (by decide), g "dimension" (by decide), g "use_case" (by decide),
    g "index_type" (by decide), g "storage_type" (by decide), g "index_config" (by decide),
    g "storage_config" (by decide)]

theorem updateWith_congr (k : String) (e : Conf) : ∀ (d d' : Conf), d.get? k = d'.get? k →
    (updateWith d e).get? k = (updateWith d' e).get? k := by
  induction e with
  | nil => intro d d' h; exact h
  | cons p e ih =>
    intro d d' h
    simp only [updateWith, List.foldl_cons]
    apply ih
    rw [Dict.get?_set, Dict.get?_set, h]

theorem updateWith_set_ne {k k' : String} (hk : k' ≠ k) (v : Cfg) (e : Conf) : ∀ d : Conf,
    (updateWith d (e.set k v)).get? k' = (updateWith d e).get? k' := by
  induction e with
  | nil =>
    intro d
    simp only [Dict.set, updateWith, List.foldl_cons, List.foldl_nil]
    rw [Dict.get?_set, if_neg hk]
  | cons p e ih =>
    intro d
    obtain ⟨x, w⟩ := p
    unfold Dict.set
    split_ifs with h
    · subst h
      simp only [updateWith, List.foldl_cons]
      apply updateWith_congr
      rw [Dict.get?_set, Dict.get?_set, if_neg hk, if_neg hk]
    · simp only [updateWith, List.foldl_cons]
      exact ih _

theorem updateWith_get? (e : Conf) (he : e.keys.Nodup) : ∀ (d : Conf) (k : String),
    (updateWith d e).get? k = (e.get? k).or (d.get? k) := by
  induction e with
  | nil => intro d k; rfl
  | cons p e ih =>
    intro d k
    obtain ⟨x, w⟩ := p
    have hx : x ∉ Dict.keys e := (List.nodup_cons.1 he).1
    simp only [updateWith, List.foldl_cons]
    have := ih (List.nodup_cons.1 he).2 (d.set x w) k
    unfold updateWith at this
    rw [this, Dict.get?_set]
    by_cases hk : x = k
    · subst hk
      rw [if_pos rfl, (Dict.get?_eq_none e x).2 hx]
      simp [Dict.get?]
    · rw [if_neg (fun h => hk h.symm)]
      simp [Dict.get?, hk]

/-- An override that is not one of the seven arguments, such as `num_trees=50`, is silently
ignored. -/
theorem C103_override_refuted (E : FactoryEnv) (name : String) (o : Conf) (k : String) (v : Cfg)
    (hk : k ∉ dbKeys) : createFromTemplate E name (o.set k v) = createFromTemplate E name o := by
  unfold createFromTemplate
  split
  · rfl
  · apply createVectorDb_congr
    intro k' hk'
    have hne : k' ≠ k := by rintro rfl; exact hk hk'
    exact updateWith_set_ne hne v o _

example : "num_trees" ∉ dbKeys ∧ "metric" ∉ dbKeys := by decide

/-- What is missing: the other overrides replace the template's values, one by one. -/
theorem C103_override_partial (E : FactoryEnv) (name : String) (t o : Conf)
    (ht : templates.get? name = some t) (ho : o.keys.Nodup) (ty : Cfg)
    (hty : (o.get? "index_type").or (t.get? "index_type") = some ty) (htr : ty.truthy = true)
    (i : IndexObj) (s : StorageObj) (h : createFromTemplate E name o = .ok (i, s)) :
    createIndex E.lib ty (((o.get? "index_config").or (t.get? "index_config")).getD (.dict [])) = .ok i ∧
    createStorage (((o.get? "storage_type").or (t.get? "storage_type")).getD (.str "memory"))
      (((o.get? "storage_config").or (t.get? "storage_config")).getD (.dict [])) = .ok s := by
  unfold createFromTemplate at h
  rw [ht] at h
  simp only at h
  unfold createVectorDb getD at h
  simp only [updateWith_get? o ho, hty, Option.getD_some, htr, if_true, bind, Except.bind] at h
  split at h
  · cases h
  · next i' hi =>
    split at h
    · cases h
    · next s' hs =>
      split at h
      · cases h
      · simp only [Except.ok.injEq, Prod.mk.injEq] at h
        obtain ⟨rfl, rfl⟩ := h
        exact ⟨hi, hs⟩

example : createFromTemplate ⟨true, fun _ _ => .ok ()⟩ "medium_dataset"
    [("num_trees", .int 50), ("storage_type", .str "disk")] =
    .ok (.annoy (.int 10) (.str "angular") (.int (-1)) (.bool false) (.int 42), .disk "./valori_data") := by
  decide +kernel

/-! ## C104 -/

/-- With the default index type annoy, and with hnsw, an `index_config` given to
`create_document_db` is discarded, whatever it is. -/
theorem C104_document_refuted (E : FactoryEnv) (p : Except Err Unit) (kwargs : Conf) (v : Cfg)
    (ty : Cfg) (hty : ty = .str "annoy" ∨ ty = .str "hnsw") :
    createDocumentDb E p ty (kwargs.set "index_config" v) = createDocumentDb E p ty kwargs := by
  unfold createDocumentDb
  cases p with
  | error e => rfl
  | ok u =>
    simp only
    apply createVectorDb_congr
    intro k _
    rcases hty with rfl | rfl
    · simp only [if_true]
      rw [Dict.get?_set, Dict.get?_set]
      split_ifs with hk
      · rfl
      · exact updateWith_set_ne hk v kwargs _
    · have e : (Cfg.str "hnsw" = .str "annoy") = False := by simp
      simp only [e, if_false, if_true]
      rw [Dict.get?_set, Dict.get?_set]
      split_ifs with hk
      · rfl
      · exact updateWith_set_ne hk v kwargs _

/-- What is missing: for the other index types it is the configuration used. -/
theorem C104_document_partial (E : FactoryEnv) (kwargs : Conf) (ty : String) (c : Cfg)
    (hty : ty ∈ ["flat", "ivf", "lsh"]) (hk : kwargs.keys.Nodup)
    (hno : kwargs.get? "index_type" = none) (hc : kwargs.get? "index_config" = some c)
    (i : IndexObj) (s : StorageObj)
    (h : createDocumentDb E (.ok ()) (.str ty) kwargs = .ok (i, s)) :
    createIndex E.lib (.str ty) c = .ok i := by
  have ha : ty ≠ "annoy" := by rintro rfl; revert hty; decide
  have hh : ty ≠ "hnsw" := by rintro rfl; revert hty; decide
  have htr : (Cfg.str ty).truthy = true := by
    have : ∀ t ∈ ["flat", "ivf", "lsh"], (Cfg.str t).truthy = true := by decide +kernel
    exact this ty hty
  unfold createDocumentDb at h
  simp only [Cfg.str.injEq, ha, hh, if_false] at h
  unfold createVectorDb getD at h
  have e1 : (updateWith [("index_type", .str ty), ("storage_type", .str "memory")] kwargs).get?
      "index_type" = some (.str ty) := by
    rw [updateWith_get? _ hk, hno]; rfl
  have e2 : (updateWith [("index_type", .str ty), ("storage_type", .str "memory")] kwargs).get?
      "index_config" = some c := by
    rw [updateWith_get? _ hk, hc]; rfl
  simp only [e1, e2, Option.getD_some, htr, if_true, bind, Except.bind] at h
  split at h
  · cases h
  · next i' hi =>
    split at h
    · cases h
    · split at h
      · cases h
      · simp only [Except.ok.injEq, Prod.mk.injEq] at h
        obtain ⟨rfl, rfl⟩ := h
        exact hi

example : createDocumentDb ⟨true, fun _ _ => .ok ()⟩ (.ok ()) (.str "annoy")
    [("index_config", .dict [("num_trees", .int 100)])] =
    .ok (.annoy (.int 20) (.str "angular") (.int (-1)) (.bool false) (.int 42), .memory) := by
  decide +kernel
example : createDocumentDb ⟨true, fun _ _ => .ok ()⟩ (.ok ()) (.str "ivf")
    [("index_config", .dict [("n_clusters", .int 7)])] =
    .ok (.ivf (.int 7) (.int 10) (.str "cosine"), .memory) := by
  decide +kernel

end Valori.Props
