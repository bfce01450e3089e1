import Verif.Model.IvfPar
import Verif.Props.ParInsert
import Verif.Props.SplitInsert
import Mathlib.Data.List.Induction

/-!
# C204: parallel insertion into an IVF index
-/

namespace Valori.Props

open Valori

variable {V M : Type}

/-! ## What is stored -/

/-- Equal up to the cache. -/
structure SameFlat (a b : FPar V M) : Prop where
  store : a.store = b.store
  ids : a.ids = b.ids
  count : a.count = b.count
  thr : a.thr = b.thr

theorem sameFlat_step {rows : Nat → List (FRow V M)} {a b : FPar V M} (h : SameFlat a b) (t : Nat) :
    SameFlat (a.step rows t) (b.step rows t) := by
  obtain ⟨st, ids, ca, co, th⟩ := a
  obtain ⟨st', ids', ca', co', th'⟩ := b
  obtain ⟨h1, h2, h3, h4⟩ := h
  simp only at h1 h2 h3 h4
  subst h1 h2 h3 h4
  unfold FPar.step
  simp only
  rcases th t with ⟨i, pc⟩
  cases pc <;> simp only <;> first
    | exact ⟨rfl, rfl, rfl, rfl⟩
    | (split <;> exact ⟨rfl, rfl, rfl, rfl⟩)

theorem step_returned {rows : Nat → List (FRow V M)} {s : FPar V M} {t : Nat}
    (h : (s.thr t).2 = .returned) : s.step rows t = s := by
  unfold FPar.step
  simp only [h]

theorem phase_same (env : IParEnv V) (rows : Nat → List (FRow V M)) (s : IPar V M) (t : Nat) :
    SameFlat s.base (s.phase env rows t).base := by
  unfold IPar.phase
  simp only
  split <;> (repeat' split) <;> exact ⟨rfl, rfl, rfl, rfl⟩

theorem istep_same {env : IParEnv V} {rows : Nat → List (FRow V M)} {s : IPar V M} {f : FPar V M}
    (h : SameFlat f s.base) (t : Nat) : SameFlat (f.step rows t) (s.step env rows t).base := by
  unfold IPar.step
  split
  · rename_i hr
    have hf : f.step rows t = f := step_returned (by rw [h.thr]; exact hr)
    rw [hf]
    have := phase_same env rows s t
    exact ⟨h.store.trans this.store, h.ids.trans this.ids, h.count.trans this.count,
      h.thr.trans this.thr⟩
  · exact sameFlat_step h t

theorem irun_same {env : IParEnv V} {rows : Nat → List (FRow V M)} (s0 : IPar V M) (sched : List Nat) :
    SameFlat (s0.base.run rows sched) (s0.run env rows sched).base := by
  have : ∀ (f : FPar V M) (s : IPar V M), SameFlat f s.base →
      SameFlat (f.run rows sched) (s.run env rows sched).base := by
    unfold FPar.run IPar.run
    induction sched with
    | nil => exact fun f s h => h
    | cons t ts ih => exact fun f s h => ih _ _ (istep_same h t)
  exact this _ _ ⟨rfl, rfl, rfl, rfl⟩

/-- **C204** (partial: storage and list of ids) Whatever the schedule, also when several threads train at
once: when every thread has returned or raised, the index lists the old ids followed by the new ones, each
once, the storage holds every row under its id, and nothing else in it has changed. -/
theorem C204_ivf_kept_partial (env : IParEnv V) (rows : Nat → List (FRow V M)) (s0 : IPar V M)
    (h0 : FStart s0.base) (hf : FreshRows rows s0.base.ids) (sched : List Nat) :
    let s := s0.run env rows sched
    (∀ t, (s.base.thr t).2 = .returned ∨ rows t = []) →
    s.base.ids.Nodup ∧ s0.base.ids <+: s.base.ids ∧
    (∀ id, id ∈ s.base.ids ↔ id ∈ s0.base.ids ∨ ∃ t, ∃ r ∈ rows t, r.id = id) ∧
    (∀ t, ∀ r ∈ rows t, s.base.store.get? r.id = some (r.v, r.m)) ∧
    ∀ id, (∀ t, ∀ r ∈ rows t, r.id ≠ id) → s.base.store.get? id = s0.base.store.get? id := by
  intro s hd
  have hs : SameFlat (s0.base.run rows sched) s.base := irun_same s0 sched
  obtain ⟨h1, h2, h3, -, h5, h6⟩ := C164_flat_parallel rows s0.base h0 hf sched
    (fun t => by rw [hs.thr]; exact hd t)
  rw [hs.ids] at h1 h2 h3
  rw [hs.store] at h5 h6
  exact ⟨h1, h2, h3, fun t r hr => (h5 t r hr).1, fun id hid => (h6 id hid).1⟩

/-! ## A trained index -/

/-- Rows a thread has entered into clusters; `n` is the number of its rows. -/
def entered (n : Nat) : IPh V → Nat
  | .choose j => j
  | .addHas j _ => j
  | .addNew j _ => j
  | .addPush j _ => j
  | .returned => n
  | _ => 0

/-- Where a thread can be while the index is trained. -/
def TrainedPh (env : IParEnv V) (c : List V) (rows : List (FRow V M)) : IPh V → Prop
  | .testLen => True
  | .testTrained => True
  | .testAdd => True
  | .choose j => j ≤ rows.length
  | .addHas j k => ∃ r, rows[j]? = some r ∧ k = env.near c r.v
  | .addPush j k => ∃ r, rows[j]? = some r ∧ k = env.near c r.v
  | .returned => True
  | _ => False

/-- The invariant while the index is trained. -/
structure ITr (env : IParEnv V) (rows : Nat → List (FRow V M)) (c : List V) (s0 s : IPar V M) : Prop where
  base : FInv rows s0.base s.base
  trained : s.trained = true
  cents : s.cents = some c
  keys : ∀ k, (s0.clusters.get? k).isSome → (s.clusters.get? k).isSome
  ok : ∀ t, TrainedPh env c (rows t) (s.ph t)
  late : ∀ t, s.ph t ≠ .testLen → (s.base.thr t).2 = .returned
  old : ∀ k, s0.cluster k <+: s.cluster k
  nodup : ∀ k, (s.cluster k).Nodup
  mem : ∀ k id, id ∈ s.cluster k ↔ id ∈ s0.cluster k ∨ ∃ t j r, (rows t)[j]? = some r ∧
    j < entered (rows t).length (s.ph t) ∧ r.id = id ∧ env.near c r.v = k

/-- A step that only moves thread `t`. -/
theorem ITr.move {env : IParEnv V} {rows : Nat → List (FRow V M)} {c : List V} {s0 s : IPar V M}
    (h : ITr env rows c s0 s) (t : Nat) (p : IPh V) (hb : (s.base.thr t).2 = .returned)
    (h1 : entered (rows t).length p = entered (rows t).length (s.ph t))
    (h2 : TrainedPh env c (rows t) p) : ITr env rows c s0 { s with ph := Function.update s.ph t p } := by
  have e1 : ∀ t', entered (rows t').length (Function.update s.ph t p t') =
      entered (rows t').length (s.ph t') := by
    intro t'
    by_cases ht : t' = t
    · subst ht; rw [Function.update_self]; exact h1
    · rw [Function.update_of_ne ht]
  refine ⟨h.base, h.trained, h.cents, h.keys, ?_, ?_, h.old, h.nodup, ?_⟩
  · intro t'
    by_cases ht : t' = t
    · subst ht; simp only [Function.update_self]; exact h2
    · simp only [Function.update_of_ne ht]; exact h.ok t'
  · intro t' hne
    by_cases ht : t' = t
    · subst ht; exact hb
    · simp only [Function.update_of_ne ht] at hne; exact h.late t' hne
  · intro k id
    simp only [e1]
    exact h.mem k id

theorem step_thr_other {rows : Nat → List (FRow V M)} (s : FPar V M) {t t' : Nat} (ht : t' ≠ t) :
    (s.step rows t).thr t' = s.thr t' := by
  unfold FPar.step
  simp only
  rcases s.thr t with ⟨i, pc⟩
  cases pc <;> simp only <;> first
    | rfl
    | exact Function.update_of_ne ht _ _
    | (split <;> first | rfl | exact Function.update_of_ne ht _ _)

theorem itr_step {env : IParEnv V} {rows : Nat → List (FRow V M)} {c : List V} {s0 s : IPar V M}
    (hf : FreshRows rows s0.base.ids)
    (hk : ∀ t, ∀ r ∈ rows t, (s0.clusters.get? (env.near c r.v)).isSome)
    (hc : ∀ k, ∀ id ∈ s0.cluster k, id ∈ s0.base.ids)
    (h : ITr env rows c s0 s) (t : Nat) : ITr env rows c s0 (s.step env rows t) := by
  unfold IPar.step
  by_cases hb : (s.base.thr t).2 = .returned
  · rw [if_pos hb]
    have hok := h.ok t
    unfold IPar.phase
    simp only
    cases hp : s.ph t with
    | testLen =>
      simp only
      split
      · exact h.move t _ hb (by rw [hp]; rfl) trivial
      · exact h.move t _ hb (by rw [hp]; rfl) trivial
    | testTrained =>
      simp only [h.trained, if_true]
      have := h.move t .testAdd hb (by rw [hp]; rfl) trivial
      simpa only [h.trained] using this
    | testAdd =>
      simp only [h.trained, if_true]
      have := h.move t (.choose 0) hb (by rw [hp]; rfl) (Nat.zero_le _)
      simpa only [h.trained] using this
    | choose j =>
      rw [hp] at hok
      have hj : j ≤ (rows t).length := hok
      simp only
      cases hr : (rows t)[j]? with
      | none =>
        have hl : (rows t).length ≤ j := List.getElem?_eq_none_iff.1 hr
        exact h.move t .returned hb (by rw [hp]; simp only [entered]; omega) trivial
      | some r =>
        have hlt : j < (rows t).length := (List.getElem?_eq_some_iff.1 hr).1
        have hca := h.base.cache t j r hr (by rw [h.base.ended t (.inl hb)]; exact hlt)
        simp only [hca, h.trained, h.cents]
        have := h.move t (.addHas j (env.near c r.v)) hb (by rw [hp]; rfl) ⟨r, hr, rfl⟩
        simpa only [h.trained, h.cents] using this
    | addHas j k =>
      rw [hp] at hok
      obtain ⟨r, hr, hkr⟩ := hok
      have hm : s.clusters.mem k = true := by
        rw [Dict.mem_eq, hkr]
        exact h.keys _ (hk t r (List.mem_of_getElem? hr))
      simp only [hm, if_true]
      exact h.move t _ hb (by rw [hp]; rfl) ⟨r, hr, hkr⟩
    | addPush j k =>
      rw [hp] at hok
      obtain ⟨r, hr, hkr⟩ := hok
      have hlt : j < (rows t).length := (List.getElem?_eq_some_iff.1 hr).1
      have hs := h.keys _ (hk t r (List.mem_of_getElem? hr))
      rw [← hkr] at hs
      obtain ⟨l, hl⟩ := Option.isSome_iff_exists.1 hs
      simp only [hr, hl]
      have hcl : s.cluster k = l := by simp [IPar.cluster, hl]
      have hnew : r.id ∉ l := by
        rw [← hcl, h.mem]
        rintro (h1 | ⟨t', j', r', h1, h2, h3, -⟩)
        · exact hf.new t r (List.mem_of_getElem? hr) (hc _ _ h1)
        · obtain ⟨rfl, rfl⟩ := hf.inj h1 hr h3
          rw [hp] at h2
          simp [entered] at h2
      have hcl' : ∀ k', IPar.cluster
          { s with clusters := s.clusters.set k (l ++ [r.id]), ph := Function.update s.ph t (.choose (j + 1)) } k' =
          if k' = k then l ++ [r.id] else s.cluster k' := by
        intro k'
        simp only [IPar.cluster, Dict.get?_set]
        split <;> rfl
      have hent : ∀ t', t' ≠ t → Function.update s.ph t (.choose (j + 1)) t' = s.ph t' :=
        fun t' ht => Function.update_of_ne ht _ _
      refine ⟨h.base, h.trained, h.cents, ?_, ?_, ?_, ?_, ?_, ?_⟩
      · intro k' hk'
        simp only [Dict.get?_set]
        split
        · rfl
        · exact h.keys k' hk'
      · intro t'
        by_cases ht : t' = t
        · subst ht; simp only [Function.update_self]; exact hlt
        · simp only [hent t' ht]; exact h.ok t'
      · intro t' hne
        by_cases ht : t' = t
        · subst ht; exact hb
        · simp only [hent t' ht] at hne; exact h.late t' hne
      · intro k'
        rw [hcl']
        split
        · rename_i e
          subst e
          have := h.old k'
          rw [hcl] at this
          exact this.trans (List.prefix_append _ _)
        · exact h.old k'
      · intro k'
        rw [hcl']
        split
        · have := h.nodup k
          rw [hcl] at this
          exact List.nodup_append.2 ⟨this, by simp, fun a ha b hb' => by
            simp only [List.mem_singleton] at hb'
            subst hb'
            rintro rfl
            exact hnew ha⟩
        · exact h.nodup k'
      · intro k' id
        rw [hcl']
        simp only
        constructor
        · intro hid
          by_cases e : k' = k
          · subst e
            rw [if_pos rfl, List.mem_append, List.mem_singleton] at hid
            rcases hid with hid | rfl
            · rw [← hcl, h.mem] at hid
              rcases hid with h1 | ⟨t', j', r', h1, h2, h3⟩
              · exact .inl h1
              · refine .inr ⟨t', j', r', h1, ?_, h3⟩
                by_cases ht : t' = t
                · subst ht
                  rw [Function.update_self]
                  rw [hp] at h2
                  simp only [entered] at h2 ⊢
                  omega
                · rw [hent t' ht]; exact h2
            · exact .inr ⟨t, j, r, hr, by rw [Function.update_self]; simp [entered], rfl, hkr.symm⟩
          · rw [if_neg e, h.mem] at hid
            rcases hid with h1 | ⟨t', j', r', h1, h2, h3⟩
            · exact .inl h1
            · refine .inr ⟨t', j', r', h1, ?_, h3⟩
              by_cases ht : t' = t
              · subst ht
                rw [Function.update_self]
                rw [hp] at h2
                simp only [entered] at h2 ⊢
                omega
              · rw [hent t' ht]; exact h2
        · have back : (id ∈ s0.cluster k' ∨ ∃ t j r, (rows t)[j]? = some r ∧
              j < entered (rows t).length (s.ph t) ∧ r.id = id ∧ env.near c r.v = k') →
              id ∈ (if k' = k then l ++ [r.id] else s.cluster k') := by
            intro hh
            have := (h.mem k' id).2 hh
            split
            · rename_i e
              subst e
              rw [hcl] at this
              exact List.mem_append_left _ this
            · exact this
          rintro (h1 | ⟨t', j', r', h1, h2, h3, h4⟩)
          · exact back (.inl h1)
          · by_cases ht : t' = t
            · subst ht
              rw [Function.update_self] at h2
              simp only [entered] at h2
              by_cases hj : j' = j
              · subst hj
                rw [hr] at h1
                obtain rfl := Option.some.inj h1
                rw [if_pos (h4.symm.trans hkr.symm), ← h3]
                simp
              · exact back (.inr ⟨t', j', r', h1, by rw [hp]; simp only [entered]; omega, h3, h4⟩)
            · rw [hent t' ht] at h2
              exact back (.inr ⟨t', j', r', h1, h2, h3, h4⟩)
    | returned => exact h
    | load i got => rw [hp] at hok; exact hok.elim
    | setCents c todo => rw [hp] at hok; exact hok.elim
    | clear todo => rw [hp] at hok; exact hok.elim
    | has todo => rw [hp] at hok; exact hok.elim
    | new todo => rw [hp] at hok; exact hok.elim
    | push todo => rw [hp] at hok; exact hok.elim
    | setTrained => rw [hp] at hok; exact hok.elim
    | addNew j k => rw [hp] at hok; exact hok.elim
    | raised => rw [hp] at hok; exact hok.elim
  · rw [if_neg hb]
    refine ⟨finv_step hf h.base t, h.trained, h.cents, h.keys, h.ok, ?_, h.old, h.nodup, h.mem⟩
    intro t' hne
    by_cases ht : t' = t
    · subst ht; exact absurd (h.late t' hne) hb
    · simp only [step_thr_other s.base ht]; exact h.late t' hne

/-- The index before the threads start: all of them at the beginning, no id twice in a cluster, only ids
of the index in clusters. -/
structure IStart (s : IPar V M) : Prop where
  base : FStart s.base
  ph : s.ph = fun _ => .testLen
  nodup : ∀ k, (s.cluster k).Nodup
  sub : ∀ k, ∀ id ∈ s.cluster k, id ∈ s.base.ids

/-- **C204** (partial: a trained index with a list for every cluster in question) Whatever the schedule, no
thread raises; when all have returned, every new id is listed exactly once, in the cluster of the centroid
nearest to its vector and in no other, and the old ids are listed where they were. -/
theorem C204_ivf_trained_partial (env : IParEnv V) (rows : Nat → List (FRow V M)) (s0 : IPar V M)
    (h0 : IStart s0) (hf : FreshRows rows s0.base.ids) (c : List V) (ht : s0.trained = true)
    (hc : s0.cents = some c) (hk : ∀ t, ∀ r ∈ rows t, (s0.clusters.get? (env.near c r.v)).isSome)
    (sched : List Nat) :
    let s := s0.run env rows sched
    (∀ t, s.ph t ≠ .raised) ∧
    ((∀ t, s.ph t = .returned ∨ rows t = []) →
      (∀ t, ∀ r ∈ rows t, ∀ k, (s.cluster k).count r.id = if k = env.near c r.v then 1 else 0) ∧
      (∀ k, s0.cluster k <+: s.cluster k) ∧
      ∀ k, ∀ id ∈ s0.base.ids, (s.cluster k).count id = (s0.cluster k).count id) := by
  intro s
  have hstart : ITr env rows c s0 s0 := by
    refine ⟨finv_run h0.base hf [], ht, hc, fun _ h => h, ?_, ?_, fun _ => List.prefix_rfl, h0.nodup, ?_⟩
    · intro t; rw [h0.ph]; trivial
    · intro t hne; rw [h0.ph] at hne; exact absurd rfl hne
    · intro k id
      constructor
      · exact .inl
      · rintro (h | ⟨t, j, r, -, h, -⟩)
        · exact h
        · rw [h0.ph] at h; simp [entered] at h
  have hrun : ∀ s1, ITr env rows c s0 s1 → ITr env rows c s0 (s1.run env rows sched) := by
    unfold IPar.run
    induction sched with
    | nil => exact fun s h => h
    | cons t ts ih => exact fun s h => ih _ (itr_step hf hk h0.sub h t)
  have h : ITr env rows c s0 s := hrun _ hstart
  refine ⟨fun t hr => ?_, fun hd => ⟨fun t r hr k => ?_, h.old, fun k id hid => ?_⟩⟩
  · have := h.ok t
    rw [hr] at this
    exact this
  · have hmem : r.id ∈ s.cluster k ↔ k = env.near c r.v := by
      rw [h.mem]
      constructor
      · rintro (h1 | ⟨t', j, r', h1, -, h3, h4⟩)
        · exact absurd (h0.sub _ _ h1) (hf.new t r hr)
        · obtain ⟨j', hj'⟩ := List.getElem?_of_mem hr
          obtain ⟨rfl, rfl⟩ := hf.inj h1 hj' h3
          rw [hj'] at h1
          obtain rfl := Option.some.inj h1
          exact h4.symm
      · intro e
        obtain ⟨j, hj⟩ := List.getElem?_of_mem hr
        refine .inr ⟨t, j, r, hj, ?_, rfl, e.symm⟩
        rcases hd t with h1 | h1
        · rw [h1]
          exact (List.getElem?_eq_some_iff.1 hj).1
        · rw [h1] at hr; simp at hr
    split
    · rename_i e
      exact List.count_eq_one_of_mem (h.nodup k) (hmem.2 e)
    · rename_i e
      exact List.count_eq_zero.2 (fun hm => e (hmem.1 hm))
  · have hmem : id ∈ s.cluster k ↔ id ∈ s0.cluster k := by
      rw [h.mem]
      constructor
      · rintro (h1 | ⟨t', j, r', h1, -, h3, -⟩)
        · exact h1
        · exact absurd (h3 ▸ hid) (hf.new t' r' (List.mem_of_getElem? h1))
      · exact .inl
    by_cases hm : id ∈ s0.cluster k
    · rw [List.count_eq_one_of_mem (h.nodup k) (hmem.2 hm), List.count_eq_one_of_mem (h0.nodup k) hm]
    · rw [List.count_eq_zero.2 (fun h => hm (hmem.1 h)), List.count_eq_zero.2 hm]

/-! ## Too few vectors to train -/

theorem ids_grow (env : IParEnv V) (rows : Nat → List (FRow V M)) (s : IPar V M) (t : Nat) :
    s.base.ids.length ≤ (s.step env rows t).base.ids.length := by
  unfold IPar.step
  split
  · rw [← (phase_same env rows s t).ids]
  · simp only
    unfold FPar.step
    simp only
    rcases s.base.thr t with ⟨i, pc⟩
    cases pc <;> simp only <;> first
      | exact le_rfl
      | (split <;> simp)

/-- **C204** (partial: the index stays too small) If at the end there are fewer vectors than clusters and
the index was not trained, it is not trained, its clusters are as before and no thread has raised; searches
go through all vectors then. -/
theorem C204_ivf_small_partial (env : IParEnv V) (rows : Nat → List (FRow V M)) (s0 : IPar V M)
    (h0 : IStart s0) (ht : s0.trained = false) (sched : List Nat) :
    let s := s0.run env rows sched
    s.base.ids.length < env.n →
    s.trained = false ∧ s.clusters = s0.clusters ∧ s.cents = s0.cents ∧ ∀ t, s.ph t ≠ .raised := by
  have key : (s0.run env rows sched).base.ids.length < env.n →
      (s0.run env rows sched).trained = false ∧ (s0.run env rows sched).clusters = s0.clusters ∧
      (s0.run env rows sched).cents = s0.cents ∧ ∀ t, (s0.run env rows sched).ph t = .testLen ∨
        (s0.run env rows sched).ph t = .testAdd ∨ (s0.run env rows sched).ph t = .returned := by
    induction sched using List.reverseRecOn with
    | nil => exact fun _ => ⟨ht, rfl, rfl, fun t => .inl (by simp [IPar.run, h0.ph])⟩
    | append_singleton sched t ih =>
      have e : s0.run env rows (sched ++ [t]) = (s0.run env rows sched).step env rows t := by
        simp [IPar.run, List.foldl_append]
      rw [e]
      intro hlt
      generalize s0.run env rows sched = s at *
      have hlt' : s.base.ids.length < env.n := lt_of_le_of_lt (ids_grow env rows s t) hlt
      obtain ⟨h1, h2, h3, h4⟩ := ih hlt'
      have hmove : ∀ p : IPh V, p = .testLen ∨ p = .testAdd ∨ p = .returned →
          ∀ t', Function.update s.ph t p t' = .testLen ∨ Function.update s.ph t p t' = .testAdd ∨
            Function.update s.ph t p t' = .returned := by
        intro p hp t'
        by_cases hte : t' = t
        · subst hte; rw [Function.update_self]; exact hp
        · rw [Function.update_of_ne hte]; exact h4 t'
      unfold IPar.step
      split
      · unfold IPar.phase
        simp only
        rcases h4 t with hp | hp | hp
        · rw [hp]
          simp only [if_neg (Nat.not_le.2 hlt')]
          exact ⟨h1, h2, h3, hmove _ (.inr (.inl rfl))⟩
        · rw [hp]
          simp only [h1, Bool.false_eq_true, if_false]
          exact ⟨trivial, h2, h3, hmove _ (.inr (.inr rfl))⟩
        · rw [hp]
          exact ⟨h1, h2, h3, h4⟩
      · exact ⟨h1, h2, h3, h4⟩
  intro s hlt
  obtain ⟨h1, h2, h3, h4⟩ := key hlt
  refine ⟨h1, h2, h3, fun t hr => ?_⟩
  rcases h4 t with h | h | h <;> rw [hr] at h <;> cases h

/-! ## Refutations -/

/-- Two clusters of numbers: the smallest and the largest number are the centres. -/
def ivfEnds : IParEnv Nat where
  n := 2
  kmeans vs :=
    let lo := vs.foldl min 1000
    let hi := vs.foldl max 0
    ([lo, hi], vs.map fun v => if v - lo ≤ hi - v then 0 else 1)
  near c v := match c with
    | [lo, hi] => if v - lo ≤ hi - v then 0 else 1
    | _ => 0

/-- One vector, not trained. -/
def oneIvf : IPar Nat Nat :=
  ⟨⟨[("a", (0, none))], ["a"], [("a", 0)], 1, fun _ => (0, .store)⟩, none, [], false, fun _ => .testLen⟩

/-- Two threads with one row each. -/
def twoMore : Nat → List (FRow Nat Nat)
  | 0 => [⟨"b", 90, none⟩]
  | 1 => [⟨"c", 100, some 5⟩]
  | _ => []

/-- A trained index with centres 0 and 100, and lists for both clusters or for the first only. -/
def trainedIvf (cl : Dict Nat (List Id)) : IPar Nat Nat :=
  { oneIvf with cents := some [0, 100], clusters := cl, trained := true }

theorem twoMore_fresh : FreshRows twoMore oneIvf.base.ids := by
  refine ⟨fun t => ?_, fun t t' h => ?_, fun t r hr => ?_⟩
  · rcases t with _ | _ | t <;> simp [twoMore]
  · rcases t with _ | _ | t <;> rcases t' with _ | _ | t' <;> simp [twoMore] at *
  · rcases t with _ | _ | t <;> simp [twoMore, oneIvf] at * <;> subst hr <;> decide

theorem oneIvf_start : IStart oneIvf :=
  ⟨⟨rfl, by decide, by decide⟩, rfl, fun k => by simp [oneIvf, IPar.cluster],
    fun k id h => by simp [oneIvf, IPar.cluster] at h⟩

theorem trainedIvf_start : IStart (trainedIvf [(0, ["a"]), (1, [])]) := by
  have hcl : ∀ k, (trainedIvf [(0, ["a"]), (1, [])]).cluster k = if k = 0 then ["a"] else [] := by
    intro k
    rcases k with _ | _ | k <;> simp [trainedIvf, oneIvf, IPar.cluster, Dict.get?]
  refine ⟨⟨rfl, by decide, by decide⟩, rfl, fun k => ?_, fun k id h => ?_⟩
  · rw [hcl]; split <;> simp
  · rw [hcl] at h
    split at h
    · simpa [trainedIvf, oneIvf] using h
    · simp at h

/-- The hypotheses of the positive theorems hold, and two interleaved threads are served. -/
example : (∀ t, ∀ r ∈ twoMore t,
      ((trainedIvf [(0, ["a"]), (1, [])]).clusters.get? (ivfEnds.near [0, 100] r.v)).isSome) ∧
    let s := (trainedIvf [(0, ["a"]), (1, [])]).run ivfEnds twoMore
      ((List.replicate 14 [0, 1]).flatten)
    (∀ t < 2, s.ph t = .returned) ∧ s.clusters = [(0, ["a"]), (1, ["b", "c"])] := by
  refine ⟨fun t r hr => ?_, by decide⟩
  rcases t with _ | _ | t <;> simp [twoMore] at hr <;> subst hr <;> decide

example : IStart oneIvf ∧ oneIvf.trained = false ∧
    let s := oneIvf.run { ivfEnds with n := 5 } twoMore ((List.replicate 9 [0, 1]).flatten)
    s.base.ids.length < 5 ∧ ∀ t < 2, s.ph t = .returned :=
  ⟨oneIvf_start, rfl, by decide⟩

/-- The schedule: thread 0 runs until it has loaded the vectors, thread 1 makes its whole call, thread 0
goes on. -/
def lateFinish : List Nat := List.replicate 11 0 ++ List.replicate 24 1 ++ List.replicate 12 0

/-- The index as one thread sees it after the others have returned, and its storage. -/
def ivfLeft (s : IPar Nat Nat) : Ivf Nat × Mem Nat Nat :=
  (⟨s.cents, s.clusters, s.base.ids, s.base.cache, s.base.count, s.trained, true⟩,
    ⟨s.base.store.map fun e => (e.1, e.2.1), [], s.base.store.length, 0, true⟩)

/-- **C204 (refuted), lost.** Two threads whose rows complete the number of clusters both train.  The one
that read the ids before the other's row was there finishes last: both have returned, the row is stored
and counted, but it is in no cluster, and a search with its own vector through all clusters does not find
it. -/
theorem C204_ivf_lost_refuted :
    let s := oneIvf.run ivfEnds twoMore lateFinish
    (∀ t < 2, s.ph t = .returned) ∧ s.base.ids = ["a", "b", "c"] ∧
    s.base.store.get? "c" = some (100, some 5) ∧ (∀ k ∈ s.clusters.keys, "c" ∉ s.cluster k) ∧
    (Ivf.search { exIvfEnds with nProbes := 2 } (memBackend Nat Nat) 1 100 3 (ivfLeft s).1 (ivfLeft s).2).1 =
      .ok [⟨"b", 10, none⟩, ⟨"a", 100, none⟩] := by
  decide +kernel

/-- **C204 (refuted), twice.** Two threads that train at the same time enter every vector twice; a search
then returns every vector twice. -/
theorem C204_ivf_twice_refuted :
    let s := oneIvf.run ivfEnds twoMore ((List.replicate 30 [0, 1]).flatten)
    (∀ t < 2, s.ph t = .returned) ∧ (s.cluster 0).count "a" = 2 ∧ (s.cluster 1).count "c" = 2 ∧
    (Ivf.search exIvfEnds (memBackend Nat Nat) 1 100 3 (ivfLeft s).1 (ivfLeft s).2).1 =
      .ok [⟨"c", 0, none⟩, ⟨"c", 0, none⟩, ⟨"b", 10, none⟩] := by
  decide +kernel

/-- **C204 (refuted), raises.** A thread raises (a KeyError, passed on as an index error) because the other one has cleared the clusters; its
row is stored all the same. -/
theorem C204_ivf_raises_refuted :
    let s := oneIvf.run ivfEnds twoMore
      (List.replicate 11 0 ++ List.replicate 13 1 ++ List.replicate 4 0 ++ [1, 0])
    s.ph 0 = .raised ∧ s.base.store.get? "b" = some (90, none) ∧ "b" ∈ s.base.ids := by
  decide +kernel

/-- **C204 (refuted), trained.** Also a trained index can lose a row, if the cluster has no list yet: both
threads make one, and the second replaces the first. -/
theorem C204_ivf_newlist_refuted :
    let s := (trainedIvf [(0, ["a"])]).run ivfEnds twoMore
      (List.replicate 11 0 ++ List.replicate 11 1 ++ [0, 0, 0, 1, 1, 1])
    (∀ t < 2, s.ph t = .returned) ∧ s.base.ids = ["a", "b", "c"] ∧
    s.clusters = [(0, ["a"]), (1, ["c"])] := by
  decide +kernel

end Valori.Props
