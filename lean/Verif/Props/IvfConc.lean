import Verif.Lemmas.IvfConcSearch
import Verif.Lemmas.IvfSearch

/-!
# C233: searching an IVF index beside insertions
-/

namespace Valori.Props

open Valori Valori.Spec IConc

variable {V M D : Type}

/-- An index at rest, with all threads about to start: the ids listed once and stored, the cache agrees with
the storage, the clusters have lists of their own, no id is in two of them or twice in one, and a trained index
has centroids. -/
structure IRest (s : IConc V M D) : Prop where
  base : FStart s.base
  ph : s.ph = fun _ => .testLen
  sr : s.sr = fun _ => .start
  kept : ∀ id ∈ s.base.ids, (s.base.store.get? id).isSome
  cache : ∀ id v, s.base.cache.get? id = some v → ∃ m, s.base.store.get? id = some (v, m)
  lists : ∀ l ∈ s.lists, ∀ id ∈ l, id ∈ s.base.ids
  own : ∀ k k' r, s.clusters.get? k = some r → s.clusters.get? k' = some r → k = k'
  valid : ∀ k r, s.clusters.get? k = some r → r < s.lists.length
  once : ∀ k, (s.cluster k).Nodup
  apart : ∀ k k', k ≠ k' → ∀ id ∈ s.cluster k, id ∉ s.cluster k'
  cents : s.trained = true → s.cents.isSome

/-- New ids: all different and not stored before. -/
abbrev NewIdsI (ops : Nat → HOp V M) (s : IConc V M D) : Prop := FreshRows (rowsOf ops) s.base.store.keys

theorem IRest.fresh {ops : Nat → HOp V M} {s : IConc V M D} (h : IRest s) (hf : NewIdsI ops s) :
    FreshRows (rowsOf ops) s.base.ids :=
  ⟨hf.nodup, hf.apart, fun t r hr hm => hf.new t r hr ((Dict.mem_keys _ _).2 (h.kept _ hm))⟩

theorem IRest.member {s : IConc V M D} (h : IRest s) {c : Nat} {id : Id} (hid : id ∈ s.cluster c) :
    id ∈ s.base.ids := by
  unfold cluster at hid
  cases hc : s.clusters.get? c with
  | none => rw [hc] at hid; cases hid
  | some r =>
    rw [hc] at hid
    simp only at hid
    cases hl : s.lists[r]? with
    | none => rw [hl] at hid; cases hid
    | some l => rw [hl] at hid; exact h.lists l (List.mem_of_getElem? hl) id hid

variable [LinearOrder D]

theorem IRest.inv {env : IConcEnv V D} {ops : Nat → HOp V M} {s : IConc V M D} (h : IRest s) :
    SInv env ops s s := by
  have hk : ∀ id ∈ s.base.ids, Kept s id := fun id hid => Option.isSome_iff_exists.1 (h.kept id hid)
  refine ⟨⟨fun _ _ h => h, fun _ _ h => .inl h, h.cache, hk, fun l hl id hid => hk id (h.lists l hl id hid),
    h.cents⟩, ?_, ?_, ?_⟩
  · intro t rows _
    rw [h.base.thr]
    exact ⟨fun j r _ hj => absurd hj (Nat.not_lt_zero _), by simp⟩
  · intro t; rw [h.ph]; trivial
  · intro t q k _; rw [h.sr]; trivial

theorem IRest.flat {ops : Nat → HOp V M} {s : IConc V M D} (h : IRest s) (hf : NewIdsI ops s) : FlatOk ops s s :=
  ⟨s.base, finv_run h.base (h.fresh hf) [], ⟨rfl, rfl, rfl, rfl⟩⟩

theorem irun_sinv {env : IConcEnv V D} {ops : Nat → HOp V M} {s0 : IConc V M D} (h0 : IRest s0)
    (hf : NewIdsI ops s0) (sched : List Nat) : SInv env ops s0 (run env ops s0 sched) :=
  sinv_run hf sched s0 h0.inv

/-- **C233** (partial: that the ids differ and nothing is missed is below) Whatever the schedule, also when
several threads train the index meanwhile: a search that returns gives at most `k` results in order of distance;
each is stored with that metadata and its vector has that distance; and it is an old entry or a row that some
thread inserts. -/
theorem C233_ivf_beside_sound_partial (env : IConcEnv V D) (ops : Nat → HOp V M) (s0 : IConc V M D) (h0 : IRest s0)
    (hf : NewIdsI ops s0) (sched : List Nat) (t : Nat) (q : V) (k : Int) (hk : 0 ≤ k) (ho : ops t = .search q k)
    (hits : List (Hit D M)) :
    let s := run env ops s0 sched
    s.sr t = .done (.hits hits) →
    hits.length ≤ k.toNat ∧ hits.Pairwise (fun a b => a.dist ≤ b.dist) ∧
    ∀ x ∈ hits, ∃ v, s.base.store.get? x.id = some (v, x.md) ∧ env.dist q v = .ok x.dist ∧
      (s0.base.store.get? x.id = some (v, x.md) ∨ ∃ t', ∃ r ∈ rowsOf ops t', r = ⟨x.id, v, x.md⟩) := by
  intro s hd
  have h := irun_sinv (env := env) h0 hf sched
  have hs := h.sr t q k ho
  rw [hd] at hs
  obtain ⟨h1, h2, h3⟩ := hs
  rw [List.pairwise_map] at h2
  refine ⟨h3 hk, h2, fun x hx => ?_⟩
  obtain ⟨v, hv, hdist⟩ := h1 x hx
  refine ⟨v, hv, hdist, ?_⟩
  rcases h.glob.orig _ _ hv with h4 | ⟨t', r, h4, h5, h6⟩
  · exact .inl h4
  · refine .inr ⟨t', r, h4, ?_⟩
    obtain ⟨ri, rv, rm⟩ := r
    simp only [Prod.mk.injEq] at h5 h6
    rw [h5, h6.1, h6.2]

/-- **C233** (partial: one cause of failure remains) If the distances are defined, a search can come to raise in
one place only: when it takes the list of a cluster that it has found in the dictionary and that is no longer
there. -/
theorem C233_ivf_beside_raises_partial (env : IConcEnv V D) (ops : Nat → HOp V M) (s0 : IConc V M D)
    (h0 : IRest s0) (hf : NewIdsI ops s0) (sched : List Nat) (t : Nat) (q : V) (k : Int)
    (ho : ops t = .search q k) (hd : ∀ v, ∃ d, env.dist q v = .ok d) :
    let s := run env ops s0 sched
    s.sr t ≠ .done .raised → (s.step env ops t).sr t = .done .raised →
    ∃ c todo got, s.sr t = .take c todo got ∧ s.clusters.get? c = none := by
  intro s hn hr
  have h := irun_sinv (env := env) h0 hf sched
  have hs : run env ops s0 sched = s := rfl
  rw [hs] at h
  have e : (s.step env ops t).sr t = (s.search env q k (s.sr t)).1 := by
    unfold step; rw [ho]; simp only [Function.update_self]
  rw [e] at hr
  rcases (search_ok h.glob (h.sr t q k ho)).2.2 hn hr with h1 | ⟨v, err, h1⟩
  · exact h1
  · obtain ⟨d, hdv⟩ := hd v
    rw [h1] at hdv; cases hdv

theorem IRest.tidy {ops : Nat → HOp V M} {s : IConc V M D} (h : IRest s) (hf : NewIdsI ops s) :
    Tidy (rowsOf ops) s := by
  refine ⟨h.own, h.valid, h.once, h.apart, ?_, ?_, ?_⟩
  · intro t; rw [h.ph]; exact hf.nodup t
  · intro t id hid k hk
    rw [h.ph] at hid
    obtain ⟨r, hr, rfl⟩ := List.mem_map.1 hid
    exact (h.fresh hf).new t r hr (h.member hk)
  · intro t t' ht id hid hid'
    rw [h.ph] at hid hid'
    obtain ⟨r, hr, rfl⟩ := List.mem_map.1 hid
    obtain ⟨r', hr', e⟩ := List.mem_map.1 hid'
    exact hf.apart t t' ht r hr r' hr' e.symm

/-- Either the index is trained and has a list for the cluster of every new row, or there is at most one
inserting thread. -/
def Steady (env : IConcEnv V D) (ops : Nat → HOp V M) (s : IConc V M D) : Prop :=
  (s.trained = true ∧ ∀ cs, s.cents = some cs → ∀ t, ∀ r ∈ rowsOf ops t,
    (s.clusters.get? (env.near cs r.v)).isSome) ∨
  ∀ t t' rows rows', ops t = .insert rows → ops t' = .insert rows' → t = t'

theorem calm_run {env : IConcEnv V D} {ops : Nat → HOp V M} {s0 : IConc V M D} (h0 : IRest s0)
    (hf : NewIdsI ops s0) (hm : Steady env ops s0) (sched : List Nat) :
    Calm env ops s0 (run env ops s0 sched) ∧ SInv env ops s0 (run env ops s0 sched) ∧
    FlatOk ops s0 (run env ops s0 sched) ∧ s0.base.ids <+: (run env ops s0 sched).base.ids ∧
    (s0.trained = true → Ext s0 (run env ops s0 sched)) := by
  induction sched using List.reverseRecOn with
  | nil =>
    refine ⟨⟨h0.tidy hf, ?_⟩, h0.inv, h0.flat hf, List.prefix_refl _, fun htr => .same htr rfl rfl rfl rfl⟩
    rcases hm with ⟨h1, h2⟩ | h1
    · refine .inl ⟨h2, h1, rfl, rfl, fun t => ?_⟩
      have : (run env ops s0 []).ph t = .testLen := by simp only [run, List.foldl_nil, h0.ph]
      rw [this]; trivial
    · have : ∀ t, (run env ops s0 []).ph t = .testLen := by intro t; simp only [run, List.foldl_nil, h0.ph]
      exact .inr ⟨h1, fun t _ _ _ => this t, fun t => by rw [this t]; trivial⟩
  | append_singleton l u ih =>
    have hrun : run env ops s0 (l ++ [u]) = (run env ops s0 l).step env ops u := by
      unfold run; rw [List.foldl_append]; rfl
    rw [hrun]
    generalize run env ops s0 l = s at ih ⊢
    obtain ⟨i1, i2, i3, i4, i5⟩ := ih
    obtain ⟨j1, j2⟩ := calm_step i2 i3.nodup i1 u
    refine ⟨j1, sinv_step hf i2 u, flatOk_step (h0.fresh hf) i3 u, i4.trans (ids_step env ops s u), fun htr => ?_⟩
    have e1 := i5 htr
    have e2 := j2 e1.trained
    exact ⟨e2.trained, e2.cents.trans e1.cents, fun c => (e1.pre c).trans (e2.pre c),
      fun c r h => e2.ref c r (e1.ref c r h)⟩

/-- **C233** (partial: the clusters must be steady) If there is at most one inserting thread, or the index was
trained before and has a list for the cluster of every new row, and the distances are defined, then whatever the
schedule no search raises and the ids in a result differ.  If the index was trained before, the result misses
nothing that was in the `n_probes` nearest clusters when the threads started: it contains it, or `k` results none
of which is farther away. -/
theorem C233_ivf_beside_steady_partial (env : IConcEnv V D) (hp : 0 ≤ env.nProbes) (ops : Nat → HOp V M)
    (s0 : IConc V M D) (h0 : IRest s0) (hf : NewIdsI ops s0) (hm : Steady env ops s0) (sched : List Nat) (t : Nat)
    (q : V) (k : Int) (hk : 0 ≤ k) (ho : ops t = .search q k) (hd : ∀ v, ∃ d, env.dist q v = .ok d) (r : FRes M D) :
    let s := run env ops s0 sched
    s.sr t = .done r →
    ∃ hits, r = .hits hits ∧ (hits.map (fun x => x.id)).Nodup ∧
      ∀ cs, s0.trained = true → s0.cents = some cs →
        ∃ ps, Ivf.Nearest (env.dist q) cs env.nProbes.toNat ps ∧
          ∀ c ∈ ps, ∀ id ∈ s0.cluster c, id ∈ hits.map (fun x => x.id) ∨
            (hits.length = k.toNat ∧ ∃ v m d, s.base.store.get? id = some (v, m) ∧ env.dist q v = .ok d ∧
              ∀ x ∈ hits, x.dist ≤ d) := by
  intro s hr
  let must : Id → Prop := fun id => s0.trained = true ∧ ∃ cs ps c, s0.cents = some cs ∧
    probesOf env q cs = .ok ps ∧ c ∈ ps ∧ id ∈ s0.cluster c
  let c0 : Nat → List Id := fun c => if s0.trained = true then s0.cluster c else []
  have hseen : SeenOk env.dist must c0 q k s (s.sr t) := by
    refine seen_run hf (h0.fresh hf) h0.inv (h0.flat hf) t q k ho hd (by rw [h0.sr]) sched ?_ ?_
    · intro pre _ htr
      obtain ⟨c1, c2, c3, -⟩ := calm_run h0 hf hm pre
      exact ⟨c1.tidy, fun t' => (calm_step c2 c3.nodup c1 t').2 htr⟩
    · intro pre _
      obtain ⟨c1, c2, c3, c4, c5⟩ := calm_run h0 hf hm pre
      refine ⟨?_, ?_, ?_⟩
      · rintro id ⟨-, cs, ps, c, -, -, -, hid⟩
        exact c4.subset (h0.member hid)
      · rintro - cs ps hcs hps id ⟨htr, cs', ps', c, h1, h2, h3, h4⟩
        rw [(c5 htr).cents, h1] at hcs
        cases hcs
        rw [h2] at hps
        cases hps
        exact ⟨c, h3, by simp only [c0, htr, if_true]; exact h4⟩
      · intro _ c id hid
        by_cases htr : s0.trained = true
        · simp only [c0, htr, if_true] at hid
          exact ((c5 htr).pre c).subset hid
        · simp only [c0, htr] at hid; cases hid
  rw [hr] at hseen
  cases r with
  | ids l => exact hseen.elim
  | flag b => exact hseen.elim
  | raised => exact hseen.elim
  | hits hits =>
    refine ⟨hits, rfl, hseen.1, fun cs htr hcs => ?_⟩
    obtain ⟨ps, hps⟩ := probes_defined (env := env) hd cs
    have hn := (Ivf.probes_spec (env := ⟨0, env.nProbes, env.dist, fun _ => .error .other⟩) hp hps).1
    refine ⟨ps, hn, fun c hc id hid => ?_⟩
    rcases hseen.2 hk id ⟨htr, cs, ps, c, hcs, hps, hc, hid⟩ with h1 | ⟨h1, d, ⟨v, m, h2, h3⟩, h4⟩
    · exact .inl h1
    · refine .inr ⟨by simpa using h1, v, m, d, h2, h3, fun x hx => h4 _ (List.mem_map_of_mem hx)⟩

theorem trained_step {env : IConcEnv V D} {ops : Nat → HOp V M} (s : IConc V M D) (t : Nat) (h : s.trained = true) :
    (s.step env ops t).trained = true := by
  unfold step
  cases ops t with
  | insert rows =>
    simp only
    split
    · unfold phase
      simp only
      split <;> (repeat' split) <;> first | exact h | rfl
    · exact h
  | search q k => exact h

theorem trained_run {env : IConcEnv V D} {ops : Nat → HOp V M} (sched : List Nat) : ∀ s : IConc V M D,
    s.trained = true → (run env ops s sched).trained = true := by
  unfold run
  induction sched with
  | nil => exact fun s h => h
  | cons t ts ih => exact fun s h => ih _ (trained_step s t h)

/-- **C233** (partial: as long as the index is not trained) With any number of inserting threads: a search on an
index that stays untrained does not raise, the ids in its result differ, and it misses nothing that was there
when the threads started. -/
theorem C233_ivf_beside_untrained_partial (env : IConcEnv V D) (ops : Nat → HOp V M)
    (s0 : IConc V M D) (h0 : IRest s0) (hf : NewIdsI ops s0) (sched : List Nat) (t : Nat)
    (q : V) (k : Int) (hk : 0 ≤ k) (ho : ops t = .search q k) (hd : ∀ v, ∃ d, env.dist q v = .ok d) (r : FRes M D) :
    let s := run env ops s0 sched
    s.trained = false → s.sr t = .done r →
    ∃ hits, r = .hits hits ∧ (hits.map (fun x => x.id)).Nodup ∧
      ∀ id ∈ s0.base.ids, id ∈ hits.map (fun x => x.id) ∨
        (hits.length = k.toNat ∧ ∃ v m d, s.base.store.get? id = some (v, m) ∧ env.dist q v = .ok d ∧
          ∀ x ∈ hits, x.dist ≤ d) := by
  intro s hun hr
  have hno : ∀ pre, pre <+: sched → (run env ops s0 pre).trained ≠ true := by
    rintro pre ⟨x, hx⟩ htr
    have : s = run env ops (run env ops s0 pre) x := by
      change run env ops s0 sched = _
      rw [← hx]; unfold run; rw [List.foldl_append]
    rw [this, trained_run x _ htr] at hun
    cases hun
  have hids : ∀ pre, s0.base.ids <+: (run env ops s0 pre).base.ids := by
    intro pre
    induction pre using List.reverseRecOn with
    | nil => exact List.prefix_refl _
    | append_singleton l u ih =>
      have hrun : run env ops s0 (l ++ [u]) = (run env ops s0 l).step env ops u := by
        unfold run; rw [List.foldl_append]; rfl
      rw [hrun]; exact ih.trans (ids_step env ops _ u)
  have hseen : SeenOk env.dist (· ∈ s0.base.ids) (fun _ => []) q k s (s.sr t) := by
    refine seen_run hf (h0.fresh hf) h0.inv (h0.flat hf) t q k ho hd (by rw [h0.sr]) sched ?_ ?_
    · intro pre hpre htr; exact absurd htr (hno pre hpre)
    · intro pre hpre
      exact ⟨fun id hid => (hids pre).subset hid, fun htr => absurd htr (hno pre hpre),
        fun htr => absurd htr (hno pre hpre)⟩
  rw [hr] at hseen
  cases r with
  | ids l => exact hseen.elim
  | flag b => exact hseen.elim
  | raised => exact hseen.elim
  | hits hits =>
    refine ⟨hits, rfl, hseen.1, fun id hid => ?_⟩
    rcases hseen.2 hk id hid with h1 | ⟨h1, d, ⟨v, m, h2, h3⟩, h4⟩
    · exact .inl h1
    · refine .inr ⟨by simpa using h1, v, m, d, h2, h3, fun x hx => h4 _ (List.mem_map_of_mem hx)⟩

/-! ## Examples and refutations -/

/-- The parameters of C204 with the distance of numbers. -/
def ivfEndsC : IConcEnv Nat Nat := { ivfEnds with nProbes := 2, dist := fun a b => .ok (a - b + (b - a)) }

/-- One vector, not trained. -/
def oneIvfC : IConc Nat Nat Nat :=
  ⟨oneIvf.base, none, [], [], false, fun _ => .testLen, fun _ => .start⟩

/-- A trained index with centres 0 and 100 and a list for both clusters. -/
def trainedIvfC : IConc Nat Nat Nat :=
  ⟨oneIvf.base, some [0, 100], [["a"], []], [(0, 0), (1, 1)], true, fun _ => .testLen, fun _ => .start⟩

/-- Two threads that insert one row each, and one that searches. -/
def twoIvfSearch : Nat → HOp Nat Nat
  | 0 => .insert [⟨"b", 90, none⟩]
  | 1 => .insert [⟨"c", 100, some 5⟩]
  | 2 => .search 95 3
  | _ => .insert []

/-- One thread that inserts two rows, and two that search. -/
def oneIvfSearch : Nat → HOp Nat Nat
  | 0 => .insert [⟨"b", 90, none⟩, ⟨"c", 100, some 5⟩]
  | 1 => .search 95 3
  | _ => .search 10 1

theorem twoIvfSearch_rows (t : Nat) : rowsOf twoIvfSearch t = twoMore t := by
  rcases t with _ | _ | _ | t <;> rfl

theorem oneIvfC_rest : IRest oneIvfC := by
  refine ⟨⟨rfl, by decide, by decide⟩, rfl, rfl, by decide, ?_, by decide, ?_, ?_, ?_, ?_, by decide⟩
  · intro id v h
    simp only [oneIvfC, oneIvf, Dict.get?] at h ⊢
    split at h
    · cases h; exact ⟨none, by simp_all⟩
    · cases h
  · intro k k' r h; cases h
  · intro k r h; cases h
  · intro k; exact List.nodup_nil
  · intro k k' _ id h; cases h

theorem trainedIvfC_cluster (k : Nat) : trainedIvfC.cluster k = if k = 0 then ["a"] else [] := by
  rcases k with _ | _ | k <;> simp [trainedIvfC, IConc.cluster, Dict.get?]

theorem trainedIvfC_rest : IRest trainedIvfC := by
  refine ⟨⟨rfl, by decide, by decide⟩, rfl, rfl, by decide, ?_, by decide, ?_, ?_, ?_, ?_, by decide⟩
  · intro id v h
    simp only [trainedIvfC, oneIvf, Dict.get?] at h ⊢
    split at h
    · cases h; exact ⟨none, by simp_all⟩
    · cases h
  · intro k k' r h h'
    rcases k with _ | _ | k <;> rcases k' with _ | _ | k' <;> simp [trainedIvfC, Dict.get?] at h h' ⊢ <;> omega
  · intro k r h
    rcases k with _ | _ | k <;> simp [trainedIvfC, Dict.get?] at h ⊢ <;> omega
  · intro k; rw [trainedIvfC_cluster]; split <;> simp
  · intro k k' hk id h h'
    rw [trainedIvfC_cluster] at h h'
    split at h
    · split at h'
      · omega
      · cases h'
    · cases h

theorem twoIvfSearch_fresh (s : IConc Nat Nat Nat) (h : s.base = oneIvf.base) : NewIdsI twoIvfSearch s := by
  have e : rowsOf twoIvfSearch = twoMore := funext twoIvfSearch_rows
  unfold NewIdsI
  rw [e, h]
  exact ⟨twoMore_fresh.nodup, twoMore_fresh.apart, twoMore_fresh.new⟩

theorem oneIvfSearch_fresh (s : IConc Nat Nat Nat) (h : s.base = oneIvf.base) : NewIdsI oneIvfSearch s := by
  unfold NewIdsI
  rw [h]
  refine ⟨fun t => ?_, fun t t' ht r hr r' hr' => ?_, fun t r hr => ?_⟩
  · rcases t with _ | _ | t <;> simp [IConc.rowsOf, oneIvfSearch]
  · rcases t with _ | _ | t
    · rcases t' with _ | _ | t' <;> simp_all [IConc.rowsOf, oneIvfSearch]
    · simp [IConc.rowsOf, oneIvfSearch] at hr
    · simp [IConc.rowsOf, oneIvfSearch] at hr
  · rcases t with _ | _ | t <;> simp [IConc.rowsOf, oneIvfSearch, oneIvf, Dict.keys] at * <;>
      rcases hr with rfl | rfl <;> decide

/-- Two threads insert into a trained index and one searches; the search meets one of the rows. -/
example : Steady ivfEndsC twoIvfSearch trainedIvfC ∧
    let s := run ivfEndsC twoIvfSearch trainedIvfC
      (List.replicate 14 0 ++ List.replicate 4 2 ++ (List.replicate 14 [1, 2]).flatten)
    s.sr 2 = .done (.hits [⟨"b", 5, none⟩, ⟨"a", 95, none⟩]) := by
  refine ⟨.inl ⟨rfl, ?_⟩, by decide +kernel⟩
  intro cs hcs t r hr
  cases hcs
  rw [twoIvfSearch_rows] at hr
  rcases t with _ | _ | t <;> simp [twoMore] at hr <;> subst hr <;> decide

/-- One thread inserts and thereby trains the index, two search: one before, and one after the training. -/
example : Steady ivfEndsC oneIvfSearch oneIvfC ∧
    let s := run ivfEndsC oneIvfSearch oneIvfC
      ((List.replicate 13 [0, 1]).flatten ++ List.replicate 24 0 ++ List.replicate 24 2)
    s.trained = true ∧ s.sr 1 = .done (.hits [⟨"b", 5, none⟩, ⟨"c", 5, some 5⟩, ⟨"a", 95, none⟩]) ∧
    s.sr 2 = .done (.hits [⟨"a", 10, none⟩]) := by
  refine ⟨.inr ?_, by decide +kernel⟩
  intro t t' rows rows' h h'
  rcases t with _ | _ | t <;> rcases t' with _ | _ | t' <;> simp [oneIvfSearch] at h h' ⊢

/-- Two threads insert into an index that stays untrained, and one searches. -/
example : IRest oneIvfC ∧ NewIdsI twoIvfSearch oneIvfC ∧
    let s := run { ivfEndsC with n := 5 } twoIvfSearch oneIvfC
      (List.replicate 3 0 ++ (List.replicate 14 [0, 1, 2]).flatten)
    s.trained = false ∧ s.sr 2 = .done (.hits [⟨"b", 5, none⟩, ⟨"c", 5, some 5⟩, ⟨"a", 95, none⟩]) :=
  ⟨oneIvfC_rest, twoIvfSearch_fresh _ rfl, by decide +kernel⟩

/-- As `twoIvfSearch`, with another row and another query. -/
def twoIvfNear : Nat → HOp Nat Nat
  | 0 => .insert [⟨"b", 40, none⟩]
  | 1 => .insert [⟨"c", 100, some 5⟩]
  | 2 => .search 10 5
  | _ => .insert []

/-- **C233 (refuted), raises.** Two threads train at the same time.  After the first has finished, a search finds
the nearest cluster in the dictionary; then the second clears the dictionary, and the search raises (a KeyError,
passed on as an index error), although all distances are defined and the index has vectors. -/
theorem C233_ivf_raises_refuted :
    IRest oneIvfC ∧ NewIdsI twoIvfSearch oneIvfC ∧
    (run ivfEndsC twoIvfSearch oneIvfC
      (List.replicate 11 0 ++ List.replicate 24 1 ++ List.replicate 4 2 ++ [0, 0, 2])).sr 2 = .done .raised :=
  ⟨oneIvfC_rest, twoIvfSearch_fresh _ rfl, by decide +kernel⟩

/-- **C233 (refuted), twice.** A second training while a search is between two clusters moves a vector from the
cluster already seen to the one still to be seen: it is returned twice. -/
theorem C233_ivf_twice_refuted :
    (run ivfEndsC twoIvfNear oneIvfC
      (List.replicate 11 0 ++ List.replicate 24 1 ++ List.replicate 8 2 ++ List.replicate 12 0 ++
        List.replicate 10 2)).sr 2 =
      .done (.hits [⟨"a", 10, none⟩, ⟨"b", 30, none⟩, ⟨"b", 30, none⟩]) := by
  decide +kernel

end Valori.Props
