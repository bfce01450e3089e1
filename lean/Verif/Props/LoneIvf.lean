import Verif.Props.LoneFlat
import Verif.Props.IvfPar

/-!
# C213: an insertion nobody interrupts, into an IVF index
-/

namespace Valori.Props

open Valori Spec

variable {V M D : Type}

/-- The fields of the index, as a single caller sees them. -/
def ivfOf (s : IPar V M) : Ivf V :=
  ⟨s.cents, s.clusters, s.base.ids, s.base.cache, s.base.count, s.trained, true⟩

/-- The state with thread `t` at `b` in the first part and at `p` in the second part of its call. -/
def ivfAt (f : Ivf V) (st : Dict Id (V × Option M)) (thr : Nat → Nat × FPc) (ph : Nat → IPh V) (t : Nat)
    (b : Nat × FPc) (p : IPh V) : IPar V M :=
  ⟨⟨st, f.ids, f.cache, f.count, Function.update thr t b⟩, f.cents, f.clusters, f.trained,
    Function.update ph t p⟩

/-- The index with other clusters. -/
def withClusters (f : Ivf V) (cl : Dict Nat (List Id)) : Ivf V := { f with clusters := cl }

/-- Some steps of thread `t` lead from `s` to `s'`. -/
def ILeads (env : IParEnv V) (rows : Nat → List (FRow V M)) (t : Nat) (s s' : IPar V M) : Prop :=
  ∃ n, s.run env rows (List.replicate n t) = s'

/-- The number of clusters, k-means and the choice of the cluster are those of the sequential model, where
neither raises. -/
structure SameIvf [LinearOrder D] (env : IParEnv V) (env' : IvfEnv V D) : Prop where
  n : env'.nClusters = env.n
  kmeans : ∀ vs, env'.kmeans vs = .ok (env.kmeans vs)
  near : ∀ c v, Ivf.closest (env'.dist v) 0 c none = .ok (env.near c v)

section
variable {env : IParEnv V} {rows : Nat → List (FRow V M)} {t : Nat} {thr : Nat → Nat × FPc} {ph : Nat → IPh V}

theorem ILeads.rfl' {s : IPar V M} : ILeads env rows t s s := ⟨0, rfl⟩

theorem ILeads.trans {a b c : IPar V M} (h1 : ILeads env rows t a b) (h2 : ILeads env rows t b c) :
    ILeads env rows t a c := by
  obtain ⟨n, rfl⟩ := h1
  obtain ⟨m, rfl⟩ := h2
  exact ⟨n + m, by simp [IPar.run, ← List.replicate_append_replicate, List.foldl_append]⟩

theorem ILeads.next {a b c : IPar V M} (h1 : a.step env rows t = b) (h2 : ILeads env rows t b c) :
    ILeads env rows t a c := ILeads.trans ⟨1, h1⟩ h2

theorem set_set {κ α : Type} [DecidableEq κ] (d : Dict κ α) (k : κ) (a b : α) :
    (d.set k a).set k b = d.set k b := by
  induction d with
  | nil => simp [Dict.set]
  | cons e d ih =>
    obtain ⟨x, y⟩ := e
    by_cases h : x = k
    · simp [Dict.set, h]
    · simp [Dict.set, h, ih]

theorem lone_ivf_rows (rest : List (FRow V M)) (p : IPh V) :
    ∀ (j : Nat), (rows t).drop j = rest → ∀ (f : Ivf V) (st : Dict Id (V × Option M)),
    ∃ f' st' j', Ivf.insertLoop (plainStore V M) (some ((rows t).map FRow.m)) j
        (rest.map fun r => (r.id, r.v)) f st = (.ok (rest.map FRow.id), f', st') ∧
      ILeads env rows t (ivfAt f st thr ph t (j, .store) p) (ivfAt f' st' thr ph t (j', .len) p) := by
  induction rest with
  | nil =>
    intro j hj f st
    have hl : (rows t).length ≤ j := List.drop_eq_nil_iff.1 hj
    refine ⟨f, st, j, rfl, .next ?_ .rfl'⟩
    simp [IPar.step, FPar.step, ivfAt, List.getElem?_eq_none hl]
  | cons r rest ih =>
    intro j hj f st
    have hr : (rows t)[j]? = some r := by rw [← List.head?_drop, hj]; rfl
    have hn : (rows t).drop (j + 1) = rest := by rw [← List.tail_drop, hj]; rfl
    obtain ⟨f', st', j', h1, h2⟩ := ih (j + 1) hn
      { f with ids := f.ids ++ [r.id], cache := f.cache.set r.id r.v } (st.set r.id (r.v, r.m))
    refine ⟨f', st', j', ?_, ?_⟩
    · simp only [List.map_cons, Ivf.insertLoop, plainStore, rowMeta_all (rows t) hr]
      simp only [plainStore] at h1
      simp only [h1]
    · refine .next (b := ivfAt f (st.set r.id (r.v, r.m)) thr ph t (j, .append) p) ?_ <| .next
        (b := ivfAt { f with ids := f.ids ++ [r.id] } (st.set r.id (r.v, r.m)) thr ph t (j, .cache) p)
        ?_ <| .next ?_ h2
      all_goals simp [IPar.step, FPar.step, ivfAt, hr]

theorem lone_ivf_load (i0 : Nat) (rest : List Id) :
    ∀ (j : Nat) (f : Ivf V), f.ids.drop j = rest → ∀ (st : Dict Id (V × Option M)) (got : List (Id × V)),
    ∃ vs c j', loadVecs (plainStore V M) rest f.cache st = (.ok vs, c, st) ∧ f.ids[j']? = none ∧
      ILeads env rows t (ivfAt f st thr ph t (i0, .returned) (.load j got))
        (ivfAt { f with cache := c } st thr ph t (i0, .returned) (.load j' (got ++ vs))) := by
  induction rest with
  | nil =>
    intro j f hj st got
    refine ⟨[], f.cache, j, rfl, List.getElem?_eq_none (List.drop_eq_nil_iff.1 hj), ?_⟩
    rw [List.append_nil]
    exact .rfl'
  | cons id rest ih =>
    intro j f hj st got
    have hr : f.ids[j]? = some id := by rw [← List.head?_drop, hj]; rfl
    have hn : f.ids.drop (j + 1) = rest := by rw [← List.tail_drop, hj]; rfl
    rw [loadVecs]
    cases hc : f.cache.get? id with
    | some v =>
      obtain ⟨vs, c, j', h1, hj', h2⟩ := ih (j + 1) f hn st (got ++ [(id, v)])
      refine ⟨(id, v) :: vs, c, j', by simp only [h1], hj', ?_⟩
      simp only [List.append_assoc, List.cons_append, List.nil_append] at h2
      refine .next ?_ h2
      simp [IPar.step, IPar.phase, ivfAt, hr, hc]
    | none =>
      cases hs : st.get? id with
      | none =>
        obtain ⟨vs, c, j', h1, hj', h2⟩ := ih (j + 1) f hn st got
        refine ⟨vs, c, j', by simpa only [plainStore, hs] using h1, hj', ?_⟩
        refine .next ?_ h2
        simp [IPar.step, IPar.phase, ivfAt, hr, hc, hs]
      | some x =>
        obtain ⟨v, m⟩ := x
        obtain ⟨vs, c, j', h1, hj', h2⟩ := ih (j + 1) { f with cache := f.cache.set id v } hn st
          (got ++ [(id, v)])
        simp only [plainStore] at h1
        refine ⟨(id, v) :: vs, c, j', by simp only [plainStore, hs, h1], hj', ?_⟩
        simp only [List.append_assoc, List.cons_append, List.nil_append] at h2
        refine .next ?_ h2
        simp [IPar.step, IPar.phase, ivfAt, hr, hc, hs]

theorem lone_ivf_build (i0 : Nat) (todo : List (Id × Nat)) :
    ∀ (f : Ivf V) (st : Dict Id (V × Option M)),
      ILeads env rows t (ivfAt f st thr ph t (i0, .returned) (.has todo))
        (ivfAt { f with clusters := Ivf.buildClusters todo f.clusters } st thr ph t (i0, .returned)
          .setTrained) := by
  induction todo with
  | nil =>
    intro f st
    refine .next ?_ .rfl'
    simp [IPar.step, IPar.phase, ivfAt, Ivf.buildClusters]
  | cons p todo ih =>
    intro f st
    obtain ⟨id, k⟩ := p
    have h := ih { f with clusters := f.clusters.set k ((f.clusters.get? k).getD [] ++ [id]) } st
    cases hk : f.clusters.get? k with
    | some l =>
      refine .next (b := ivfAt f st thr ph t (i0, .returned) (.push ((id, k) :: todo))) ?_ <| .next ?_ h
      all_goals simp [IPar.step, IPar.phase, ivfAt, Dict.mem, hk]
    | none =>
      refine .next (b := ivfAt f st thr ph t (i0, .returned) (.new ((id, k) :: todo))) ?_ <|
        .next (b := ivfAt { f with clusters := f.clusters.set k [] } st thr ph t (i0, .returned)
          (.push ((id, k) :: todo))) ?_ <| .next ?_ h
      all_goals simp [IPar.step, IPar.phase, ivfAt, Dict.mem, hk, set_set]

variable [LinearOrder D]

theorem lone_ivf_add {env' : IvfEnv V D} (he : SameIvf env env') (i0 : Nat) (rest : List (FRow V M)) :
    ∀ (j : Nat), (rows t).drop j = rest → ∀ (f : Ivf V) (st : Dict Id (V × Option M)),
      ILeads env rows t (ivfAt f st thr ph t (i0, .returned) (.choose j))
        (ivfAt (Ivf.addLoop env' (rest.map FRow.id) f).2 st thr ph t (i0, .returned)
          (match (Ivf.addLoop env' (rest.map FRow.id) f).1 with | .ok _ => .returned | .error _ => .raised)) := by
  induction rest with
  | nil =>
    intro j hj f st
    refine .next ?_ .rfl'
    simp [IPar.step, IPar.phase, ivfAt, Ivf.addLoop, List.getElem?_eq_none (List.drop_eq_nil_iff.1 hj)]
  | cons r rest ih =>
    intro j hj f st
    have hr : (rows t)[j]? = some r := by rw [← List.head?_drop, hj]; rfl
    have hn : (rows t).drop (j + 1) = rest := by rw [← List.tail_drop, hj]; rfl
    rw [List.map_cons, Ivf.addLoop]
    cases hc : f.cache.get? r.id with
    | none =>
      refine .next ?_ .rfl'
      simp [IPar.step, IPar.phase, ivfAt, hr, hc]
    | some v =>
      have hskip : (f.trained = true → f.cents = none) → Ivf.addToCluster env' r.id v f = .ok f ∧
          (ivfAt f st thr ph t (i0, .returned) (.choose j)).step env rows t =
            ivfAt f st thr ph t (i0, .returned) (.choose (j + 1)) := by
        intro h
        obtain ⟨ce, cl, ids, ca, co, tr, ini⟩ := f
        dsimp only at h hc
        cases tr with
        | false => exact ⟨rfl, by simp [IPar.step, IPar.phase, ivfAt, hr, hc]⟩
        | true =>
          obtain rfl := h rfl
          exact ⟨rfl, by simp [IPar.step, IPar.phase, ivfAt, hr, hc]⟩
      by_cases htr : f.trained = true
      · cases hce : f.cents with
        | none =>
          obtain ⟨h1, h2⟩ := hskip fun _ => hce
          simp only [h1]
          exact .next h2 (ih (j + 1) hn f st)
        | some c =>
          have h1 : Ivf.addToCluster env' r.id v f = .ok (withClusters f
              (f.clusters.set (env.near c v) ((f.clusters.get? (env.near c v)).getD [] ++ [r.id]))) := by
            simp [withClusters, Ivf.addToCluster, htr, hce, he.near]
          simp only [h1]
          have h := ih (j + 1) hn (withClusters f
              (f.clusters.set (env.near c v) ((f.clusters.get? (env.near c v)).getD [] ++ [r.id]))) st
          refine .next (b := ivfAt f st thr ph t (i0, .returned) (.addHas j (env.near c v))) ?_ ?_
          · simp [IPar.step, IPar.phase, ivfAt, hr, hc, htr, hce]
          cases hk : f.clusters.get? (env.near c v) with
          | some l =>
            rw [hk] at h
            refine .next (b := ivfAt f st thr ph t (i0, .returned) (.addPush j (env.near c v))) ?_ <| .next ?_ h
            all_goals simp [IPar.step, IPar.phase, ivfAt, withClusters, Dict.mem, hk, hr]
          | none =>
            rw [hk] at h
            refine .next (b := ivfAt f st thr ph t (i0, .returned) (.addNew j (env.near c v))) ?_ <|
              .next (b := ivfAt { f with clusters := f.clusters.set (env.near c v) [] } st thr ph t
                (i0, .returned) (.addPush j (env.near c v))) ?_ <| .next ?_ h
            all_goals simp [IPar.step, IPar.phase, ivfAt, withClusters, Dict.mem, hk, hr, set_set]
      · obtain ⟨h1, h2⟩ := hskip fun h => absurd h htr
        simp only [h1]
        exact .next h2 (ih (j + 1) hn f st)

/-- What an insertion gives, and the index and storage after it, by the sequential model of C01-C06. -/
def ivfInsert (env' : IvfEnv V D) (f : Ivf V) (st : Dict Id (V × Option M)) (rows : List (FRow V M)) :
    Res (Ivf V × Dict Id (V × Option M)) (List Id) :=
  Ivf.insert env' (plainStore V M) 2 (rows.map fun r => (r.id, r.v)) (some (rows.map FRow.m)) f st

theorem lone_ivf {env' : IvfEnv V D} (he : SameIvf env env') (f : Ivf V) (hf : f.inited = true)
    (st : Dict Id (V × Option M)) :
    ∃ i0, let r := ivfInsert env' f st (rows t)
      ILeads env rows t (ivfAt f st thr ph t (0, .store) .testLen)
        (ivfAt r.2.1 r.2.2 thr ph t (i0, .returned)
          (match r.1 with | .ok _ => .returned | .error _ => .raised)) ∧
      ∀ l, r.1 = .ok l → l = (rows t).map FRow.id := by
  obtain ⟨f1, st1, i0, h1, h2⟩ := lone_ivf_rows (env := env) (thr := thr) (ph := ph) (rows t) .testLen 0 rfl f st
  refine ⟨i0, ?_⟩
  intro r
  have hr : r = ivfInsert env' f st (rows t) := rfl
  simp only [ivfInsert, Ivf.insert, hf, h1, he.n] at hr
  obtain ⟨f2, hf2⟩ : ∃ f2 : Ivf V, f2 = { f1 with count := f1.ids.length } := ⟨_, rfl⟩
  simp only [← hf2] at hr
  have h3 : ILeads env rows t (ivfAt f st thr ph t (0, .store) .testLen)
      (ivfAt f2 st1 thr ph t (i0, .returned) .testLen) := by
    refine h2.trans (.next (b := ivfAt f1 st1 thr ph t (i0, .count f1.ids.length) .testLen) ?_ <| .next ?_ .rfl')
    all_goals simp [IPar.step, FPar.step, ivfAt, hf2]
  have hadd : f1.trained = true → ILeads env rows t (ivfAt f2 st1 thr ph t (i0, .returned) .testAdd)
      (ivfAt (Ivf.addLoop env' ((rows t).map FRow.id) f2).2 st1 thr ph t (i0, .returned)
        (match (Ivf.addLoop env' ((rows t).map FRow.id) f2).1 with | .ok _ => .returned | .error _ => .raised)) := by
    intro htr
    refine .next ?_ (lone_ivf_add he i0 (rows t) 0 rfl f2 st1)
    simp [IPar.step, IPar.phase, ivfAt, hf2, htr]
  have hadd' : (∀ l, r = (match Ivf.addLoop env' ((rows t).map FRow.id) f2 with
        | (.ok _, f3) => (.ok l, f3, st1)
        | (.error _, f3) => (.error .index, f3, st1)) → 
      r.2.1 = (Ivf.addLoop env' ((rows t).map FRow.id) f2).2 ∧ r.2.2 = st1 ∧
      (match r.1 with | .ok _ => (.returned : IPh V) | .error _ => .raised) =
      (match (Ivf.addLoop env' ((rows t).map FRow.id) f2).1 with | .ok _ => .returned | .error _ => .raised) ∧
      ∀ l', r.1 = .ok l' → l' = l) := by
    intro l h
    rcases hg : Ivf.addLoop env' ((rows t).map FRow.id) f2 with ⟨_ | _, f3⟩ <;> rw [hg] at h <;> rw [h] <;>
      simp
  by_cases hlen : env.n ≤ f1.ids.length
  · have hlen' : (env.n : Int) ≤ (f1.ids.length : Int) := by exact_mod_cast hlen
    by_cases htr : f1.trained = true
    · have hr' := hadd' ((rows t).map FRow.id) (by
        rw [hr]
        simp only [htr]
        rcases Ivf.addLoop env' ((rows t).map FRow.id) f2 with ⟨_ | _, f3⟩ <;> simp)
      obtain ⟨e1, e2, e3, e4⟩ := hr'
      rw [e1, e2, e3]
      refine ⟨h3.trans (.next (b := ivfAt f2 st1 thr ph t (i0, .returned) .testTrained) ?_ <|
        .next ?_ (hadd htr)), e4⟩
      all_goals simp [IPar.step, IPar.phase, ivfAt, hf2, hlen, htr]
    · have hload := lone_ivf_load (env := env) (rows := rows) (t := t) (thr := thr) (ph := ph) i0 f2.ids 0 f2 rfl st1 []
      obtain ⟨vs, c, j', e1, e2, e3⟩ := hload
      have hids : f2.ids = f1.ids := by rw [hf2]
      have h5 := h3.trans (.next (b := ivfAt f2 st1 thr ph t (i0, .returned) .testTrained)
        (by simp [IPar.step, IPar.phase, ivfAt, hf2, hlen]) <|
        .next (b := ivfAt f2 st1 thr ph t (i0, .returned) (.load 0 []))
        (by simp [IPar.step, IPar.phase, ivfAt, hf2, htr]) e3)
      rw [List.nil_append] at h5
      by_cases hv : vs.isEmpty
      · have hr' : r = (.ok ((rows t).map FRow.id), { f2 with cache := c }, st1) := by
          rw [hr]
          rw [if_neg (by simp), if_neg (by simp), if_pos ⟨hlen', by simpa using htr⟩, Ivf.train, he.n,
            if_neg (by rw [hids]; omega)]
          simp only [e1, hv, if_true]
        rw [hr']
        refine ⟨h5.trans (.next ?_ .rfl'), by simp⟩
        simp [IPar.step, IPar.phase, ivfAt, e2, hv]
      · generalize hkm : env.kmeans (vs.map Prod.snd) = km
        obtain ⟨cents, labels⟩ := km
        have hr' : r = (.ok ((rows t).map FRow.id), { f2 with
            cache := c, cents := some cents, trained := true,
            clusters := Ivf.buildClusters ((vs.map Prod.fst).zip labels) [] }, st1) := by
          rw [hr]
          rw [if_neg (by simp), if_neg (by simp), if_pos ⟨hlen', by simpa using htr⟩, Ivf.train, he.n,
            if_neg (by rw [hids]; omega)]
          simp only [e1, hv, he.kmeans, hkm]
          simp
        rw [hr']
        refine ⟨h5.trans (.next (b := ivfAt { f2 with cache := c } st1 thr ph t (i0, .returned)
          (.setCents cents ((vs.map Prod.fst).zip labels))) ?_ <| .next
          (b := ivfAt { f2 with cache := c, cents := some cents } st1 thr ph t (i0, .returned)
          (.clear ((vs.map Prod.fst).zip labels))) ?_ <| .next ?_ <|
          (lone_ivf_build (thr := thr) (ph := ph) i0 ((vs.map Prod.fst).zip labels)
            { f2 with cache := c, cents := some cents, clusters := [] } st1).trans <| .next ?_ .rfl'), by simp⟩
        all_goals simp [IPar.step, IPar.phase, ivfAt, e2, hv, hkm]
  · have hlen' : ¬ (env.n : Int) ≤ (f1.ids.length : Int) := by exact_mod_cast hlen
    have hstep : (ivfAt f2 st1 thr ph t (i0, .returned) .testLen).step env rows t =
        ivfAt f2 st1 thr ph t (i0, .returned) .testAdd := by
      simp [IPar.step, IPar.phase, ivfAt, hf2, hlen]
    by_cases htr : f1.trained = true
    · obtain ⟨e1, e2, e3, e4⟩ := hadd' ((rows t).map FRow.id) (by
        rw [hr]
        simp only [htr]
        rcases Ivf.addLoop env' ((rows t).map FRow.id) f2 with ⟨_ | _, f3⟩ <;> simp)
      rw [e1, e2, e3]
      exact ⟨h3.trans (.next hstep (hadd htr)), e4⟩
    · have hr' : r = (.ok ((rows t).map FRow.id), f2, st1) := by
        rw [hr]; simp [htr, hlen']
      rw [hr']
      refine ⟨h3.trans (.next hstep (.next ?_ .rfl')), by simp⟩
      simp [IPar.step, IPar.phase, ivfAt, hf2, htr]
end

/-- **C213**, IVF index.  Whatever the state of the index (and also when the call trains it), an insertion
nobody interrupts comes to its end, raises only if the insertion of a single caller would, and leaves the
index and the storage as a single caller would, who gets the ids of the rows; the other threads stay where
they are. -/
theorem C213_ivf [LinearOrder D] (env : IParEnv V) (env' : IvfEnv V D) (he : SameIvf env env')
    (rows : Nat → List (FRow V M)) (s : IPar V M) (t : Nat) (hs : s.base.thr t = (0, .store))
    (hp : s.ph t = .testLen) :
    ∃ n, let e := s.run env rows (List.replicate n t)
      let r := ivfInsert env' (ivfOf s) s.base.store (rows t)
      (e.base.thr t).2 = .returned ∧
      e.ph t = (match r.1 with | .ok _ => .returned | .error _ => .raised) ∧
      (∀ l, r.1 = .ok l → l = (rows t).map FRow.id) ∧
      e.cents = r.2.1.cents ∧ e.clusters = r.2.1.clusters ∧ e.trained = r.2.1.trained ∧
      e.base.ids = r.2.1.ids ∧ e.base.cache = r.2.1.cache ∧ e.base.count = r.2.1.count ∧
      e.base.store = r.2.2 ∧ ∀ t', t' ≠ t → e.ph t' = s.ph t' ∧ e.base.thr t' = s.base.thr t' := by
  obtain ⟨i0, ⟨n, hn⟩, h2⟩ := lone_ivf (rows := rows) (t := t) (thr := s.base.thr) (ph := s.ph) he (ivfOf s) rfl
    s.base.store
  have h0 : ivfAt (ivfOf s) s.base.store s.base.thr s.ph t (0, .store) .testLen = s := by
    obtain ⟨⟨st, ids, cache, count, thr⟩, cents, cl, tr, ph⟩ := s
    dsimp only at hs hp
    simp only [ivfAt, ivfOf, ← hs, ← hp, Function.update_eq_self]
  rw [h0] at hn
  refine ⟨n, ?_⟩
  dsimp only
  rw [hn]
  refine ⟨by simp [ivfAt], by simp [ivfAt], h2, rfl, rfl, rfl, rfl, rfl, rfl, rfl, fun t' h => ?_⟩
  simp [ivfAt, h]

/-- Two centres on the line, with the distance as numbers. -/
def loneIvf : IvfEnv Nat Nat where
  nClusters := 2
  nProbes := 1
  dist a b := .ok (if a ≤ b then b - a else a - b)
  kmeans vs :=
    let lo := vs.foldl min 1000
    let hi := vs.foldl max 0
    .ok ([lo, hi], vs.map fun v => if v - lo ≤ hi - v then 0 else 1)

/-- The same for threads. -/
def loneIvfPar : IParEnv Nat where
  n := 2
  kmeans := ivfEnds.kmeans
  near c v := match Ivf.closest (loneIvf.dist v) 0 c none with | .ok k => k | .error _ => 0

theorem loneIvf_same : SameIvf loneIvfPar loneIvf := by
  have hc : ∀ (c : List Nat) (v i : Nat) (b : Option (Nat × Nat)),
      ∃ k, Ivf.closest (loneIvf.dist v) i c b = .ok k := by
    intro c v
    induction c with
    | nil => intro i b; exact ⟨_, rfl⟩
    | cons x c ih =>
      intro i b
      simp only [Ivf.closest, loneIvf]
      cases b with
      | none => exact ih _ _
      | some b => exact ih _ _
  refine ⟨rfl, fun vs => rfl, fun c v => ?_⟩
  obtain ⟨k, hk⟩ := hc c v 0 none
  simp only [loneIvfPar, hk]

/-- The hypotheses hold: a call that trains, and one that enters its row into a cluster without a list. -/
example : oneIvf.base.thr 0 = (0, .store) ∧ oneIvf.ph 0 = .testLen ∧
    (ivfInsert loneIvf (ivfOf oneIvf) oneIvf.base.store (twoMore 0)).2.1.clusters = [(0, ["a"]), (1, ["b"])] ∧
    (oneIvf.run loneIvfPar twoMore (List.replicate 21 0)).ph 0 = .returned ∧
    (ivfInsert loneIvf (ivfOf (trainedIvf [(0, ["a"])])) oneIvf.base.store (twoMore 1)).2.1.clusters =
      [(0, ["a"]), (1, ["c"])] := by
  decide

end Valori.Props
