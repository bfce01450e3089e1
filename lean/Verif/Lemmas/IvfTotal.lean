import Verif.Lemmas.IvfSearch

/-!
# When the methods of `IVFIndex` do not raise
-/

namespace Valori
open Spec
namespace Ivf
variable {σ V M D : Type} [LinearOrder D] {B : Backend σ V M} {okId : Id → Prop} {okM : M → Prop}
  {L : Lawful B okId okM} {live : List (Item V M)}

/-- Distances and k-means never fail. -/
structure Total (env : IvfEnv V D) : Prop where
  dist : ∀ a b, ∃ d, env.dist a b = .ok d
  kmeans : ∀ vs, vs ≠ [] → ∃ r, env.kmeans vs = .ok r

omit [LinearOrder D] in
theorem numberedDists_total {dist : V → Except Err D} (h : ∀ v, ∃ d, dist v = .ok d) (cs : List V) :
    ∀ i, ∃ ds, numberedDists dist i cs = .ok ds := by
  induction cs with
  | nil => intro i; exact ⟨[], rfl⟩
  | cons c cs ih =>
    intro i
    obtain ⟨d, hd⟩ := h c
    obtain ⟨ds, hds⟩ := ih (i + 1)
    exact ⟨(i, d) :: ds, by simp only [numberedDists, hd, hds]⟩

theorem closest_total {dist : V → Except Err D} (h : ∀ v, ∃ d, dist v = .ok d) (cs : List V) :
    ∀ i best, ∃ n, closest dist i cs best = .ok n := by
  induction cs with
  | nil => intro i best; exact ⟨_, rfl⟩
  | cons c cs ih =>
    intro i best
    obtain ⟨d, hd⟩ := h c
    cases best with
    | none => simp only [closest, hd]; exact ih _ _
    | some b => simp only [closest, hd]; exact ih _ _

theorem addToCluster_total {env : IvfEnv V D} (h : ∀ a b, ∃ d, env.dist a b = .ok d) (id : Id) (v : V)
    (f : Ivf V) : ∃ f', addToCluster env id v f = .ok f' ∧ f'.cache = f.cache := by
  unfold addToCluster
  split
  · rename_i cents _ _
    obtain ⟨n, hn⟩ := closest_total (h v) cents 0 none
    rw [hn]
    exact ⟨_, rfl, rfl⟩
  · exact ⟨f, rfl, rfl⟩

theorem addLoop_total {env : IvfEnv V D} (h : ∀ a b, ∃ d, env.dist a b = .ok d) (l : List Id) :
    ∀ f : Ivf V, (∀ id ∈ l, (f.cache.get? id).isSome = true) →
    ∃ f', addLoop env l f = (.ok (), f') := by
  induction l with
  | nil => intro f _; exact ⟨f, rfl⟩
  | cons id l ih =>
    intro f hf
    obtain ⟨v, hv⟩ := Option.isSome_iff_exists.1 (hf id (by simp))
    obtain ⟨f1, e, hc⟩ := addToCluster_total h id v f
    obtain ⟨f2, e2⟩ := ih f1 (fun x hx => by rw [hc]; exact hf x (by simp [hx]))
    exact ⟨f2, by simp only [addLoop, hv, e, e2]⟩

omit [LinearOrder D] in
theorem insertLoop_cache (mds : Option (List (Option M))) (rows : List (Id × V)) :
    ∀ (i : Nat) (f f' : Ivf V) (s s' : σ) (l : List Id),
    insertLoop B mds i rows f s = (.ok l, f', s') →
    (∀ id, (f.cache.get? id).isSome = true → (f'.cache.get? id).isSome = true) ∧
    ∀ id ∈ l, (f'.cache.get? id).isSome = true := by
  induction rows with
  | nil =>
    intro i f f' s s' l e
    simp only [insertLoop, Prod.mk.injEq, Except.ok.injEq] at e
    obtain ⟨rfl, rfl, rfl⟩ := e
    simp
  | cons r rows ih =>
    obtain ⟨id, v⟩ := r
    intro i f f' s s' l e
    simp only [insertLoop] at e
    rcases hs : B.store s id v (rowMeta mds i) with ⟨_ | _, s1⟩
    · rw [hs] at e; simp at e
    · rw [hs] at e
      simp only at e
      rcases hl : insertLoop B mds (i + 1) rows
        { f with ids := f.ids ++ [id], cache := f.cache.set id v } s1 with ⟨_ | l', f1, s2⟩
      · rw [hl] at e; simp at e
      · rw [hl] at e
        simp only [Prod.mk.injEq, Except.ok.injEq] at e
        obtain ⟨rfl, rfl, rfl⟩ := e
        obtain ⟨a1, a2⟩ := ih _ _ _ _ _ _ hl
        have hset : ∀ x, ((f.cache.set id v).get? x).isSome = true ↔
            x = id ∨ (f.cache.get? x).isSome = true := by
          intro x
          rw [Dict.get?_set]
          split
          · rename_i e; simp [e]
          · rename_i e
            constructor
            · exact .inr
            · rintro (rfl | h)
              · exact absurd rfl e
              · exact h
        refine ⟨fun x hx => a1 x ((hset x).2 (.inr hx)), ?_⟩
        intro x hx
        rcases List.mem_cons.1 hx with rfl | hx
        · exact a1 x ((hset x).2 (.inl rfl))
        · exact a2 x hx

theorem Inv.train_total {env : IvfEnv V D}
    (hK : ∀ vs, vs ≠ [] → ∃ r, env.kmeans vs = .ok r) {f : Ivf V} {s : σ}
    (h : Inv L live (f, s)) : ∃ t, Ivf.train env B f s = (.ok (), t) := by
  simp only [Ivf.train]
  split
  · exact ⟨_, rfl⟩
  · obtain ⟨c', s1, e1, hc, i1, c1⟩ := loadVecs_spec L h.core.nd live (fun x hx => hx)
      h.core.cache h.core.st h.core.cont
    have hids : f.ids = Live.idsOf live := h.core.ids
    simp only [toFlat] at e1
    rw [← hids] at e1
    rw [e1]
    simp only
    split
    · exact ⟨_, rfl⟩
    · rename_i hne
      obtain ⟨r, hr⟩ := hK ((live.map fun x => (x.id, x.vec)).map Prod.snd) (by
        intro hnil
        apply hne
        rw [List.map_eq_nil_iff] at hnil
        rw [hnil]; rfl)
      rw [hr]
      exact ⟨_, rfl⟩

theorem insert_error {env : IvfEnv V D} {nd : Nat} {rows : List (Id × V)}
    {mds : Option (List (Option M))} {f : Ivf V} {s : σ} {e : Err} {t : Ivf V × σ}
    (h : Ivf.insert env B nd rows mds f s = (.error e, t)) : e = .index := by
  unfold Ivf.insert at h
  revert h
  repeat' (first | split)
  all_goals intro h
  all_goals first
    | (simp only [Prod.mk.injEq, Except.error.injEq] at h; exact h.1.symm)
    | (simp at h; done)
    | (revert h; dsimp only; repeat' split)
  all_goals first
    | (intro h; simp only [Prod.mk.injEq, Except.error.injEq] at h; exact h.1.symm)
    | (intro h; simp at h; done)

theorem update_error {env : IvfEnv V D} {id : Id} {v : V} {m : Option M} {f : Ivf V} {s : σ} {e : Err}
    {t : Ivf V × σ} (h : Ivf.update env B id v m f s = (.error e, t)) : e = .index := by
  unfold Ivf.update at h
  revert h
  repeat' (first | split)
  all_goals intro h
  all_goals first
    | (simp only [Prod.mk.injEq, Except.error.injEq] at h; exact h.1.symm)
    | (simp at h; done)
    | (revert h; dsimp only; repeat' split)
  all_goals first
    | (intro h; simp only [Prod.mk.injEq, Except.error.injEq] at h; exact h.1.symm)
    | (intro h; simp at h; done)

theorem search_error {env : IvfEnv V D} {nd : Nat} {q : V} {k : Int} {f : Ivf V} {s : σ} {e : Err}
    {t : Ivf V × σ} (h : Ivf.search env B nd q k f s = (.error e, t)) : e = .index := by
  unfold Ivf.search Ivf.scanTop at h
  revert h
  repeat' (first | split)
  all_goals intro h
  all_goals first
    | (simp only [Prod.mk.injEq, Except.error.injEq] at h; exact h.1.symm)
    | (simp at h; done)

theorem Inv.insert_total {env : IvfEnv V D} (hT : Total env) {f : Ivf V} {s : σ}
    (h : Inv L live (f, s)) {rows : List (Id × V)} {mds : Option (List (Option M))}
    (hc : Live.CallOk okId okM live (.insert 2 rows mds)) :
    ∃ l t, Ivf.insert env B 2 rows mds f s = (.ok l, t) := by
  obtain ⟨h1, h2, h3⟩ := hc
  have hi : f.inited = true := h.core.inited
  obtain ⟨g, s1, e, c⟩ := Flat.insertLoop_spec mds h3 rows 0 live (toFlat f) s h.core h1 h2
  have hsim : Ivf.insertLoop B mds 0 rows f s =
      (.ok (rows.map Prod.fst), { f with ids := g.ids, cache := g.cache }, s1) := by
    rw [insertLoop_sim, e]
  have hcache := (insertLoop_cache mds rows _ _ _ _ _ _ hsim).2
  set live' := live ++ Live.items mds 0 rows with hlive'
  have hinv2 : Inv L live'
      ({ f with ids := g.ids, cache := g.cache, count := g.ids.length }, s1) := by
    refine ⟨⟨hi, c.ids, c.nd, c.cache, c.st, c.cont⟩, ⟨h.cl.keys, h.cl.nd, ?_, h.cl.tr⟩, ?_⟩
    · intro x hx; simp only [hlive', Live.idsOf, List.map_append, List.mem_append]
      exact .inl (h.cl.sub x hx)
    · show g.ids.length = live'.length
      rw [show g.ids = Live.idsOf live' from c.ids]; simp [Live.idsOf]
  rw [insert_eq hi, hsim]
  simp only
  split
  · obtain ⟨t, ht⟩ := hinv2.train_total hT.kmeans
    rw [ht]
    exact ⟨_, _, rfl⟩
  · split
    · obtain ⟨f3, hf3⟩ := addLoop_total hT.dist (rows.map Prod.fst)
        { f with ids := g.ids, cache := g.cache, count := g.ids.length } hcache
      rw [hf3]
      exact ⟨_, _, rfl⟩
    · exact ⟨_, _, rfl⟩

theorem Inv.update_total {env : IvfEnv V D} (hT : Total env) {f : Ivf V} {s : σ}
    (h : Inv L live (f, s)) {id : Id} (v : V) {m : Option M} (hid : okId id)
    (hm : ∀ x, m = some x → okM x) : ∃ b t, Ivf.update env B id v m f s = (.ok b, t) := by
  have hi : f.inited = true := h.core.inited
  obtain ⟨s', e, -, -⟩ := L.update (v := v) (m := m) h.core.st hid hm
  simp only at e
  cases hb : (L.content s id).isSome with
  | false =>
    rw [hb] at e
    exact ⟨false, (f, s'), by simp [Ivf.update, hi, e]⟩
  | true =>
    rw [hb] at e
    rw [update_eq hi e]
    obtain ⟨f3, hr⟩ : ∃ f3, reassign env id v { f with cache := f.cache.set id v } = (.ok (), f3) := by
      unfold reassign
      split
      · obtain ⟨f3, h3, -⟩ := addToCluster_total hT.dist id v
          { f with cache := f.cache.set id v, clusters := dropFirst id f.clusters }
        exact ⟨f3, by dsimp only; rw [h3]⟩
      · exact ⟨_, rfl⟩
    rw [hr]
    split <;> exact ⟨_, _, rfl⟩

theorem Inv.search_total {env : IvfEnv V D} (hT : Total env) {f : Ivf V} {s : σ}
    (h : Inv L live (f, s)) (q : V) (k : Int) :
    ∃ l t, Ivf.search env B 1 q k f s = (.ok l, t) := by
  have hi : f.inited = true := h.core.inited
  have hids : f.ids = Live.idsOf live := h.core.ids
  unfold Ivf.search
  rw [if_neg (by simp [hi]), if_neg (by simp)]
  split
  · exact ⟨_, _, rfl⟩
  · split
    · obtain ⟨r, c, s', e, -, hit, -⟩ :=
        h.scanTop (env := env) q k live h.core.nd (fun x hx => hx)
      obtain ⟨hits, rfl⟩ := hit.2 fun x _ => hT.dist q x.vec
      rw [hids, e]
      exact ⟨_, _, rfl⟩
    · rename_i ht
      have ht : f.trained = true := by simpa using ht
      obtain ⟨cs, hcs, -, -⟩ := h.cl.tr ht
      simp only at hcs
      rw [hcs]
      simp only
      obtain ⟨ds, hds⟩ := numberedDists_total (hT.dist q) cs 0
      obtain ⟨ps, hps⟩ : ∃ ps, probes env q cs = .ok ps :=
        ⟨_, by simp only [probes, hds]; rfl⟩
      rw [hps]
      simp only
      have hsubset : ∀ i ∈ ps.flatMap (clu f.clusters), i ∈ Live.idsOf live := by
        intro i hi'
        obtain ⟨c, _, hc⟩ := List.mem_flatMap.1 hi'
        exact h.cl.sub i ((mem_members h.cl.keys).2 ⟨c, hc⟩)
      obtain ⟨l, hl1, hl2⟩ := items_of_ids (live := live) _ hsubset
      have hpnd : ps.Nodup := by
        simp only [probes, hds, Except.ok.injEq] at hps
        obtain ⟨h1, -⟩ := numberedDists_spec cs 0 ds hds
        rw [← hps]
        refine List.Nodup.sublist ((sliceTo_sublist _ _).map _) ?_
        rw [((pySortBy_perm Prod.snd ds).map Prod.fst).nodup_iff, h1]
        exact List.nodup_range' (step := 1)
      have hlnd : (Live.idsOf l).Nodup := by
        rw [hl1]; exact cand_spec h.cl.nd hpnd
      obtain ⟨r, c, s', e, -, hit, -⟩ := h.scanTop (env := env) q k l hlnd hl2
      obtain ⟨hits, rfl⟩ := hit.2 fun x _ => hT.dist q x.vec
      rw [hl1] at e
      refine ⟨hits, _, e⟩

/-- Initialising a new index on an open storage. -/
theorem opens {env : IvfEnv V D} (hk : KMeansOk env)
    (hK : ∀ vs, vs ≠ [] → ∃ r, env.kmeans vs = .ok r) {s : σ} (hs : L.inv s) :
    ∃ t live, Ivf.init env B Ivf.new s = (.ok (), t) ∧ Inv L live t ∧
      ∀ id, Live.find live id = L.content s id := by
  obtain ⟨g, s', live, e, hinv, hf⟩ := Flat.init_inv (L := L) (f := Flat.new) hs
    (fun id v v' m _ h => by simp [Flat.new] at h)
  obtain ⟨h1, -⟩ := init_inv (env := env) (live := live) hk (s := s) (by rw [e]; exact hinv)
  obtain ⟨t, ht⟩ : ∃ t, Ivf.init env B Ivf.new s = (.ok (), t) := by
    simp only [Flat.init] at e
    simp only [Ivf.init]
    rcases hl : B.list s none with ⟨_ | l, s1⟩
    · rw [hl] at e; simp at e
    · rw [hl] at e
      simp only [Prod.mk.injEq, true_and] at e
      obtain ⟨rfl, rfl⟩ := e
      simp only
      split
      · refine Inv.train_total (L := L) (live := live) hK ?_
        refine ⟨⟨rfl, hinv.ids, hinv.nd, hinv.cache, hinv.st, hinv.cont⟩, ⟨?_, ?_, ?_, ?_⟩,
          hinv.cnt⟩ <;> simp [Ivf.new, members]
      · exact ⟨_, rfl⟩
  rw [ht] at h1
  exact ⟨t, live, ht, h1, hf⟩

end Ivf
end Valori
