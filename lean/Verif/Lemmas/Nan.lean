import Verif.Model.Nan
import Verif.Lemmas.IvfSearch
import Verif.Lemmas.Hnsw

/-!
# Searches when a distance is NaN: what is returned
-/

namespace Valori
open Spec

variable {σ V M D : Type} [LinearOrder D] {B : Backend σ V M} {okId : Id → Prop} {okM : M → Prop}
  {L : Lawful B okId okM} {live : List (Item V M)}

theorem NanSort.mem (srt : NanSort D) {α : Type} {l : List (α × WithTop D)} {x : α × WithTop D} :
    x ∈ srt.sort l ↔ x ∈ l := (srt.perm l).mem_iff

omit [LinearOrder D] in
theorem scanRes_mem {dist : V → Except Err D} {l : List (Item V M)} {ds : List (Id × D)}
    (h : scanRes dist l = .ok ds) : ∀ y ∈ ds, ∃ x ∈ l, x.id = y.1 ∧ dist x.vec = .ok y.2 := by
  intro y hy
  obtain ⟨h1, h2⟩ := scanRes_ok h
  have hE : Extends dist (fun v => match dist v with | .ok d => d | .error _ => y.2) := by
    intro v d hv; simp [hv]
  rw [h2 _ hE] at hy
  obtain ⟨x, hx, he⟩ := List.mem_map.1 hy
  obtain ⟨d, hd⟩ := h1 x hx
  simp only [hd] at he
  exact ⟨x, hx, by rw [← he], by rw [hd, ← he]⟩

omit [LinearOrder D] in
theorem scanRes_ids {dist : V → Except Err D} {l : List (Item V M)} {ds : List (Id × D)}
    (h : scanRes dist l = .ok ds) : ds.map Prod.fst = Live.idsOf l := by
  induction l generalizing ds with
  | nil => simp only [scanRes, Except.ok.injEq] at h; subst h; rfl
  | cons x l ih =>
    simp only [scanRes] at h
    cases hd : dist x.vec with
    | error e => rw [hd] at h; simp at h
    | ok d =>
      rw [hd] at h
      simp only at h
      cases hr : scanRes dist l with
      | error e => rw [hr] at h; simp at h
      | ok r =>
        rw [hr] at h
        simp only [Except.ok.injEq] at h
        subst h
        simp [ih hr]

namespace Ivf

theorem Inv.scanTopNan (srt : NanSort D) {env : IvfEnv V (WithTop D)} {f : Ivf V} {s : σ}
    (h : Inv L live (f, s)) (q : V) (k : Int) (l : List (Item V M)) (hsub : ∀ x ∈ l, x ∈ live) :
    ∃ r c s', Ivf.scanTopNan srt env B q k (Live.idsOf l) f s = (r, { f with cache := c }, s') ∧
      Inv L live ({ f with cache := c }, s') ∧
      ((∃ hits, r = .ok hits) ↔ ∀ x ∈ l, ∃ d, env.dist q x.vec = .ok d) ∧
      (∀ hits, r = .ok hits → ∃ ds, scanRes (env.dist q) l = .ok ds ∧
        hits = attachMd (Live.find live) (sliceTo (srt.sort ds) k)) ∧
      ((∀ x ∈ l, env.dist q x.vec ≠ .ok ⊤) →
        Ivf.scanTopNan srt env B q k (Live.idsOf l) f s = Ivf.scanTop env B q k (Live.idsOf l) f s) := by
  obtain ⟨c, s1, e1, hc, i1, c1⟩ := scanVecs_spec L h.core.nd (env.dist q) l hsub h.core.cache
    h.core.st h.core.cont
  simp only [toFlat] at e1 c1
  simp only [Ivf.scanTopNan, Ivf.scanTop, e1]
  cases hr : scanRes (env.dist q) l with
  | error e =>
    refine ⟨.error .index, c, s1, rfl, h.withCache hc i1 c1, ?_, by simp, by simp⟩
    constructor
    · rintro ⟨_, h⟩; cases h
    · intro hall
      obtain ⟨ds, hds⟩ := scanRes_total hall
      rw [hds] at hr; cases hr
  | ok ds =>
    have hmem : ∀ x ∈ sliceTo (srt.sort ds) k, (L.content s1 x.1).isSome = true := by
      intro x hx
      obtain ⟨y, hy, e, -⟩ := scanRes_mem hr x (srt.mem.1 ((sliceTo_sublist _ _).subset hx))
      rw [c1, show L.content s = Live.find live from h.core.cont, ← e]
      show (Live.find live y.id).isSome = true
      rw [Live.find_mem h.core.nd (hsub y hy)]; rfl
    obtain ⟨s2, e2, i2, c2⟩ := fetchMeta_spec L _ i1 hmem
    refine ⟨.ok (attachMd (L.content s1) (sliceTo (srt.sort ds) k)), c, s2, ?_,
      h.withCache hc i2 (by rw [c2, c1]), ?_, ?_, ?_⟩
    · simp only [e2]
    · exact ⟨fun _ => (scanRes_ok hr).1, fun _ => ⟨_, rfl⟩⟩
    · intro hits hh
      cases hh
      exact ⟨ds, rfl, by rw [c1, show L.content s = Live.find live from h.core.cont]⟩
    · intro hnum
      have hsrt : srt.sort ds = pySortBy Prod.snd ds := srt.numbers ds (by
        intro x hx ht
        obtain ⟨y, hy, -, hd⟩ := scanRes_mem hr x hx
        exact hnum y hy (by rw [hd, ht]))
      simp only [hsrt]
      rcases fetchMeta B (sliceTo (pySortBy Prod.snd ds) k) s1 with ⟨_ | _, _⟩ <;> rfl

theorem probesNan_nodup {srt : NanSort D} {env : IvfEnv V (WithTop D)} {q : V} {cs : List V}
    {ps : List Nat} (hp : probesNan srt env q cs = .ok ps) : ps.Nodup := by
  simp only [probesNan] at hp
  cases hd : numberedDists (env.dist q) 0 cs with
  | error e => rw [hd] at hp; simp at hp
  | ok ds =>
    rw [hd] at hp
    simp only [Except.ok.injEq] at hp
    obtain ⟨h1, -⟩ := numberedDists_spec cs 0 ds hd
    rw [← hp]
    refine List.Nodup.sublist ((sliceTo_sublist _ _).map _) ?_
    rw [((srt.perm ds).map Prod.fst).nodup_iff, h1]
    exact List.nodup_range' (step := 1)

theorem probesNan_numbers {srt : NanSort D} {env : IvfEnv V (WithTop D)} {q : V} {cs : List V}
    (h : ∀ c ∈ cs, env.dist q c ≠ .ok ⊤) : probesNan srt env q cs = probes env q cs := by
  simp only [probesNan, probes]
  cases hd : numberedDists (env.dist q) 0 cs with
  | error e => rfl
  | ok ds =>
    simp only
    rw [srt.numbers ds]
    intro x hx ht
    obtain ⟨j, d⟩ := x
    obtain ⟨-, v, hv, hd'⟩ := ((numberedDists_spec cs 0 ds hd).2 j d).1 hx
    simp only at ht
    subst ht
    exact h v (List.mem_of_getElem? hv) hd'

theorem Inv.searchNan (srt : NanSort D) {env : IvfEnv V (WithTop D)} {f : Ivf V} {s : σ}
    (h : Inv L live (f, s)) (q : V) (k : Int) :
    ∃ r c s', Ivf.searchNan srt env B 1 q k f s = (r, { f with cache := c }, s') ∧
      Inv L live ({ f with cache := c }, s') ∧
      (∀ hits, r = .ok hits →
        ∃ (l : List (Item V M)) (ds : List (Id × WithTop D)), (Live.idsOf l).Nodup ∧
        (∀ x ∈ l, x ∈ live) ∧ scanRes (env.dist q) l = .ok ds ∧
        hits = attachMd (Live.find live) (sliceTo (srt.sort ds) k) ∧
        (f.trained = false → l = live)) ∧
      (f.trained = false → (∀ x ∈ live, ∃ d, env.dist q x.vec = .ok d) → ∃ hits, r = .ok hits) ∧
      ((∀ x ∈ live, env.dist q x.vec ≠ .ok ⊤) →
        (∀ cs, f.cents = some cs → ∀ c ∈ cs, env.dist q c ≠ .ok ⊤) →
        Ivf.searchNan srt env B 1 q k f s = Ivf.search env B 1 q k f s) := by
  have hi : f.inited = true := h.core.inited
  have hids : f.ids = Live.idsOf live := h.core.ids
  have hs0 : Ivf.searchNan srt env B 1 q k f s =
      if f.ids.isEmpty then (.ok [], f, s)
      else if !f.trained then Ivf.scanTopNan srt env B q k f.ids f s
      else
        match f.cents with
        | none => (.error .index, f, s)
        | some cents =>
          match probesNan srt env q cents with
          | .error _ => (.error .index, f, s)
          | .ok ps => Ivf.scanTopNan srt env B q k (ps.flatMap (clu f.clusters)) f s := by
    unfold Ivf.searchNan
    rw [if_neg (by simp [hi]), if_neg (by simp)]
    rfl
  have hs1 : Ivf.search env B 1 q k f s =
      if f.ids.isEmpty then (.ok [], f, s)
      else if !f.trained then Ivf.scanTop env B q k f.ids f s
      else
        match f.cents with
        | none => (.error .index, f, s)
        | some cents =>
          match probes env q cents with
          | .error _ => (.error .index, f, s)
          | .ok ps => Ivf.scanTop env B q k (ps.flatMap (clu f.clusters)) f s := by
    unfold Ivf.search
    rw [if_neg (by simp [hi]), if_neg (by simp)]
    rfl
  by_cases hl : live = []
  · subst hl
    have he : f.ids.isEmpty = true := by rw [hids]; rfl
    refine ⟨.ok [], f.cache, s, by rw [hs0, if_pos he], h, ?_, fun _ _ => ⟨_, rfl⟩, ?_⟩
    · intro hits hh
      cases hh
      refine ⟨[], [], by simp, by simp, rfl, ?_, by simp⟩
      have : srt.sort ([] : List (Id × WithTop D)) = [] := List.Perm.eq_nil (srt.perm _)
      rw [this]
      have h2 : sliceTo ([] : List (Id × WithTop D)) k = [] := List.sublist_nil.1 (sliceTo_sublist _ _)
      rw [h2]; rfl
    · intro _ _
      rw [hs0, hs1, if_pos he, if_pos he]
  · have hne : f.ids.isEmpty = false := by
      rw [hids]; cases live with
      | nil => exact absurd rfl hl
      | cons => rfl
    rw [if_neg (by simp [hne])] at hs0 hs1
    by_cases ht : f.trained = true
    · rw [if_neg (by simp [ht])] at hs0 hs1
      obtain ⟨cs, hcs, hcne, hlt⟩ := h.cl.tr ht
      simp only at hcs
      simp only [hcs] at hs0 hs1
      cases hp : probesNan srt env q cs with
      | error e =>
        rw [hp] at hs0
        refine ⟨_, f.cache, s, hs0, h, by simp, by simp [ht], ?_⟩
        intro _ h2
        rw [probesNan_numbers (h2 cs hcs)] at hp
        rw [hs0, hs1, hp]
      | ok ps =>
        rw [hp] at hs0
        simp only at hs0
        have hsubset : ∀ i ∈ ps.flatMap (clu f.clusters), i ∈ Live.idsOf live := by
          intro i hi'
          obtain ⟨c, _, hc⟩ := List.mem_flatMap.1 hi'
          exact h.cl.sub i ((mem_members h.cl.keys).2 ⟨c, hc⟩)
        obtain ⟨l, hl1, hl2⟩ := items_of_ids (live := live) _ hsubset
        have hlnd : (Live.idsOf l).Nodup := by
          rw [hl1]; exact cand_spec h.cl.nd (probesNan_nodup hp)
        obtain ⟨r, c, s', e, hinv, hit, hr, hag⟩ := h.scanTopNan srt (env := env) q k l hl2
        rw [← hl1] at hs0
        refine ⟨r, c, s', hs0.trans e, hinv, ?_, by simp [ht], ?_⟩
        · intro hits hh
          obtain ⟨ds, hd, he⟩ := hr hits hh
          exact ⟨l, ds, hlnd, hl2, hd, he, by simp [ht]⟩
        · intro h1 h2
          rw [probesNan_numbers (h2 cs hcs)] at hp
          rw [hs0, hs1, hp]
          simp only
          rw [← hl1]
          exact hag (fun x hx => h1 x (hl2 x hx))
    · rw [if_pos (by simp [ht])] at hs0 hs1
      obtain ⟨r, c, s', e, hinv, hit, hr, hag⟩ :=
        h.scanTopNan srt (env := env) q k live (fun x hx => hx)
      rw [hids] at hs0 hs1
      refine ⟨r, c, s', hs0.trans e, hinv, ?_, fun _ hd => hit.2 hd, ?_⟩
      · intro hits hh
        obtain ⟨ds, hd, he⟩ := hr hits hh
        exact ⟨live, ds, h.core.nd, fun x hx => hx, hd, he, fun _ => rfl⟩
      · intro h1 _
        rw [hs0, hs1]
        exact hag h1

/-- Training fails when k-means does; nothing but the cache changes. -/
theorem Inv.train_fails {env : IvfEnv V D} {f : Ivf V} {s : σ} (h : Inv L live (f, s))
    (hn : env.nClusters ≤ (live.length : Int)) (hne : live ≠ []) {e : Err}
    (hK : env.kmeans (live.map Item.vec) = .error e) :
    ∃ c s', Ivf.train env B f s = (.error .index, { f with cache := c }, s') := by
  obtain ⟨c', s1, e1, hc, i1, c1⟩ := loadVecs_spec L h.core.nd live (fun x hx => hx)
    h.core.cache h.core.st h.core.cont
  have hids : f.ids = Live.idsOf live := h.core.ids
  simp only [toFlat] at e1
  rw [← hids] at e1
  have hlen : (f.ids.length : Int) = live.length := by rw [hids]; simp [Live.idsOf]
  refine ⟨c', s1, ?_⟩
  simp only [Ivf.train]
  rw [if_neg (by omega), e1]
  simp only
  rw [if_neg (by cases live with
    | nil => exact absurd rfl hne
    | cons => simp)]
  have : (live.map fun x => (x.id, x.vec)).map Prod.snd = live.map Item.vec := by
    simp [List.map_map, Function.comp_def]
  rw [this, hK]

/-- An insert that reaches `n_clusters` rows raises when k-means does; the rows stay. -/
theorem Inv.insert_fails {env : IvfEnv V D} {f : Ivf V} {s : σ}
    (h : Inv L live (f, s)) (ht : f.trained = false) {rows : List (Id × V)}
    {mds : Option (List (Option M))} (hc : Live.CallOk okId okM live (.insert 2 rows mds))
    (hn : env.nClusters ≤ ((live ++ Live.items mds 0 rows).length : Int))
    (hne : live ++ Live.items mds 0 rows ≠ []) {e : Err}
    (hK : env.kmeans ((live ++ Live.items mds 0 rows).map Item.vec) = .error e) :
    (Ivf.insert env B 2 rows mds f s).1 = .error .index ∧
      (Ivf.insert env B 2 rows mds f s).2.1.trained = false := by
  obtain ⟨h1, h2, h3⟩ := hc
  have hi : f.inited = true := h.core.inited
  obtain ⟨g, s1, e, c⟩ := Flat.insertLoop_spec mds h3 rows 0 live (toFlat f) s h.core h1 h2
  have hsim : Ivf.insertLoop B mds 0 rows f s =
      (.ok (rows.map Prod.fst), { f with ids := g.ids, cache := g.cache }, s1) := by
    rw [insertLoop_sim, e]
  have hgids : g.ids = Live.idsOf (live ++ Live.items mds 0 rows) := c.ids
  have hinv2 : Inv L (live ++ Live.items mds 0 rows)
      (({ f with ids := g.ids, cache := g.cache, count := g.ids.length } : Ivf V), s1) := by
    refine ⟨⟨hi, c.ids, c.nd, c.cache, c.st, c.cont⟩, ⟨h.cl.keys, h.cl.nd, ?_, h.cl.tr⟩, ?_⟩
    · intro x hx; simp only [Live.idsOf, List.map_append, List.mem_append]
      exact .inl (h.cl.sub x hx)
    · show g.ids.length = _
      rw [hgids]; simp [Live.idsOf]
  obtain ⟨c', s', e'⟩ := hinv2.train_fails hn hne hK
  have hlen : (g.ids.length : Int) = ((live ++ Live.items mds 0 rows).length : Int) := by
    rw [hgids]; simp [Live.idsOf]
  rw [insert_eq hi, hsim]
  simp only [ht]
  rw [if_pos ⟨by rw [hlen]; exact hn, trivial⟩]
  rw [ht] at e'
  rw [e']
  exact ⟨rfl, rfl⟩

end Ivf

namespace Hnsw

theorem descendNan_spec (srt : NanSort D) {env : HnswEnv V (WithTop D)} {q : V} {f : Hnsw V}
    (hv : f.vectors = vecs live) :
    ∀ (l : Nat) {cs c : List (Id × WithTop D)}, descendNan srt env q f l cs = .ok c →
    (∀ x ∈ cs, CandOk (env.dist q) live x) → ∀ x ∈ c, CandOk (env.dist q) live x := by
  intro l
  induction l with
  | zero => intro cs c h hc; simp only [descendNan, Except.ok.injEq] at h; subst h; exact hc
  | succ l ih =>
    intro cs c h hc
    simp only [descendNan] at h
    split at h
    · simp at h
    · rename_i new he
      refine ih h ?_
      intro x hx
      rw [hv] at he
      exact (expand_spec he).1 x (srt.mem.1 ((sliceTo_sublist _ _).subset hx))

theorem descendNan_total (srt : NanSort D) {env : HnswEnv V (WithTop D)} {q : V} {f : Hnsw V}
    (hv : f.vectors = vecs live) (hd : ∀ x ∈ live, ∃ d, env.dist q x.vec = .ok d) :
    ∀ (l : Nat) (cs : List (Id × WithTop D)), ∃ c, descendNan srt env q f l cs = .ok c := by
  intro l
  induction l with
  | zero => intro cs; exact ⟨cs, rfl⟩
  | succ l ih =>
    intro cs
    obtain ⟨c, hc⟩ := expand_total hd ((f.levels[l + 1]?).getD []) cs
    obtain ⟨c', hc'⟩ := ih (sliceTo (srt.sort c) env.efSearch)
    exact ⟨c', by simp only [descendNan, hv, hc]; exact hc'⟩

theorem descendNan_numbers (srt : NanSort D) {env : HnswEnv V (WithTop D)} {q : V} {f : Hnsw V}
    (hv : f.vectors = vecs live) (hn : ∀ x ∈ live, env.dist q x.vec ≠ .ok ⊤) :
    ∀ (l : Nat) (cs : List (Id × WithTop D)),
      descendNan srt env q f l cs = descend env q f l cs := by
  intro l
  induction l with
  | zero => intro cs; rfl
  | succ l ih =>
    intro cs
    simp only [descendNan, descend, hv]
    cases he : expand (env.dist q) (vecs live) ((f.levels[l + 1]?).getD []) cs with
    | error e => rfl
    | ok new =>
      simp only
      rw [srt.numbers new, ih]
      intro x hx ht
      obtain ⟨y, hy, -, hd⟩ := (expand_spec he).1 x hx
      exact hn y hy (by rw [hd, ht])

theorem candidatesNan_spec (srt : NanSort D) {env : HnswEnv V (WithTop D)} {q : V} {f : Hnsw V}
    (hv : f.vectors = vecs live) {c : List (Id × WithTop D)} (h : candidatesNan srt env q f = .ok c) :
    ∀ x ∈ c, CandOk (env.dist q) live x := by
  simp only [candidatesNan] at h
  split at h
  · simp at h
  · rename_i c0 h0
    split at h
    · simp at h
    · rename_i c1 h1
      have hc1 := descendNan_spec srt hv _ h1 (entry_spec hv h0).1
      split at h
      · simp only [Except.ok.injEq] at h; subst h; simp
      · split at h
        · simp at h
        · rename_i fin hf
          simp only [Except.ok.injEq] at h
          subst h
          intro x hx
          rw [hv] at hf
          rcases List.mem_append.1 hx with hx | hx
          · exact hc1 x hx
          · exact (expand_spec hf).1 x hx

theorem candidatesNan_total (srt : NanSort D) {env : HnswEnv V (WithTop D)} {q : V} {f : Hnsw V}
    (h : Gr live f) (hd : ∀ x ∈ live, ∃ d, env.dist q x.vec = .ok d) :
    ∃ c, candidatesNan srt env q f = .ok c := by
  have hv := h.vec
  simp only [candidatesNan]
  obtain ⟨c0, h0⟩ := entry_total hv hd ((h.level_keys (min f.maxLevel (f.levels.length - 1))).2)
  obtain ⟨c1, h1⟩ := descendNan_total srt hv hd (min f.maxLevel (f.levels.length - 1)) c0
  rw [h0]
  simp only [h1]
  split
  · exact ⟨_, rfl⟩
  · obtain ⟨c2, h2⟩ := expand_total hd ((f.levels[0]?).getD []) c1
    rw [hv, h2]
    exact ⟨_, rfl⟩

theorem candidatesNan_numbers (srt : NanSort D) {env : HnswEnv V (WithTop D)} {q : V} {f : Hnsw V}
    (hv : f.vectors = vecs live) (hn : ∀ x ∈ live, env.dist q x.vec ≠ .ok ⊤) :
    candidatesNan srt env q f = candidates env q f := by
  simp only [candidatesNan, candidates, descendNan_numbers srt hv hn]
  cases entry env q f (f.levels[min f.maxLevel (f.levels.length - 1)]?.getD []) with
  | error e => rfl
  | ok c0 =>
    simp only
    cases descend env q f (min f.maxLevel (f.levels.length - 1)) c0 with
    | error e => rfl
    | ok c =>
      simp only
      split
      · rfl
      · cases expand (env.dist q) f.vectors (f.levels[0]?.getD []) c <;> rfl

theorem Inv.searchNan (srt : NanSort D) {env : HnswEnv V (WithTop D)} {f : Hnsw V} {s : σ}
    (h : Inv L live (f, s)) (q : V) (k : Int) :
    ∃ r s', Hnsw.searchNan srt env B 1 q k f s = (r, f, s') ∧ Inv L live (f, s') ∧
      (∀ hits, r = .ok hits → live ≠ [] → ∃ c, candidatesNan srt env q f = .ok c ∧
        hits = attachMd (Live.find live)
          (sliceTo (srt.sort c) (min k (live.length : Int)))) ∧
      (live = [] → r = .ok []) ∧
      (∀ c, candidatesNan srt env q f = .ok c → ∃ hits, r = .ok hits) ∧
      ((∀ x ∈ live, env.dist q x.vec ≠ .ok ⊤) →
        Hnsw.searchNan srt env B 1 q k f s = Hnsw.search env B 1 q k f s) := by
  have hi : f.inited = true := h.gr.inited
  have hv : f.vectors = vecs live := h.gr.vec
  by_cases hl : live = []
  · subst hl
    have : f.vectors.isEmpty = true := by rw [hv]; rfl
    exact ⟨.ok [], s, by simp [Hnsw.searchNan, hi, this], h, by simp, by simp, fun _ _ => ⟨[], rfl⟩,
      by simp [Hnsw.searchNan, Hnsw.search, hi, this]⟩
  · have hne : f.vectors.isEmpty = false := by
      rw [hv]; cases live with
      | nil => exact absurd rfl hl
      | cons => rfl
    cases hc : candidatesNan srt env q f with
    | error e =>
      refine ⟨.error .index, s, by simp [Hnsw.searchNan, hi, hne, hc], h, by simp, by simp [hl],
        by simp, ?_⟩
      intro hn
      rw [candidatesNan_numbers srt hv hn] at hc
      simp [Hnsw.searchNan, Hnsw.search, hi, hne, hc, candidatesNan_numbers srt hv hn]
    | ok c =>
      have hlen : f.vectors.length = live.length := by rw [hv]; simp [vecs]
      obtain ⟨s', e, i', c'⟩ := fetchMeta_spec L
        (sliceTo (srt.sort c) (min k (f.vectors.length : Int))) h.st (by
          intro x hx
          obtain ⟨y, h1, h2, -⟩ := candidatesNan_spec srt hv hc x
            (srt.mem.1 ((sliceTo_sublist _ _).subset hx))
          rw [h.cont, ← h2, Live.find_mem h.gr.nd h1]
          rfl)
      refine ⟨.ok (attachMd (L.content s) (sliceTo (srt.sort c)
        (min k (f.vectors.length : Int)))), s', ?_, ⟨h.gr, i', by simp only; rw [c']; exact h.cont⟩,
        ?_, by simp [hl], fun _ _ => ⟨_, rfl⟩, ?_⟩
      · have e' : fetchMeta B (sliceTo (srt.sort c) (min k (f.vectors.length : Int))) s = _ := e
        simp [Hnsw.searchNan, hi, hne, hc, e']
      · intro hits hh _
        cases hh
        exact ⟨c, rfl, by rw [show L.content s = Live.find live from h.cont, hlen]⟩
      · intro hn
        have hsrt : srt.sort c = pySortBy Prod.snd c := srt.numbers c (by
          intro x hx ht
          obtain ⟨y, hy, -, hd⟩ := candidatesNan_spec srt hv hc x hx
          exact hn y hy (by rw [hd, ht]))
        have hc2 := hc
        rw [candidatesNan_numbers srt hv hn] at hc2
        simp only [Hnsw.searchNan, Hnsw.search, hi, hne, hc, hc2, hsrt]
        rcases fetchMeta B (sliceTo (pySortBy Prod.snd c) (min k (f.vectors.length : Int))) s with
          ⟨_ | _, _⟩ <;> rfl

end Hnsw
end Valori
