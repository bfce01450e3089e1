import Verif.Props.Ivf
import Verif.Props.Hnsw

/-!
# Property C223: a vector the others cannot be compared with

The flat index has its own account (C18).  Here: what an IVF and an HNSW index do with a vector of
another length.  Whether two vectors can be compared is stated by the distance function itself
(`env.dist` raises), as numpy accepts some unequal lengths (length 1 is broadcast).
-/

namespace Valori.Props
open Valori Valori.Spec

variable {σ V M D : Type} [LinearOrder D] {B : Backend σ V M} {okId : Id → Prop} {okM : M → Prop}

/-! ## Helpers -/

theorem closest_raises {dist : V → Except Err D} {cs : List V}
    (h : ∃ c ∈ cs, ∃ e, dist c = .error e) : ∀ i best, ∃ e, Ivf.closest dist i cs best = .error e := by
  induction cs with
  | nil => simp at h
  | cons a cs ih =>
    intro i best
    simp only [Ivf.closest]
    cases ha : dist a with
    | error e => exact ⟨e, rfl⟩
    | ok d =>
      obtain ⟨c, hc, e, he⟩ := h
      have hc' : c ∈ cs := by
        rcases List.mem_cons.1 hc with rfl | hc
        · rw [ha] at he; cases he
        · exact hc
      cases best <;> exact ih ⟨c, hc', e, he⟩ _ _

/-- The answer of a scan, as a function of the live vectors. -/
theorem scanTop_value {L : Lawful B okId okM} {live : List (Item V M)} {env : IvfEnv V D}
    {f : Ivf V} {s : σ} (h : Ivf.Inv L live (f, s)) (q : V) (k : Int) (l : List (Item V M))
    (hsub : ∀ x ∈ l, x ∈ live) :
    (Ivf.scanTop env B q k (Live.idsOf l) f s).1 =
      match scanRes (env.dist q) l with
      | .error _ => .error .index
      | .ok ds => .ok (attachMd (Live.find live) (sliceTo (pySortBy Prod.snd ds) k)) := by
  obtain ⟨c, s1, e1, hc, i1, c1⟩ := scanVecs_spec L h.core.nd (env.dist q) l hsub h.core.cache
    h.core.st h.core.cont
  simp only [Ivf.toFlat] at e1 c1
  simp only [Ivf.scanTop, e1]
  cases hr : scanRes (env.dist q) l with
  | error e => rfl
  | ok ds =>
    obtain ⟨hall, hds⟩ := scanRes_ok hr
    have hmem : ∀ x ∈ sliceTo (pySortBy Prod.snd ds) k, (L.content s1 x.1).isSome = true := by
      intro x hx
      have hx2 := (Valori.pySortBy_perm Prod.snd ds).mem_iff.1 ((sliceTo_sublist _ _).subset hx)
      obtain ⟨dq, hq⟩ : ∃ dq, Extends (env.dist q) dq :=
        ⟨fun v => match env.dist q v with | .ok d => d | .error _ => x.2, by
          intro v d hv; simp [hv]⟩
      rw [hds dq hq] at hx2
      obtain ⟨y, hy, rfl⟩ := List.mem_map.1 hx2
      rw [c1, show L.content s = Live.find live from h.core.cont]
      show (Live.find live y.id).isSome = true
      rw [Live.find_mem h.core.nd (hsub y hy)]; rfl
    obtain ⟨s2, e2, i2, c2⟩ := fetchMeta_spec L _ i1 hmem
    simp only [e2, c1, show L.content s = Live.find live from h.core.cont]

omit [LinearOrder D] in
theorem scanRes_ids {dist : V → Except Err D} {l : List (Item V M)} {ds : List (Id × D)}
    (h : scanRes dist l = .ok ds) : ds.map Prod.fst = Live.idsOf l := by
  induction l generalizing ds with
  | nil => simp only [scanRes, Except.ok.injEq] at h; subst h; rfl
  | cons x l ih =>
    simp only [scanRes] at h
    split at h
    · cases h
    · split at h
      · cases h
      · rename_i r hr
        simp only [Except.ok.injEq] at h
        subst h
        simp [ih hr]

/-- More live vectors change nothing about a scan of the old ones. -/
theorem scanTop_grow {L : Lawful B okId okM} {live more : List (Item V M)} {env : IvfEnv V D}
    {f f' : Ivf V} {s s' : σ} (h : Ivf.Inv L live (f, s)) (h' : Ivf.Inv L (live ++ more) (f', s'))
    (q : V) (k : Int) (ids : List Id) (hids : ∀ i ∈ ids, i ∈ Live.idsOf live) :
    (Ivf.scanTop env B q k ids f' s').1 = (Ivf.scanTop env B q k ids f s).1 := by
  obtain ⟨l, rfl, hl⟩ := items_of_ids (live := live) ids hids
  rw [scanTop_value h q k l hl, scanTop_value h' q k l (fun x hx => by simp [hl x hx])]
  cases hr : scanRes (env.dist q) l with
  | error e => rfl
  | ok ds =>
    simp only [Except.ok.injEq, attachMd]
    refine List.map_congr_left ?_
    intro x hx
    have hx2 := (Valori.pySortBy_perm Prod.snd ds).mem_iff.1 ((sliceTo_sublist _ _).subset hx)
    have hx3 : x.1 ∈ Live.idsOf l := by
      rw [← scanRes_ids hr]; exact List.mem_map.2 ⟨x, hx2, rfl⟩
    obtain ⟨y, hy, e⟩ := List.mem_map.1 hx3
    have hn' := h'.core.nd
    rw [← e, Live.find_mem h.core.nd (hl y hy), Live.find_mem hn' (by simp [hl y hy])]

theorem train_raises {L : Lawful B okId okM} {live : List (Item V M)} {env : IvfEnv V D}
    {f : Ivf V} {s : σ} (h : Ivf.Inv L live (f, s)) (hn : env.nClusters ≤ (live.length : Int))
    (hne : live ≠ []) {e : Err} (hk : env.kmeans (live.map Item.vec) = .error e) :
    (Ivf.train env B f s).1 = .error .index := by
  have hids : f.ids = Live.idsOf live := h.core.ids
  obtain ⟨c', s1, e1, -, -, -⟩ := loadVecs_spec L h.core.nd live (fun x hx => hx)
    h.core.cache h.core.st h.core.cont
  simp only [Ivf.toFlat] at e1
  simp only [Ivf.train, hids, Live.idsOf, List.length_map]
  rw [if_neg (by omega)]
  simp only [Live.idsOf] at e1
  rw [e1]
  simp only
  rw [if_neg (by cases live <;> simp_all)]
  simp only [List.map_map, Function.comp_def]
  rw [show (fun x : Item V M => x.vec) = Item.vec from rfl, hk]

theorem search_trained {env : IvfEnv V D} {f : Ivf V} {s : σ} {q : V} {k : Int} {cs : List V}
    (hi : f.inited = true) (hne : f.ids.isEmpty = false) (ht : f.trained = true)
    (hcs : f.cents = some cs) : Ivf.search env B 1 q k f s =
      match Ivf.probes env q cs with
      | .error _ => (.error .index, f, s)
      | .ok ps => Ivf.scanTop env B q k (ps.flatMap (Ivf.clu f.clusters)) f s := by
  unfold Ivf.search
  rw [if_neg (by simp [hi]), if_neg (by simp), if_neg (by simp [hne]), if_neg (by simp [ht])]
  simp only [hcs]
  rfl

/-! ## IVF -/

/-- **C223** Before training: a search answers exactly if the query can be compared with every
live vector. -/
theorem C223_ivf_untrained_iff (L : Lawful B okId okM) (env : IvfEnv V D) (hk : Ivf.KMeansOk env)
    (s : σ) (live : List (Item V M)) (hs : Holds L s live) (h : List (IxCall V M))
    (hok : Live.HistOk okId okM live h) (q : V) (k : Int) :
    let t := ivfAfter env B s h
    t.1.trained = false →
    ((∃ e, (Ivf.search env B 1 q k t.1 t.2).1 = .error e) ↔
      ∃ x ∈ Live.after live h, ∃ e, env.dist q x.vec = .error e) := by
  intro t ht
  have hinv : Ivf.Inv L (Live.after live h) (t.1, t.2) := ivfAfter_inv hk hs hok
  have hi : t.1.inited = true := hinv.core.inited
  have hids : t.1.ids = Live.idsOf (Live.after live h) := hinv.core.ids
  have hs0 : Ivf.search env B 1 q k t.1 t.2 =
      if t.1.ids.isEmpty then (.ok [], t.1, t.2) else Ivf.scanTop env B q k t.1.ids t.1 t.2 := by
    unfold Ivf.search
    rw [if_neg (by simp [hi]), if_neg (by simp), ht]
    rfl
  obtain ⟨r, c, s', e, -, hit, -⟩ :=
    hinv.scanTop (env := env) q k _ hinv.core.nd (fun x hx => hx)
  rw [hs0]
  by_cases hl : Live.after live h = []
  · rw [if_pos (by rw [hids, hl]; rfl), hl]; simp
  · rw [if_neg (by
      rw [hids]; cases hl' : Live.after live h with
      | nil => exact absurd hl' hl
      | cons => simp), hids, e]
    constructor
    · rintro ⟨e', he⟩
      by_contra hno
      have : ∀ x ∈ Live.after live h, ∃ d, env.dist q x.vec = .ok d := by
        intro x hx
        cases hd : env.dist q x.vec with
        | ok d => exact ⟨d, rfl⟩
        | error e'' => exact absurd ⟨x, hx, e'', hd⟩ hno
      obtain ⟨hits, hh⟩ := hit.2 this
      simp only at he
      rw [hh] at he
      cases he
    · rintro ⟨x, hx, e', he⟩
      cases hr : r with
      | error e'' => exact ⟨e'', rfl⟩
      | ok hits =>
        obtain ⟨d, hd⟩ := hit.1 ⟨hits, hr⟩ x hx
        rw [hd] at he
        cases he

/-- **C223** (refuted) Before training, one vector of another length turns every search into an
error: with lengths 3 and 4 (neither 1, the length numpy broadcasts) among the live vectors, no
query gets an answer. -/
theorem C223_ivf_untrained_refuted (L : Lawful B okId okM) (env : IvfEnv V D)
    (hk : Ivf.KMeansOk env) (s : σ) (live : List (Item V M)) (hs : Holds L s live)
    (h : List (IxCall V M)) (hok : Live.HistOk okId okM live h) (dim : V → Nat)
    (hdim : ∀ a b, dim a ≠ dim b → dim a ≠ 1 → dim b ≠ 1 → ∃ e, env.dist a b = .error e)
    (x y : Item V M) (hx : x ∈ Live.after live h) (hy : y ∈ Live.after live h)
    (hxy : dim x.vec ≠ dim y.vec) (hx1 : dim x.vec ≠ 1) (hy1 : dim y.vec ≠ 1) (q : V)
    (hq1 : dim q ≠ 1) (k : Int) :
    let t := ivfAfter env B s h
    t.1.trained = false → ∃ e, (Ivf.search env B 1 q k t.1 t.2).1 = .error e := by
  intro t ht
  rw [C223_ivf_untrained_iff L env hk s live hs h hok q k ht]
  by_cases hq : dim q = dim x.vec
  · exact ⟨y, hy, hdim _ _ (by rw [hq]; exact hxy) hq1 hy1⟩
  · exact ⟨x, hx, hdim _ _ hq hq1 hx1⟩

/-- **C223** (partial: the refused vectors do stay behind) On a trained index a batch whose first
vector cannot be compared with every centroid is refused, and every search answers exactly as
before, for all queries.  The rows are nevertheless stored and counted. -/
theorem C223_ivf_insert_partial (L : Lawful B okId okM) (env : IvfEnv V D) (hk : Ivf.KMeansOk env)
    (s : σ) (live : List (Item V M)) (hs : Holds L s live) (h : List (IxCall V M))
    (hok : Live.HistOk okId okM live h) (cs : List V) (id : Id) (v : V) (rows : List (Id × V))
    (mds : Option (List (Option M)))
    (hc : Live.CallOk okId okM (Live.after live h) (.insert 2 ((id, v) :: rows) mds)) :
    let t := ivfAfter env B s h
    let r := Ivf.insert env B 2 ((id, v) :: rows) mds t.1 t.2
    t.1.trained = true → t.1.cents = some cs → Live.after live h ≠ [] →
    (∃ c ∈ cs, ∃ e, env.dist v c = .error e) →
    r.1 = .error .index ∧
    (∀ q k, (Ivf.search env B 1 q k r.2.1 r.2.2).1 = (Ivf.search env B 1 q k t.1 t.2).1) ∧
    r.2.1.statCount = some ((Live.after live h).length + (rows.length + 1)) ∧
    ∀ i w, (i, w) ∈ (id, v) :: rows → ∃ m, (B.retrieve r.2.2 i).1 = .ok (some (w, m)) := by
  intro t r ht hcs hne hbad
  have hinv : Ivf.Inv L (Live.after live h) (t.1, t.2) := ivfAfter_inv hk hs hok
  have hi : t.1.inited = true := hinv.core.inited
  have hinv' : Ivf.Inv L (Live.after live h ++ Live.items mds 0 ((id, v) :: rows)) r.2 :=
    (hinv.insert hk hc).1
  obtain ⟨h1, h2, h3⟩ := hc
  obtain ⟨g, s1, e, c⟩ := Flat.insertLoop_spec mds h3 ((id, v) :: rows) 0 (Live.after live h)
    (Ivf.toFlat t.1) t.2 hinv.core h1 h2
  have hsim : Ivf.insertLoop B mds 0 ((id, v) :: rows) t.1 t.2 =
      (.ok (((id, v) :: rows).map Prod.fst), { t.1 with ids := g.ids, cache := g.cache }, s1) := by
    rw [Ivf.insertLoop_sim, e]
  have hcache : ∀ w, g.cache.get? id = some w → w = v := by
    intro w hw
    have hm : (⟨id, v, Live.mdAt mds 0⟩ : Item V M) ∈
        Live.after live h ++ Live.items mds 0 ((id, v) :: rows) := by simp [Live.items]
    exact c.cache _ hm w hw
  have hadd : ∃ e', Ivf.addLoop env (((id, v) :: rows).map Prod.fst)
      { t.1 with ids := g.ids, cache := g.cache, count := g.ids.length } =
      (.error e', { t.1 with ids := g.ids, cache := g.cache, count := g.ids.length }) := by
    simp only [List.map_cons, Ivf.addLoop]
    cases hg : g.cache.get? id with
    | none => exact ⟨_, rfl⟩
    | some w =>
      cases hcache w hg
      obtain ⟨e', he'⟩ := closest_raises hbad 0 none
      simp only [Ivf.addToCluster, ht, hcs, he']
      exact ⟨_, rfl⟩
  obtain ⟨e', hadd⟩ := hadd
  have hr : r = (.error .index, { t.1 with ids := g.ids, cache := g.cache, count := g.ids.length },
      s1) := by
    show Ivf.insert env B 2 ((id, v) :: rows) mds t.1 t.2 = _
    rw [Ivf.insert_eq hi, hsim]
    simp only
    rw [if_neg (by simp [ht]), if_pos ht, hadd]
  have hlen : (Live.items mds 0 ((id, v) :: rows)).length = rows.length + 1 := by
    have := congrArg List.length (Ivf.items_ids mds 0 ((id, v) :: rows))
    simpa [Live.idsOf] using this
  refine ⟨by rw [hr], ?_, ?_, ?_⟩
  · intro q k
    have hid1 : t.1.ids.isEmpty = false := by
      rw [show t.1.ids = Live.idsOf (Live.after live h) from hinv.core.ids]
      cases hl : Live.after live h with
      | nil => exact absurd hl hne
      | cons => rfl
    have hid2 : g.ids.isEmpty = false := by
      rw [show g.ids = _ from c.ids]
      cases hl : Live.after live h with
      | nil => exact absurd hl hne
      | cons => rfl
    rw [hr] at hinv' ⊢
    simp only at hinv' ⊢
    rw [search_trained hi hid1 ht hcs, search_trained (f := { t.1 with ids := g.ids, cache := g.cache, count := g.ids.length }) hi hid2 ht hcs]
    cases hp : Ivf.probes env q cs with
    | error e => rfl
    | ok ps =>
      refine scanTop_grow hinv hinv' q k _ ?_
      intro i hi'
      obtain ⟨c', _, hc'⟩ := List.mem_flatMap.1 hi'
      exact hinv.cl.sub i ((Ivf.mem_members hinv.cl.keys).2 ⟨c', hc'⟩)
  · have h1 : r.2.1.inited = true := hinv'.core.inited
    have h2 : r.2.1.count = _ := hinv'.cnt
    simp only [Ivf.statCount, h1, h2, if_true, List.length_append, hlen]
  · intro i w hw
    obtain ⟨m, hm⟩ := Ivf.mem_items mds 0 _ hw
    have hf := Live.find_mem hinv'.core.nd
      (List.mem_append.2 (.inr hm) : _ ∈ Live.after live h ++ Live.items mds 0 ((id, v) :: rows))
    have hcont : L.content r.2.2 = Live.find _ := hinv'.core.cont
    obtain ⟨s2, e2, -⟩ := L.retrieve (s := r.2.2) (id := i) hinv'.core.st (h2 _ hw).2.1
    exact ⟨m, by rw [e2, hcont, hf]⟩

/-- **C223** (refuted) A refused update does harm: on a trained index an update with a vector that
cannot be compared with some centroid raises, the new vector is stored, and no search returns the
id any more, whatever the query and however many clusters are probed. -/
theorem C223_ivf_update_refuted (L : Lawful B okId okM) (env : IvfEnv V D) (hk : Ivf.KMeansOk env)
    (hp : 0 ≤ env.nProbes)
    (s : σ) (live : List (Item V M)) (hs : Holds L s live) (h : List (IxCall V M))
    (hok : Live.HistOk okId okM live h) (cs : List V) (id : Id) (v : V) (m : Option M)
    (hid : okId id) (hm : ∀ x, m = some x → okM x)
    (hlive : id ∈ (Live.after live h).map Item.id) :
    let t := ivfAfter env B s h
    let r := Ivf.update env B id v m t.1 t.2
    t.1.trained = true → t.1.cents = some cs →
    (∃ c ∈ cs, ∃ e, env.dist v c = .error e) →
    r.1 = .error .index ∧ (B.retrieve r.2.2 id).1 = .ok (some (v, m)) ∧
    ∀ q k hits, 0 ≤ k → (Ivf.search env B 1 q k r.2.1 r.2.2).1 = .ok hits → id ∉ hits.map Hit.id := by
  intro t r ht hcs hbad
  have hinv : Ivf.Inv L (Live.after live h) (t.1, t.2) := ivfAfter_inv hk hs hok
  have hi : t.1.inited = true := hinv.core.inited
  have hinv' : Ivf.Inv L (Live.replace (Live.after live h) id v m) r.2 :=
    (hinv.update (env := env) v hid hm).1
  have hcont0 : L.content t.2 = Live.find (Live.after live h) := hinv.core.cont
  have hsome : (L.content t.2 id).isSome = true := by
    obtain ⟨x, hx, rfl⟩ := List.mem_map.1 hlive
    rw [hcont0, Live.find_mem hinv.core.nd hx]; rfl
  obtain ⟨s', e, i', c'⟩ := L.update (v := v) (m := m) hinv.core.st hid hm
  have e1 : B.update t.2 id v m = (.ok true, s') := by rw [← hsome]; exact e
  obtain ⟨e', he'⟩ := closest_raises hbad 0 none
  have hr : r = (.error .index,
      { t.1 with cache := t.1.cache.set id v, clusters := Ivf.dropFirst id t.1.clusters },
      s') := by
    show Ivf.update env B id v m t.1 t.2 = _
    rw [Ivf.update_eq hi e1, if_pos ht]
    simp only [Ivf.reassign, Ivf.addToCluster, ht, hcs, he']
  have hout : ∀ c, id ∉ Ivf.clu r.2.1.clusters c := by
    intro c hc
    have := (Ivf.mem_members hinv'.cl.keys).2 ⟨c, hc⟩
    rw [hr] at this
    simp only [Ivf.members_dropFirst] at this
    exact (List.Nodup.mem_erase_iff hinv.cl.nd).1 this |>.1 rfl
  refine ⟨by rw [hr], ?_, ?_⟩
  · obtain ⟨s2, e2, -⟩ := L.retrieve (s := r.2.2) (id := id) hinv'.core.st hid
    rw [e2]
    have hs' : r.2.2 = s' := by rw [hr]
    have hsome' : (L.content (t.1, t.2).2 id).isSome = true := hsome
    rw [hs', c', if_pos hsome']
    simp [put]
  · intro q k hits hk0 heq hmem
    obtain ⟨r1, c1, s1, e1', -, hr1⟩ := hinv'.search (env := env) q k
    rw [show Ivf.search env B 1 q k r.2.1 r.2.2 = _ from e1'] at heq
    obtain ⟨l, l1, l2, l3, l4, -, l6⟩ := hr1 hits heq hp
    have ht' : r.2.1.trained = true := by rw [hr]; exact ht
    have hne : Live.replace (Live.after live h) id v m ≠ [] := by
      intro h0
      obtain ⟨x, hx, rfl⟩ := List.mem_map.1 hlive
      have : (Live.replace (Live.after live h) x.id v m).length = (Live.after live h).length := by
        simp [Live.replace]
      rw [h0] at this
      cases hl : Live.after live h with
      | nil => rw [hl] at hx; simp at hx
      | cons => rw [hl] at this; simp at this
    obtain ⟨cs', ps, g1, g2, g3⟩ := l6 ht' hne
    obtain ⟨a, ha, hae⟩ := List.mem_map.1 hmem
    obtain ⟨dq, hq⟩ : ∃ dq, Extends (env.dist q) dq :=
      ⟨fun v => match env.dist q v with | .ok d => d | .error _ => a.dist, by
        intro v d hv; simp [hv]⟩
    obtain ⟨x, hx, hx1, -⟩ := (l4 hk0 dq hq).sound a ha
    have : x.id ∈ ps.flatMap (Ivf.clu r.2.1.clusters) := by
      rw [← g3]; exact List.mem_map.2 ⟨x, hx, rfl⟩
    obtain ⟨c, -, hc⟩ := List.mem_flatMap.1 this
    exact hout c (by rw [← hae, ← hx1]; exact hc)

/-- **C223** (refuted) An untrained index that reaches `n_clusters` vectors of unequal lengths is
stuck: k-means cannot be run, so every further insert raises, though each stores its rows. -/
theorem C223_ivf_stuck_refuted (L : Lawful B okId okM) (env : IvfEnv V D) (hk : Ivf.KMeansOk env)
    (s : σ) (live : List (Item V M)) (hs : Holds L s live) (h : List (IxCall V M))
    (hok : Live.HistOk okId okM live h) (dim : V → Nat)
    (hmix : ∀ vs, (∃ a ∈ vs, ∃ b ∈ vs, dim a ≠ dim b) → ∃ e, env.kmeans vs = .error e)
    (x y : Item V M) (hx : x ∈ Live.after live h) (hy : y ∈ Live.after live h)
    (hxy : dim x.vec ≠ dim y.vec) (hn : env.nClusters ≤ ((Live.after live h).length : Int))
    (rows : List (Id × V)) (mds : Option (List (Option M)))
    (hc : Live.CallOk okId okM (Live.after live h) (.insert 2 rows mds)) :
    let t := ivfAfter env B s h
    let r := Ivf.insert env B 2 rows mds t.1 t.2
    t.1.trained = false →
    r.1 = .error .index ∧ r.2.1.trained = false ∧
    r.2.1.statCount = some ((Live.after live h).length + rows.length) ∧
    ∀ i w, (i, w) ∈ rows → ∃ m, (B.retrieve r.2.2 i).1 = .ok (some (w, m)) := by
  intro t r ht
  have hinv : Ivf.Inv L (Live.after live h) (t.1, t.2) := ivfAfter_inv hk hs hok
  have hi : t.1.inited = true := hinv.core.inited
  have hinv' : Ivf.Inv L (Live.after live h ++ Live.items mds 0 rows) r.2 :=
    (hinv.insert hk hc).1
  obtain ⟨h1, h2, h3⟩ := hc
  obtain ⟨g, s1, e, c⟩ := Flat.insertLoop_spec mds h3 rows 0 (Live.after live h)
    (Ivf.toFlat t.1) t.2 hinv.core h1 h2
  have hsim : Ivf.insertLoop B mds 0 rows t.1 t.2 =
      (.ok (rows.map Prod.fst), { t.1 with ids := g.ids, cache := g.cache }, s1) := by
    rw [Ivf.insertLoop_sim, e]
  have hlen : (Live.items mds 0 rows).length = rows.length := by
    have := congrArg List.length (Ivf.items_ids mds 0 rows)
    simpa [Live.idsOf] using this
  have hinv2 : Ivf.Inv L (Live.after live h ++ Live.items mds 0 rows)
      ({ t.1 with ids := g.ids, cache := g.cache, count := g.ids.length }, s1) := by
    refine ⟨⟨hi, c.ids, c.nd, c.cache, c.st, c.cont⟩,
      ⟨hinv.cl.keys, hinv.cl.nd, ?_, hinv.cl.tr⟩, ?_⟩
    · intro x hx; simp only [Live.idsOf, List.map_append, List.mem_append]
      exact .inl (hinv.cl.sub x hx)
    · show g.ids.length = _
      rw [show g.ids = _ from c.ids]; simp [Live.idsOf]
  have hgl : (g.ids.length : Int) = ((Live.after live h).length + rows.length : Nat) := by
    rw [show g.ids = _ from c.ids]; simp [Live.idsOf, hlen]
  obtain ⟨ek, hek⟩ := hmix ((Live.after live h ++ Live.items mds 0 rows).map Item.vec)
    ⟨x.vec, by simp only [List.map_append, List.mem_append]; exact .inl (List.mem_map.2 ⟨x, hx, rfl⟩),
     y.vec, by simp only [List.map_append, List.mem_append]; exact .inl (List.mem_map.2 ⟨y, hy, rfl⟩),
     hxy⟩
  have htr := train_raises (env := env) hinv2
    (by simp only [List.length_append, hlen]; push_cast; omega)
    (by intro h0; rw [List.append_eq_nil_iff] at h0; rw [h0.1] at hx; simp at hx) hek
  have hreq : r = match Ivf.train env B
      { t.1 with ids := g.ids, cache := g.cache, count := g.ids.length } s1 with
        | (.ok _, t') => (.ok (rows.map Prod.fst), t')
        | (.error _, t') => (.error .index, t') := by
    show Ivf.insert env B 2 rows mds t.1 t.2 = _
    rw [Ivf.insert_eq hi, hsim]
    simp only
    rw [if_pos ⟨by omega, ht⟩]
    rfl
  have hstay : ∀ (f : Ivf V) (s : σ), (Ivf.train env B f s).1 = .error .index →
      (Ivf.train env B f s).2.1.trained = f.trained := by
    intro f s hh
    simp only [Ivf.train] at hh ⊢
    split
    · rfl
    · rename_i hn'
      rw [if_neg hn'] at hh
      split
      · rfl
      · rename_i e0
        rw [e0] at hh
        simp only at hh
        split
        · rfl
        · rename_i hv
          rw [if_neg hv] at hh
          split
          · rfl
          · rename_i e1
            rw [e1] at hh
            cases hh
  have hst := hstay _ _ htr
  cases htt : Ivf.train env B
      { t.1 with ids := g.ids, cache := g.cache, count := g.ids.length } s1 with
  | mk a b =>
  rw [htt] at htr hst hreq
  simp only at htr hst
  subst htr
  simp only at hreq
  refine ⟨by rw [hreq], by rw [hreq]; simpa using hst.trans ht, ?_, ?_⟩
  · have h1 : r.2.1.inited = true := hinv'.core.inited
    have h2 : r.2.1.count = _ := hinv'.cnt
    simp only [Ivf.statCount, h1, h2, if_true, List.length_append, hlen]
  · intro i w hw
    obtain ⟨m, hm⟩ := Ivf.mem_items mds 0 _ hw
    have hf := Live.find_mem hinv'.core.nd
      (List.mem_append.2 (.inr hm) : _ ∈ Live.after live h ++ Live.items mds 0 rows)
    have hcont : L.content r.2.2 = Live.find _ := hinv'.core.cont
    obtain ⟨s2, e2, -⟩ := L.retrieve (s := r.2.2) (id := i) hinv'.core.st (h2 _ hw).2.1
    exact ⟨m, by rw [e2, hcont, hf]⟩

/-- **C223** (refuted) A storage with `n_clusters` vectors of unequal lengths cannot be opened with
an IVF index any more. -/
theorem C223_ivf_reopen_refuted (L : Lawful B okId okM) (env : IvfEnv V D)
    (s : σ) (live : List (Item V M)) (hs : Holds L s live) (dim : V → Nat)
    (hmix : ∀ vs, (∃ a ∈ vs, ∃ b ∈ vs, dim a ≠ dim b) → ∃ e, env.kmeans vs = .error e)
    (x y : Item V M) (hx : x ∈ live) (hy : y ∈ live) (hxy : dim x.vec ≠ dim y.vec)
    (hn : env.nClusters ≤ (live.length : Int)) :
    (Ivf.init env B Ivf.new s).1 = .error .index := by
  have hf := flatOn_inv hs
  obtain ⟨ek, hek⟩ := hmix (live.map Item.vec)
    ⟨x.vec, List.mem_map.2 ⟨x, hx, rfl⟩, y.vec, List.mem_map.2 ⟨y, hy, rfl⟩, hxy⟩
  obtain ⟨hs1, hl, hc⟩ := hs
  obtain ⟨l, s', e, i', c', hnd, hmem⟩ := L.list hs1
  rw [e] at hl
  simp only [Except.ok.injEq] at hl
  subst hl
  simp only [Ivf.init, e, List.length_map]
  rw [if_pos hn]
  refine train_raises (L := L) (live := live) ?_ hn
    (by intro h0; rw [h0] at hx; simp at hx) hek
  refine ⟨⟨rfl, rfl, hnd, ?_, i', ?_⟩, ⟨by simp [Ivf.new], by simp [Ivf.new, Ivf.members],
    by simp [Ivf.new, Ivf.members], by simp [Ivf.new]⟩, rfl⟩
  · intro x _ v hv; simp [Ivf.toFlat, Ivf.new, Dict.get?] at hv
  · simp only; rw [c']; funext id; exact hc id

/-! ## HNSW -/

theorem scanNbrs_among {live : List (Item V M)} {dist : V → Except Err D} (ns : List Id)
    (hd : ∀ x ∈ live, x.id ∈ ns → ∃ d, dist x.vec = .ok d) :
    ∃ c, Hnsw.scanNbrs dist (Hnsw.vecs live) ns = .ok c := by
  induction ns with
  | nil => exact ⟨[], rfl⟩
  | cons n ns ih =>
    obtain ⟨c, hc⟩ := ih (fun x hx hxn => hd x hx (by simp [hxn]))
    simp only [Hnsw.scanNbrs]
    cases hg : (Hnsw.vecs live).get? n with
    | none => exact ⟨c, hc⟩
    | some v =>
      obtain ⟨x, h1, h2, rfl⟩ := Hnsw.vecs_item hg
      obtain ⟨d, hd'⟩ := hd x h1 (by simp [h2])
      exact ⟨_, by simp only [hd', hc]; rfl⟩

/-- **C223** An HNSW index takes vectors of any length: inserts, updates and deletes reply as if
lengths did not exist, after any history. -/
theorem C223_hnsw_accepts (L : Lawful B okId okM) (env : HnswEnv V D) (s : σ)
    (live : List (Item V M)) (hs : Holds L s live) (h : List (IxCall V M))
    (hok : Live.HistOk okId okM live h) (rows : List (Id × V)) (mds : Option (List (Option M)))
    (hc : Live.CallOk okId okM (Live.after live h) (.insert 2 rows mds)) :
    let t := hnswAfter env B s h
    (Hnsw.insert env B 2 rows mds t.1 t.2).1 = .ok (rows.map Prod.fst) := by
  intro t
  have hinv : Hnsw.Inv L (Live.after live h) t := hnswAfter_inv env hs hok
  have := (hinv.call (env := env) _ hc).2.1 (by intro q n k hh; cases hh)
  simp only [Hnsw.call, Live.reply, if_true] at this
  cases he : Hnsw.insert env B 2 rows mds t.1 t.2 with
  | mk a b =>
    rw [he] at this
    cases a with
    | error e => simp at this
    | ok l => simpa using this

/-- **C223** (partial: which searches fail depends on the graph) A search raises only if the query
cannot be compared with some live vector. -/
theorem C223_hnsw_partial (L : Lawful B okId okM) (env : HnswEnv V D) (s : σ)
    (live : List (Item V M)) (hs : Holds L s live) (h : List (IxCall V M))
    (hok : Live.HistOk okId okM live h) (q : V) (k : Int) :
    let t := hnswAfter env B s h
    (∃ e, (Hnsw.search env B 1 q k t.1 t.2).1 = .error e) →
      ∃ x ∈ Live.after live h, ∃ e, env.dist q x.vec = .error e := by
  intro t ⟨e, he⟩
  by_contra hno
  have hinv : Hnsw.Inv L (Live.after live h) t := hnswAfter_inv env hs hok
  obtain ⟨r, s', e', -, -, -, -, h4⟩ := hinv.search (env := env) q k
  obtain ⟨c, hc⟩ := Hnsw.candidates_total (env := env) (q := q) hinv.gr (by
    intro x hx
    cases hd : env.dist q x.vec with
    | ok d => exact ⟨d, rfl⟩
    | error e'' => exact absurd ⟨x, hx, e'', hd⟩ hno)
  obtain ⟨hits, hh⟩ := h4 c hc
  rw [show Hnsw.search env B 1 q k t.1 t.2 = _ from e', hh] at he
  cases he

/-- **C223** While `max_level` is 0 a search raises exactly if the query cannot be compared with
the first live vector or with one of its neighbours. -/
theorem C223_hnsw_flat_iff (L : Lawful B okId okM) (env : HnswEnv V D) (s : σ)
    (live : List (Item V M)) (hs : Holds L s live) (h : List (IxCall V M))
    (hok : Live.HistOk okId okM live h) (q : V) (k : Int) (x : Item V M) (rest : List (Item V M))
    (hl : Live.after live h = x :: rest) (d0 : List (String × List String))
    (ds : List (List (String × List String))) :
    let t := hnswAfter env B s h
    t.1.statMaxLevel = some 0 → t.1.levels = d0 :: ds →
    ((∃ e, (Hnsw.search env B 1 q k t.1 t.2).1 = .error e) ↔
      ∃ y ∈ Live.after live h, (y.id = x.id ∨ y.id ∈ links d0 x.id) ∧
        ∃ e, env.dist q y.vec = .error e) := by
  intro t hm hlev
  have hinv : Hnsw.Inv L (Live.after live h) t := hnswAfter_inv env hs hok
  have hm0 : t.1.maxLevel = 0 := by
    have hi : t.1.inited = true := hinv.gr.inited
    simpa [Hnsw.statMaxLevel, hi] using hm
  have hd0 : (t.1.levels[0]?).getD [] = d0 := by rw [hlev]; rfl
  obtain ⟨r, s', e', -, -, -, h3, h4⟩ := hinv.search (env := env) q k
  rw [show Hnsw.search env B 1 q k t.1 t.2 = _ from e']
  simp only [links_eq]
  constructor
  · rintro ⟨e, he⟩
    by_contra hno
    have hall : ∀ y ∈ Live.after live h, (y.id = x.id ∨ y.id ∈ Hnsw.nbrs d0 x.id) →
        ∃ d, env.dist q y.vec = .ok d := by
      intro y hy hor
      cases hd : env.dist q y.vec with
      | ok d => exact ⟨d, rfl⟩
      | error e'' => exact absurd ⟨y, hy, hor, e'', hd⟩ hno
    have hcand : ∃ c, Hnsw.candidates env q t.1 = .ok c := by
      have hk : Dict.keys d0 = Live.idsOf (Live.after live h) := by
        have := hinv.gr.lev.zero
        rw [show t.1.levels[0]? = some d0 by rw [hlev]; rfl] at this
        simpa using this
      simp only [Hnsw.candidates, hm0, Nat.zero_min, Hnsw.descend, hd0]
      cases hd : d0 with
      | nil => rw [hd, hl] at hk; simp [Dict.keys] at hk
      | cons a d0' =>
        obtain ⟨n, nn⟩ := a
        have hn : n = x.id := by
          rw [hd, hl] at hk
          simp only [Dict.keys, List.map_cons, Live.idsOf, List.cons.injEq] at hk
          exact hk.1
        subst hn
        have hv : t.1.vectors = Hnsw.vecs (Live.after live h) := hinv.gr.vec
        have hg : t.1.vectors.get? x.id = some x.vec := by
          rw [hv, Hnsw.vecs_get?, Live.find_mem hinv.gr.nd (by rw [hl]; simp)]; rfl
        obtain ⟨d, hdx⟩ := hall x (by rw [hl]; simp) (.inl rfl)
        obtain ⟨c, hc⟩ := scanNbrs_among (live := Live.after live h) (dist := env.dist q)
          (Hnsw.nbrs d0 x.id) (fun y hy hyn => hall y hy (.inr hyn))
        rw [hd, ← hv] at hc
        simp only [Hnsw.entry, hg, hdx, List.isEmpty_cons, Hnsw.expand, hc]
        exact ⟨_, rfl⟩
    obtain ⟨c, hc⟩ := hcand
    obtain ⟨hits, hh⟩ := h4 c hc
    rw [hh] at he
    cases he
  · rintro ⟨y, hy, hor, e, he⟩
    cases hc : Hnsw.candidates env q t.1 with
    | error e2 => exact ⟨_, h3 (by rw [hl]; simp) e2 hc⟩
    | ok c =>
      exfalso
      have hids := Hnsw.candidates_flat hinv.gr hm0 hc hl
      rw [hd0] at hids
      have hyc : y.id ∈ c.map Prod.fst := by
        rw [hids]
        rcases hor with h' | h'
        · rw [h']; simp
        · simp [h']
      obtain ⟨a, ha, hae⟩ := List.mem_map.1 hyc
      obtain ⟨z, hz, hz1, hz2⟩ := Hnsw.candidates_spec hinv.gr.vec hc a ha
      have hzy : z = y := by
        have h1 := Live.find_mem hinv.gr.nd hz
        have h2 := Live.find_mem hinv.gr.nd hy
        rw [hz1, hae, h2] at h1
        cases z; cases y
        simp only [Option.some.injEq, Prod.mk.injEq] at h1 hz1 hae
        simp_all
      rw [hzy, he] at hz2
      cases hz2

/-- **C223** (refuted) While `max_level` is 0, a neighbour of the first live vector that has
another length (neither 1, the length numpy broadcasts) turns every search into an error. -/
theorem C223_hnsw_refuted (L : Lawful B okId okM) (env : HnswEnv V D) (s : σ)
    (live : List (Item V M)) (hs : Holds L s live) (h : List (IxCall V M))
    (hok : Live.HistOk okId okM live h) (dim : V → Nat)
    (hdim : ∀ a b, dim a ≠ dim b → dim a ≠ 1 → dim b ≠ 1 → ∃ e, env.dist a b = .error e)
    (x y : Item V M) (rest : List (Item V M))
    (hl : Live.after live h = x :: rest) (hy : y ∈ rest) (hxy : dim x.vec ≠ dim y.vec)
    (hx1 : dim x.vec ≠ 1) (hy1 : dim y.vec ≠ 1) (d0 : List (String × List String))
    (ds : List (List (String × List String))) (q : V) (hq1 : dim q ≠ 1) (k : Int) :
    let t := hnswAfter env B s h
    t.1.statMaxLevel = some 0 → t.1.levels = d0 :: ds → y.id ∈ links d0 x.id →
    ∃ e, (Hnsw.search env B 1 q k t.1 t.2).1 = .error e := by
  intro t hm hlev hyx
  rw [C223_hnsw_flat_iff L env s live hs h hok q k x rest hl d0 ds hm hlev]
  by_cases hq : dim q = dim x.vec
  · exact ⟨y, by rw [hl]; simp [hy], .inr hyx, hdim _ _ (by rw [hq]; exact hxy) hq1 hy1⟩
  · exact ⟨x, by rw [hl]; simp, .inl rfl, hdim _ _ hq hq1 hx1⟩

/-! ## Concrete cases: 1000 is the vector of another length -/

/-- The length of the example vectors. -/
def exLen (v : Nat) : Nat := if v = 1000 then 4 else 3

theorem exLen_ivf (a b : Nat) (h : exLen a ≠ exLen b) : ∃ e, (exIvf 1).dist a b = .error e := by
  simp only [exLen, exIvf] at h ⊢
  split at h <;> split at h <;> simp_all

theorem exLen_kmeans (vs : List Nat) (h : ∃ a ∈ vs, ∃ b ∈ vs, exLen a ≠ exLen b) :
    ∃ e, (exIvf 1).kmeans vs = .error e := by
  obtain ⟨a, ha, b, hb, hab⟩ := h
  have : 1000 ∈ vs := by
    simp only [exLen] at hab
    split at hab <;> split at hab <;> simp_all
  simp [exIvf, this]

theorem exLen_hnsw (levels : List Nat) (m a b : Nat) (h : exLen a ≠ exLen b) :
    ∃ e, (exHnsw levels m).dist a b = .error e := by
  simp only [exLen, exHnsw] at h ⊢
  split at h <;> split at h <;> simp_all

/-- Refused and harmless: a trained index, an insert of the wrong length. -/
example : let h : List (IxCall Nat Nat) := [.insert 2 [("a", 12), ("b", 28)] none]
    let t := ivfAfter (exIvf 1) (memBackend Nat Nat) exMem h
    let r := Ivf.insert (exIvf 1) (memBackend Nat Nat) 2 [("c", 1000)] none t.1 t.2
    t.1.trained = true ∧ t.1.cents = some [10, 30] ∧ r.1 = .error .index ∧
    r.2.1.statCount = some 3 ∧
    (Ivf.search (exIvf 1) (memBackend Nat Nat) 1 11 5 r.2.1 r.2.2).1 = .ok [⟨"a", 1, none⟩] := by
  decide

/-- Stuck: the second vector has another length; training is tried and fails, now and later. -/
example : let h : List (IxCall Nat Nat) := [.insert 2 [("a", 12)] none, .insert 2 [("b", 1000)] none,
      .insert 2 [("c", 13)] none]
    let t := ivfAfter (exIvf 1) (memBackend Nat Nat) exMem h
    (Ivf.run (exIvf 1) (memBackend Nat Nat) (ivfOn (exIvf 1) (memBackend Nat Nat) exMem) h).1 =
      [.ids ["a"], .raised, .raised] ∧
    t.1.trained = false ∧ t.1.statCount = some 3 ∧
    (Ivf.search (exIvf 1) (memBackend Nat Nat) 1 12 5 t.1 t.2).1 = .error .index ∧
    (Ivf.init (exIvf 1) (memBackend Nat Nat) Ivf.new t.2).1 = .error .index := by decide

/-- An HNSW index takes the vector and no longer answers any query of either length. -/
example : let h : List (IxCall Nat Nat) := [.insert 2 [("a", 12)] none, .insert 2 [("b", 1000)] none]
    let t := hnswAfter (exHnsw [0, 0] 16) (memBackend Nat Nat) exMem h
    (Hnsw.run (exHnsw [0, 0] 16) (memBackend Nat Nat)
      (hnswOn (exHnsw [0, 0] 16) (memBackend Nat Nat) exMem) h).1 = [.ids ["a"], .ids ["b"]] ∧
    t.1.statMaxLevel = some 0 ∧ t.1.levels = [[("a", ["b"]), ("b", ["a"])]] ∧
    (Hnsw.search (exHnsw [0, 0] 16) (memBackend Nat Nat) 1 12 5 t.1 t.2).1 = .error .index ∧
    (Hnsw.search (exHnsw [0, 0] 16) (memBackend Nat Nat) 1 1000 5 t.1 t.2).1 = .error .index := by
  decide

end Valori.Props
