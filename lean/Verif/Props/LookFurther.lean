import Verif.Spec.NoWorse
import Verif.Props.IvfExact
import Verif.Props.Saq
import Mathlib.Data.List.Sort
import Mathlib.Data.List.NodupEquivFin

/-!
# Looking at more of the index (C230)

More probes never make the results of an IVF search worse.
-/

namespace Valori.Props
open Valori.Spec

section lists
variable {D : Type} [LinearOrder D]

theorem noWorse_sublist {a b : List D} (h : a.Sublist b) (hb : b.Pairwise (· ≤ ·)) : NoWorse a b := by
  refine ⟨h.length_le, ?_⟩
  intro i x y hx hy
  obtain ⟨f, hf⟩ := List.sublist_iff_exists_orderEmbedding_getElem?_eq.1 h
  rw [hf i] at hx
  have hi : i ≤ f i := f.strictMono.le_apply
  obtain ⟨h1, rfl⟩ := List.getElem?_eq_some_iff.1 hx
  obtain ⟨h2, rfl⟩ := List.getElem?_eq_some_iff.1 hy
  rcases hi.lt_or_eq with hlt | heq
  · exact List.pairwise_iff_getElem.1 hb _ _ h2 h1 hlt
  · exact le_of_eq (by congr 1)

theorem noWorse_sorted {a b : List D} (h : a.Subperm b) (ha : a.Pairwise (· ≤ ·))
    (hb : b.Pairwise (· ≤ ·)) : NoWorse a b :=
  noWorse_sublist (List.sublist_of_subperm_of_pairwise h ha hb) hb

theorem noWorse_take {a b : List D} (h : NoWorse a b) {n n' : Nat} (hn : n ≤ n') :
    NoWorse (a.take n) (b.take n') := by
  refine ⟨?_, ?_⟩
  · have := h.1
    simp only [List.length_take]; omega
  · intro i x y hx hy
    simp only [List.getElem?_take] at hx hy
    split at hx
    · split at hy
      · exact h.2 i x y hx hy
      · cases hy
    · cases hx

theorem noWorse_sliceTo {a b : List D} (h : NoWorse a b) (k : Int) :
    NoWorse (sliceTo a k) (sliceTo b k) := by
  have := h.1
  simp only [sliceTo]
  split
  · exact noWorse_take h le_rfl
  · exact noWorse_take h (by omega)

/-- Sorting a part and the whole, and cutting. -/
theorem noWorse_sort {α : Type} {a b : List (α × D)} (h : a.Subperm b) (k : Int) :
    NoWorse ((sliceTo (pySortBy Prod.snd a) k).map Prod.snd)
      ((sliceTo (pySortBy Prod.snd b) k).map Prod.snd) := by
  rw [← sliceTo_map, ← sliceTo_map]
  refine noWorse_sliceTo (noWorse_sorted ?_ ?_ ?_) k
  · have h1 := (pySortBy_perm Prod.snd a).map Prod.snd
    have h2 := (pySortBy_perm Prod.snd b).map Prod.snd
    obtain ⟨c, hc, hs⟩ := h
    exact h1.subperm.trans (List.Subperm.trans ⟨_, hc.map Prod.snd, hs.map Prod.snd⟩ h2.symm.subperm)
  · exact List.pairwise_map.2 (pySortBy_sorted _ _)
  · exact List.pairwise_map.2 (pySortBy_sorted _ _)

end lists

variable {σ τ V M D : Type} {B : Backend σ V M} {C : Backend τ V M} {okId okId' : Id → Prop}
  {okM okM' : M → Prop}

section ivf
variable [LinearOrder D] {L : Lawful B okId okM} {env : IvfEnv V D} {live : List (Item V M)}

theorem scanTop_noWorse {d : V → V → D} (hd : ∀ a b, env.dist a b = .ok (d a b)) {f : Ivf V} {s : σ}
    (h : Ivf.Inv L live (f, s)) (q : V) (k : Int) (l r : List (Item V M)) (hl : ∀ x ∈ l ++ r, x ∈ live) :
    ∃ hits hits', (Ivf.scanTop env B q k (Live.idsOf l) f s).1 = .ok hits ∧
      (Ivf.scanTop env B q k (Live.idsOf (l ++ r)) f s).1 = .ok hits' ∧
      NoWorse (hits.map Hit.dist) (hits'.map Hit.dist) := by
  have key : ∀ l : List (Item V M), (∀ x ∈ l, x ∈ live) →
      (Ivf.scanTop env B q k (Live.idsOf l) f s).1 = .ok (attachMd (Live.find live)
        (sliceTo (pySortBy Prod.snd (l.map fun x => (x.id, d q x.vec))) k)) := by
    intro l hl
    obtain ⟨c, s', e⟩ := Ivf.scanTop_form env h q k l hl
    obtain ⟨ds, hds⟩ := scanRes_total (dist := env.dist q) (l := l) (fun x _ => ⟨_, hd q x.vec⟩)
    obtain ⟨-, h2⟩ := scanRes_ok hds
    have h3 := h2 (d q) (fun v x hv => by rw [hd] at hv; cases hv; rfl)
    rw [e, hds, h3]
  refine ⟨_, _, key l fun x hx => hl x (by simp [hx]), key (l ++ r) hl, ?_⟩
  have hm : ∀ l : List (Id × D), (attachMd (V := V) (M := M) (Live.find live) l).map Hit.dist = l.map Prod.snd := by
    intro l; simp only [attachMd, List.map_map]; rfl
  rw [hm, hm]
  exact noWorse_sort (((List.sublist_append_left l r).map _).subperm) k

/-- One state, two numbers of probes. -/
theorem search_noWorse {d : V → V → D} (hd : ∀ a b, env.dist a b = .ok (d a b)) (hp : 0 ≤ env.nProbes)
    {p' : Int} (hp' : env.nProbes ≤ p') {f : Ivf V} {s : σ} (h : Ivf.Inv L live (f, s)) (q : V) (k : Int) :
    ∃ hits hits', (Ivf.search env B 1 q k f s).1 = .ok hits ∧
      (Ivf.search { env with nProbes := p' } B 1 q k f s).1 = .ok hits' ∧
      NoWorse (hits.map Hit.dist) (hits'.map Hit.dist) := by
  have hi : f.inited = true := h.core.inited
  have hids : f.ids = Live.idsOf live := h.core.ids
  have hs0 : ∀ env : IvfEnv V D, Ivf.search env B 1 q k f s =
      if f.ids.isEmpty then (.ok [], f, s)
      else if !f.trained then Ivf.scanTop env B q k f.ids f s
      else
        match f.cents with
        | none => (.error .index, f, s)
        | some cents =>
          match Ivf.probes env q cents with
          | .error _ => (.error .index, f, s)
          | .ok ps => Ivf.scanTop env B q k (ps.flatMap (Ivf.clu f.clusters)) f s := by
    intro env
    unfold Ivf.search
    rw [if_neg (by simp [hi]), if_neg (by simp)]
    rfl
  rw [hs0, hs0]
  have hst : ∀ c, Ivf.scanTop { env with nProbes := p' } B q k c f s = Ivf.scanTop env B q k c f s :=
    fun _ => rfl
  by_cases hne : f.ids.isEmpty = true
  · rw [if_pos hne]
    exact ⟨[], [], rfl, by rw [if_pos hne], by simp [NoWorse]⟩
  rw [if_neg hne, if_neg hne]
  by_cases ht : f.trained = true
  · rw [if_neg (by simp [ht]), if_neg (by simp [ht])]
    obtain ⟨cs, hcs, hcne, hlt⟩ := h.cl.tr ht
    simp only at hcs
    simp only [hcs]
    obtain ⟨ds, hds⟩ := Ivf.numberedDists_total (dist := env.dist q) (fun v => ⟨_, hd q v⟩) cs 0
    have e1 : Ivf.probes env q cs = .ok ((sliceTo (pySortBy Prod.snd ds) env.nProbes).map Prod.fst) := by
      simp only [Ivf.probes, hds]
    have e2 : Ivf.probes { env with nProbes := p' } q cs =
        .ok ((sliceTo (pySortBy Prod.snd ds) p').map Prod.fst) := by
      simp only [Ivf.probes, hds]
    rw [e1, e2]
    simp only [hst]
    rw [sliceTo_nonneg _ hp, sliceTo_nonneg _ (hp.trans hp')]
    set srt := pySortBy Prod.snd ds
    have hsplit : srt.take p'.toNat = srt.take env.nProbes.toNat ++
        (srt.take p'.toNat).drop env.nProbes.toNat := by
      have := List.take_append_drop env.nProbes.toNat (srt.take p'.toNat)
      rw [List.take_take, min_eq_left (by omega)] at this
      exact this.symm
    rw [hsplit, List.map_append, List.flatMap_append]
    generalize List.map Prod.fst (List.take env.nProbes.toNat srt) = ps
    generalize List.map Prod.fst (List.drop env.nProbes.toNat (List.take p'.toNat srt)) = ps2
    have hsubset : ∀ ps : List Nat, ∀ i ∈ ps.flatMap (Ivf.clu f.clusters), i ∈ Live.idsOf live := by
      intro ps i hi'
      obtain ⟨c, _, hc⟩ := List.mem_flatMap.1 hi'
      exact h.cl.sub i ((Ivf.mem_members h.cl.keys).2 ⟨c, hc⟩)
    obtain ⟨l, hl1, hl2⟩ := items_of_ids (live := live) _ (hsubset ps)
    obtain ⟨r, hr1, hr2⟩ := items_of_ids (live := live) _ (hsubset ps2)
    have := scanTop_noWorse hd h q k l r (fun x hx => by
      rcases List.mem_append.1 hx with hx | hx
      · exact hl2 x hx
      · exact hr2 x hx)
    rw [show Live.idsOf (l ++ r) = Live.idsOf l ++ Live.idsOf r from List.map_append, hl1, hr1] at this
    exact this
  · rw [if_pos (by simpa using ht), if_pos (by simpa using ht), hst, hids]
    have := scanTop_noWorse hd h q k live [] (fun x hx => by simpa using hx)
    rw [List.append_nil] at this
    exact this

end ivf

theorem addLoop_probes [LinearOrder D] (env : IvfEnv V D) (p : Int) (l : List Id) : ∀ f : Ivf V,
    Ivf.addLoop { env with nProbes := p } l f = Ivf.addLoop env l f := by
  induction l with
  | nil => intro f; rfl
  | cons id l ih =>
    intro f
    simp only [Ivf.addLoop]
    cases f.cache.get? id with
    | none => rfl
    | some v =>
      simp only
      rw [show Ivf.addToCluster { env with nProbes := p } id v f = Ivf.addToCluster env id v f from rfl]
      cases Ivf.addToCluster env id v f with
      | error e => rfl
      | ok g => exact ih g

theorem insert_probes [LinearOrder D] (env : IvfEnv V D) (p : Int) (nd : Nat) (rows : List (Id × V))
    (mds : Option (List (Option M))) (f : Ivf V) (s : σ) :
    Ivf.insert { env with nProbes := p } B nd rows mds f s = Ivf.insert env B nd rows mds f s := by
  simp only [Ivf.insert, addLoop_probes]
  rfl

theorem answers_by {X Y : Type} {L : Lawful B okId okM} {K : Lawful C okId' okM'}
    {P : Parts (X × σ) (IxCall V M) (FwdReply D M)} {Q : Parts (Y × τ) (IxCall V M) (FwdReply D M)}
    {fr : X → Prop} {fr' : Y → Prop} {I : List (Item V M) → X × σ → Prop}
    {J : List (Item V M) → Y × τ → Prop} {may may' : List (Item V M) → IxCall V M → Prop}
    {good good' : List (Item V M) → V → Int → List (Hit D M) → Prop} (hS : Serves L P fr I may good)
    (hT : Serves K Q fr' J may' good') {Same : X → Y → Prop} {R : DbAns D M → DbAns D M → Prop}
    (hst : ∀ live f s g t, I live (f, s) → J live (g, t) → Same f g → ∀ c, Live.CallOk okId okM live c →
      Live.CallOk okId' okM' live c →
      R (seen (.reply (P.request c (f, s)).1)) (seen (.reply (Q.request c (g, t)).1)) ∧
        Same (P.request c (f, s)).2.1 (Q.request c (g, t)).2.1)
    {vol vol' : Bool} (g : List (ClCall (IxCall V M))) :
    ∀ (live : List (Item V M)) (w : X × σ) (u : Y × τ), I live w → J live u → Same w.1 u.1 →
    OnlyRequests g → Db.HistOk okId okM vol ⟨true, live⟩ g → Db.HistOk okId' okM' vol' ⟨true, live⟩ g →
    List.Forall₂ R ((Client.converse P ⟨w, true⟩ g).1.map seen)
      ((Client.converse Q ⟨u, true⟩ g).1.map seen) := by
  induction g with
  | nil => intro live w u _ _ _ _ _ _; exact .nil
  | cons x g ih =>
    rintro live ⟨f, s⟩ ⟨f', t⟩ hi hj hsame hg ho ho'
    obtain ⟨c, rfl⟩ := hg x (by simp)
    obtain ⟨e1, e2⟩ := hst live f s f' t hi hj hsame c (ho.1 rfl) (ho'.1 rfl)
    exact .cons e1 (ih _ _ _ (hS.request hi c (ho.1 rfl)).2 (hT.request hj c (ho'.1 rfl)).2 e2
      (fun y hy => hg y (by simp [hy])) ho.2 ho'.2)

theorem ivf_opened [LinearOrder D] (L : Lawful B okId okM) (env : IvfEnv V D) (hk : Ivf.KMeansOk env)
    (hK : ∀ vs, vs ≠ [] → ∃ r, env.kmeans vs = .ok r) (s : σ) (hs : L.inv (B.init s))
    (hz : ∀ id, L.content (B.init s) id = none) :
    ∃ t, Client.ask (ivfParts env B) ⟨(Ivf.new, s), false⟩ .init =
      (.unit (.ok ()), ⟨(⟨none, [], [], [], 0, false, true⟩, t), true⟩) ∧
      Ivf.Inv L [] (⟨none, [], [], [], 0, false, true⟩, t) := by
  obtain ⟨s1, e1, -⟩ := list_empty L hs hz
  have i1 : Ivf.init env B Ivf.new (B.init s) = (.ok (), ⟨none, [], [], [], 0, false, true⟩, s1) := by
    simp [Ivf.init, e1, Ivf.train, Ivf.new, loadVecs]
  obtain ⟨w, l, k1, k2, k3⟩ := Ivf.opens (L := L) (env := env) hk hK hs
  obtain rfl := live_empty fun id => (k3 id).trans (hz id)
  rw [i1] at k1
  simp only [Prod.mk.injEq, true_and] at k1
  obtain rfl : w = _ := k1.symm
  refine ⟨s1, ?_, k2⟩
  have : Client.init (ivfParts env B) ⟨(Ivf.new, s), false⟩ =
      (.ok (), ⟨(⟨none, [], [], [], 0, false, true⟩, s1), true⟩) := by
    simp only [Client.init, Client.steps, ivfParts]
    erw [i1]
  simp only [Client.ask, this]

/-- **C230** Two IVF databases with the same data that differ in the number of probes only, on any
storages, for every history of requests: the one with more probes returns at least as many results for
every search, each at most as far as the result of the same rank of the other; all other answers are
equal. -/
theorem C230_probes [LinearOrder D] (L : Lawful B okId okM) (K : Lawful C okId' okM') (env : IvfEnv V D)
    (hk : Ivf.KMeansOk env) (hK : ∀ vs, vs ≠ [] → ∃ r, env.kmeans vs = .ok r) (d : V → V → D)
    (hd : ∀ a b, env.dist a b = .ok (d a b)) (hp : 0 ≤ env.nProbes) (p' : Int) (hp' : env.nProbes ≤ p')
    (vol vol' : Bool) (s : σ) (t : τ) (hs : L.inv (B.init s)) (ht : K.inv (C.init t))
    (hz : ∀ id, L.content (B.init s) id = none) (hz' : ∀ id, K.content (C.init t) id = none)
    (g : List (ClCall (IxCall V M))) (hg : OnlyRequests g)
    (hok : Db.HistOk okId okM vol ⟨true, []⟩ g) (hok' : Db.HistOk okId' okM' vol' ⟨true, []⟩ g) :
    List.Forall₂ DbAns.NoWorse
      ((Client.converse (ivfParts env B) ⟨(Ivf.new, s), false⟩ (.init :: g)).1.map seen)
      ((Client.converse (ivfParts { env with nProbes := p' } C) ⟨(Ivf.new, t), false⟩
        (.init :: g)).1.map seen) := by
  obtain ⟨s1, a1, i1⟩ := ivf_opened L env hk hK s hs hz
  obtain ⟨t1, a2, i2⟩ := ivf_opened K { env with nProbes := p' } hk hK t ht hz'
  simp only [Client.converse, a1, a2, List.map_cons]
  refine .cons (.inl rfl) ?_
  refine answers_by (Same := fun f g => Ivf.bare f = Ivf.bare g) (ivf_serves L env hk hK hp)
    (ivf_serves K { env with nProbes := p' } hk hK (hp.trans hp')) ?_ g [] _ _ i1 i2 rfl hg hok hok'
  intro live f s g t hi hj hb c hc hc'
  obtain ⟨h1, h2, h3, -⟩ := Ivf.call_oblivious env hi hj hb
  obtain ⟨-, -, -, h4⟩ := Ivf.call_oblivious { env with nProbes := p' } hi hj hb
  have h5 := (Ivf.call_oblivious env hi hj hb).2.2.2
  cases c with
  | insert nd rows mds =>
    have := fwd_twin (f := FwdReply.ids (D := D) (M := M)) (h1 nd rows mds hc hc').1
      (h1 nd rows mds hc hc').2
    rw [← insert_probes env p' nd rows mds g t] at this
    exact ⟨.inl (congrArg (fun r => seen (.reply r)) this.1), this.2⟩
  | delete ids =>
    have := fwd_twin (f := FwdReply.flag (D := D) (M := M)) (h2 ids hc hc').1 (h2 ids hc hc').2
    exact ⟨.inl (congrArg (fun r => seen (.reply r)) this.1), this.2⟩
  | update id v m =>
    have := fwd_twin (f := FwdReply.flag (D := D) (M := M)) (h3 id v m hc hc').1 (h3 id v m hc hc').2
    exact ⟨.inl (congrArg (fun r => seen (.reply r)) this.1), this.2⟩
  | search nd q k =>
    have e3 := (h5 nd q k).2.1
    have e4 := (h4 nd q k).2.2
    have e5 := (h4 nd q k).1
    have hred : ∀ (E : IvfEnv V D), (ivfParts E B).request (.search nd q k) (f, s) =
        fwd (FwdReply.hits (D := D) (M := M)) (Ivf.search E B nd q k f s) := fun _ => rfl
    have hred' : ∀ (E : IvfEnv V D), (ivfParts E C).request (.search nd q k) (g, t) =
        fwd (FwdReply.hits (D := D) (M := M)) (Ivf.search E C nd q k g t) := fun _ => rfl
    rw [hred, hred']
    refine ⟨?_, ?_⟩
    · by_cases hnd : nd = 1
      · subst hnd
        obtain ⟨l, l', x1, x2, x3⟩ := search_noWorse hd hp hp' hi q k
        rw [x2] at e5
        refine .inr ⟨l, l', ?_, ?_, x3⟩
        · revert x1
          rcases Ivf.search env B 1 q k f s with ⟨_ | y, z⟩
          · intro x1; cases x1
          · intro x1; cases x1; rfl
        · revert e5
          rcases Ivf.search { env with nProbes := p' } C 1 q k g t with ⟨_ | y, z⟩
          · intro x1; cases x1
          · intro x1; cases x1; rfl
      · left
        have hi0 : f.inited = true := hi.core.inited
        have hj0 : g.inited = true := hj.core.inited
        simp [Ivf.search, hi0, hj0, hnd, fwd, seen]
    · have : ∀ {σ : Type} (r : Res (Ivf V × σ) (List (Hit D M))),
          (fwd (FwdReply.hits (D := D) (M := M)) r).2 = r.2 := by
        rintro σ ⟨_ | _, _⟩ <;> rfl
      rw [this, this]
      exact e3.trans e4.symm

/-! ## HNSW: `ef_search` -/

section hnsw
variable [LinearOrder D] {L : Lawful B okId okM}

omit [LinearOrder D] in
theorem expand_append (dist : V → Except Err D) (vectors : Dict Id V) (lvl : Level)
    (a b : List (Id × D)) {x y : List (Id × D)} (ha : Hnsw.expand dist vectors lvl a = .ok x)
    (hb : Hnsw.expand dist vectors lvl b = .ok y) :
    Hnsw.expand dist vectors lvl (a ++ b) = .ok (x ++ y) := by
  induction a generalizing x with
  | nil =>
    simp only [Hnsw.expand, Except.ok.injEq] at ha
    subst ha
    exact hb
  | cons n a ih =>
    obtain ⟨n, d⟩ := n
    simp only [Hnsw.expand] at ha
    simp only [List.cons_append, Hnsw.expand]
    split at ha
    · cases ha
    · rename_i l hl
      split at ha
      · cases ha
      · rename_i l' hl'
        simp only [Except.ok.injEq] at ha
        rw [ih hl', ← ha, List.append_assoc]

/-- On a graph of at most two levels more candidates are a larger set of results. -/
theorem candidates_grow {env : HnswEnv V D} {live : List (Item V M)} {f : Hnsw V} (hg : Hnsw.Gr live f)
    {q : V} (hd : ∀ x ∈ live, ∃ d, env.dist q x.vec = .ok d) (h0 : 0 ≤ env.efSearch) {e' : Int}
    (he : env.efSearch ≤ e') (hm : f.maxLevel ≤ 1) :
    ∃ c c', Hnsw.candidates env q f = .ok c ∧ Hnsw.candidates { env with efSearch := e' } q f = .ok c' ∧
      c.Subperm c' := by
  have hv := hg.vec
  obtain ⟨c0, k0⟩ := Hnsw.entry_total (env := env) hv hd
    ((hg.level_keys (min f.maxLevel (f.levels.length - 1))).2)
  have k0' : Hnsw.entry { env with efSearch := e' } q f
      ((f.levels[min f.maxLevel (f.levels.length - 1)]?).getD []) = .ok c0 := k0
  simp only [Hnsw.candidates, k0, k0']
  generalize hcur : min f.maxLevel (f.levels.length - 1) = cur
  have hcur1 : cur ≤ 1 := by omega
  have ex : ∀ lvl cs, ∃ c, Hnsw.expand (env.dist q) f.vectors lvl cs = .ok c := by
    intro lvl cs; rw [hv]; exact Hnsw.expand_total hd lvl cs
  match cur, hcur1 with
  | 0, _ =>
    simp only [Hnsw.descend]
    by_cases hc : c0.isEmpty = true
    · rw [if_pos hc]; exact ⟨_, _, rfl, rfl, List.Subperm.refl _⟩
    · rw [if_neg hc]
      obtain ⟨x, hx⟩ := ex ((f.levels[0]?).getD []) c0
      simp only [hx]
      exact ⟨_, _, rfl, rfl, List.Subperm.refl _⟩
  | 1, _ =>
    obtain ⟨new, hnew⟩ := ex ((f.levels[1]?).getD []) c0
    simp only [Hnsw.descend, Nat.zero_add, hnew]
    rw [sliceTo_nonneg _ h0, sliceTo_nonneg _ (h0.trans he)]
    set srt := pySortBy Prod.snd new
    have hsplit : srt.take e'.toNat = srt.take env.efSearch.toNat ++
        (srt.take e'.toNat).drop env.efSearch.toNat := by
      have := List.take_append_drop env.efSearch.toNat (srt.take e'.toNat)
      rw [List.take_take, min_eq_left (by omega)] at this
      exact this.symm
    rw [hsplit]
    generalize srt.take env.efSearch.toNat = a
    generalize (srt.take e'.toNat).drop env.efSearch.toNat = b
    obtain ⟨x, hx⟩ := ex ((f.levels[0]?).getD []) a
    obtain ⟨y, hy⟩ := ex ((f.levels[0]?).getD []) b
    have hxy := expand_append _ _ _ a b hx hy
    simp only [hx, hxy]
    by_cases ha : a.isEmpty = true
    · rw [if_pos ha]
      by_cases hb : (a ++ b).isEmpty = true
      · rw [if_pos hb]; exact ⟨_, _, rfl, rfl, List.nil_subperm⟩
      · rw [if_neg hb]; exact ⟨_, _, rfl, rfl, List.nil_subperm⟩
    · rw [if_neg ha, if_neg (by cases a <;> simp_all)]
      refine ⟨_, _, rfl, rfl, ?_⟩
      have : (a ++ b ++ (x ++ y)).Perm ((a ++ x) ++ (b ++ y)) := by
        rw [List.append_assoc, List.append_assoc]
        refine List.Perm.append_left a ?_
        rw [← List.append_assoc, ← List.append_assoc]
        exact List.Perm.append_right y (List.perm_append_comm)
      exact (List.sublist_append_left (a ++ x) (b ++ y)).subperm.trans this.symm.subperm

/-- **C230** HNSW: after every history that leaves a graph whose highest level (as reported by the
statistics) is at most 1, a search with a larger `ef_search` is no worse.  Missing: graphs with more
levels, for which it is false. -/
theorem C230_ef_partial (L : Lawful B okId okM) (vol : Bool) (hR : Reopens L vol) (env : HnswEnv V D)
    (hd : ∀ a b, ∃ d, env.dist a b = .ok d) (h0 : 0 ≤ env.efSearch) (e' : Int) (he : env.efSearch ≤ e')
    (s : σ) (live : List (Item V M)) (hn : (live.map Item.id).Nodup) (hs : L.inv (B.init s))
    (hl : ∀ id, L.content (B.init s) id = Live.find live id) (h : List (ClCall (IxCall V M)))
    (hok : Db.HistOk okId okM vol ⟨false, live⟩ h) (hop : Db.OpensClosed vol ⟨false, live⟩ h)
    (m : Nat) (hm : (Client.converse (hnswParts env B) ⟨(Hnsw.new, s), false⟩ h).2.w.1.statMaxLevel = some m)
    (hm1 : m ≤ 1) (nd : Nat) (q : V) (k : Int) :
    let c := (Client.converse (hnswParts env B) ⟨(Hnsw.new, s), false⟩ h).2
    DbAns.NoWorse (seen (Client.ask (hnswParts env B) c (.request (.search nd q k))).1)
      (seen (Client.ask (hnswParts { env with efSearch := e' } B) c (.request (.search nd q k))).1) := by
  intro c
  obtain ⟨f1, f2, -⟩ := follows_after (hnsw_serves L env) hR h ⟨false, live⟩ ⟨(Hnsw.new, s), false⟩
    ⟨rfl, (fun h => by cases h), fun _ => ⟨⟨0, rfl⟩, hn, hs, hl⟩⟩ hok hop
  change c.inited = _ at f1
  change _ → ∃ live, _ ∧ Hnsw.Inv L live c.w at f2
  change c.w.1.statMaxLevel = some m at hm
  clear_value c
  obtain ⟨⟨f, s⟩, b⟩ := c
  cases b with
  | false => exact .inl rfl
  | true =>
    obtain ⟨live', -, hi⟩ := f2 f1.symm
    have hin : f.inited = true := hi.gr.inited
    have hred : ∀ (E : HnswEnv V D), (Client.ask (hnswParts E B) ⟨(f, s), true⟩
        (.request (.search nd q k))).1 =
        .reply (fwd (FwdReply.hits (D := D) (M := M)) (Hnsw.search E B nd q k f s)).1 := fun _ => rfl
    rw [hred, hred]
    by_cases hnd : nd = 1
    swap
    · left
      simp [Hnsw.search, hin, hnd, fwd, seen]
    subst hnd
    have hmax : f.maxLevel ≤ 1 := by
      simp only [Hnsw.statMaxLevel, hin, if_true, Option.some.injEq] at hm
      omega
    obtain ⟨r, s1, k1, -, k2, k3, -, k5⟩ := hi.search (env := env) q k
    obtain ⟨r', s1', k1', -, k2', k3', -, k5'⟩ := hi.search (env := { env with efSearch := e' }) q k
    rw [k1, k1']
    by_cases hlive : live' = []
    · rw [k3 hlive, k3' hlive]; exact .inl rfl
    obtain ⟨ca, ca', g1, g2, hsub⟩ := candidates_grow hi.gr (q := q) (fun x _ => hd q x.vec) h0 he hmax
    obtain ⟨hits, rfl⟩ := k5 ca g1
    obtain ⟨hits', rfl⟩ := k5' ca' g2
    obtain ⟨ca1, g3, rfl⟩ := k2 hits rfl hlive
    obtain ⟨ca2, g4, rfl⟩ := k2' hits' rfl hlive
    rw [g1] at g3
    rw [g2] at g4
    cases g3
    cases g4
    refine .inr ⟨_, _, rfl, rfl, ?_⟩
    have hmap : ∀ l : List (Id × D),
        (attachMd (V := V) (M := M) (Live.find live') l).map Hit.dist = l.map Prod.snd := by
      intro l; simp only [attachMd, List.map_map]; rfl
    rw [hmap, hmap]
    exact noWorse_sort hsub _

end hnsw

/-- Three vectors and a search. -/
def exApproxTail : List (ClCall (IxCall Nat Nat)) :=
  [.request (.insert 2 [("a", 3), ("b", 8), ("c", 31)] (some [some 1])), .request (.search 1 5 5)]

/-- The hypotheses of `C230_probes` and `C230_ef_partial` hold for example data, and a history in which
the second probe finds more. -/
example : Ivf.KMeansOk exIvfAll ∧ (∀ vs, vs ≠ [] → ∃ r, exIvfAll.kmeans vs = .ok r) ∧
    0 ≤ exIvfAll.nProbes ∧ (∀ a b, ∃ d, exHnswAll.dist a b = .ok d) ∧
    OnlyRequests exApproxTail ∧
    Db.HistOk (fun _ => True) (fun _ => True) true (⟨true, []⟩ : Db Nat Nat) exApproxTail ∧
    (Client.converse (ivfParts exIvfAll (memBackend Nat Nat)) ⟨(Ivf.new, Mem.new), false⟩
      (.init :: exApproxTail)).1.map seen =
      [.done, .ids ["a", "b", "c"], .hits [⟨"a", 2, some 1⟩, ⟨"b", 3, none⟩]] ∧
    (Client.converse (ivfParts exIvfTwo (memBackend Nat Nat)) ⟨(Ivf.new, Mem.new), false⟩
      (.init :: exApproxTail)).1.map seen =
      [.done, .ids ["a", "b", "c"], .hits [⟨"a", 2, some 1⟩, ⟨"b", 3, none⟩, ⟨"c", 26, none⟩]] ∧
    (Client.converse (hnswParts exHnswAll (memBackend Nat Nat)) ⟨(Hnsw.new, Mem.new), false⟩
      (.init :: exApproxTail)).2.w.1.statMaxLevel = some 0 := by
  refine ⟨?_, fun vs _ => ⟨_, rfl⟩, by decide, fun a b => ⟨_, rfl⟩, ?_, ?_, by decide +kernel,
    by decide +kernel, by decide +kernel⟩
  · intro vs cs ls h
    simp only [exIvfAll, Except.ok.injEq, Prod.mk.injEq] at h
    obtain ⟨rfl, rfl⟩ := h
    refine ⟨by simp, ?_⟩
    intro l hl
    obtain ⟨v, _, rfl⟩ := List.mem_map.1 hl
    split <;> simp
  · intro c hc
    simp only [exApproxTail, List.mem_cons, List.not_mem_nil, or_false] at hc
    rcases hc with rfl | rfl
    · exact ⟨_, rfl⟩
    · exact ⟨_, rfl⟩
  · simp [exApproxTail, Db.HistOk, Db.next, Live.CallOk, Live.next, Live.items, Live.has]

/-- Seven insertions with `m = 1`: the level and the one node sampled on each level. -/
def exHnswLevels (ef : Int) : HnswEnv Nat Nat where
  efSearch := ef
  dist a b := .ok ((a - b) + (b - a))
  rnd i := match i with
    | 0 => ⟨2, fun _ _ => ["e"]⟩
    | 1 => ⟨2, fun l _ => if l = 2 then ["e"] else ["x"]⟩
    | 2 => ⟨2, fun l _ => if l = 2 then ["e"] else ["y"]⟩
    | 3 => ⟨1, fun l _ => if l = 1 then ["x"] else ["z"]⟩
    | 4 => ⟨1, fun l _ => if l = 1 then ["y"] else ["v"]⟩
    | 5 => ⟨1, fun l _ => if l = 1 then ["y"] else ["w"]⟩
    | _ => ⟨0, fun _ _ => ["z"]⟩

def exHnswSeven : List (ClCall (IxCall Nat Nat)) :=
  [.init, .request (.insert 2 [("e", 100), ("x", 10), ("y", 20), ("z", 5), ("v", 3), ("w", 4), ("t", 1)]
    none)]

/-- **C230** For HNSW graphs of three levels the claim is false of the code: with `ef_search = 1` the
nearest vector is found, with `ef_search = 2` it is not. -/
theorem C230_ef_refuted :
    ¬ ∀ h : List (ClCall (IxCall Nat Nat)),
      Db.HistOk (fun _ => True) (fun _ => True) true ⟨false, []⟩ h → Db.OpensClosed true ⟨false, []⟩ h →
      let c := (Client.converse (hnswParts (exHnswLevels 1) (memBackend Nat Nat))
        ⟨(Hnsw.new, Mem.new), false⟩ h).2
      DbAns.NoWorse
        (seen (Client.ask (hnswParts (exHnswLevels 1) (memBackend Nat Nat)) c
          (.request (.search 1 0 1))).1)
        (seen (Client.ask (hnswParts (exHnswLevels 2) (memBackend Nat Nat)) c
          (.request (.search 1 0 1))).1) := by
  intro hall
  have h := hall exHnswSeven
    (by simp [exHnswSeven, Db.HistOk, Db.next, Live.CallOk, Live.has])
    (by simp [exHnswSeven, Db.OpensClosed, Db.next])
  simp only at h
  rw [show seen (Client.ask (hnswParts (exHnswLevels 1) (memBackend Nat Nat)) (Client.converse
      (hnswParts (exHnswLevels 1) (memBackend Nat Nat)) ⟨(Hnsw.new, Mem.new), false⟩ exHnswSeven).2
      (.request (.search 1 0 1))).1 = .hits [⟨"t", 1, none⟩] by decide +kernel,
    show seen (Client.ask (hnswParts (exHnswLevels 2) (memBackend Nat Nat)) (Client.converse
      (hnswParts (exHnswLevels 1) (memBackend Nat Nat)) ⟨(Hnsw.new, Mem.new), false⟩ exHnswSeven).2
      (.request (.search 1 0 1))).1 = .hits [⟨"v", 3, none⟩] by decide +kernel] at h
  rcases h with h | ⟨l, l', h1, h2, h3⟩
  · simp at h
  · cases h1
    cases h2
    have := h3.2 0 1 3 rfl rfl
    omega

/-! ## SAQ: `rescore_top_k` -/

theorem topIdx_noWorse [LinearOrder D] {dist : Nat → Option D} {cands cands' : List Nat} {k : Nat}
    {hits hits' : List (Nat × D)} (hsub : cands.Sublist cands')
    (h : IsTopIdx dist cands k hits) (h' : IsTopIdx dist cands' k hits') :
    NoWorse (hits.map Prod.snd) (hits'.map Prod.snd) := by
  refine ⟨?_, ?_⟩
  · have := hsub.length_le
    simp only [List.length_map, h.length, h'.length]; omega
  intro i x y hx hy
  by_contra hlt
  push Not at hlt
  simp only [List.getElem?_map, Option.map_eq_some_iff] at hx hy
  obtain ⟨p, hp, rfl⟩ := hx
  obtain ⟨p', hp', rfl⟩ := hy
  obtain ⟨hi, rfl⟩ := List.getElem?_eq_some_iff.1 hp
  obtain ⟨hi', rfl⟩ := List.getElem?_eq_some_iff.1 hp'
  have hin : ((hits.take (i + 1)).map Prod.fst) ⊆ (hits'.take i).map Prod.fst := by
    intro n hn
    obtain ⟨u, hu, rfl⟩ := List.mem_map.1 hn
    obtain ⟨j, hj, rfl⟩ := List.mem_iff_getElem.1 hu
    simp only [List.length_take, List.getElem_take] at hj ⊢
    have hle : (hits[j]'(by omega)).2 ≤ hits[i].2 := by
      rcases Nat.lt_or_ge j i with h1 | h1
      · exact List.pairwise_iff_getElem.1 h.sorted _ _ _ _ h1
      · have : j = i := by omega
        subst this; exact le_rfl
    obtain ⟨hc, hdist⟩ := h.sound _ (List.getElem_mem (show j < hits.length by omega))
    by_cases hmem : (hits[j]'(by omega)).1 ∈ hits'.map Prod.fst
    · obtain ⟨w, hw, he⟩ := List.mem_map.1 hmem
      obtain ⟨j', hj', rfl⟩ := List.mem_iff_getElem.1 hw
      have hd' := (h'.sound _ hw).2
      rw [he, hdist, Option.some.injEq] at hd'
      refine List.mem_map.2 ⟨_, List.mem_iff_getElem.2 ⟨j', ?_, ?_⟩, he⟩
      · rw [List.length_take]
        by_contra hge
        have hge : i ≤ j' := by omega
        have : hits'[i].2 ≤ hits'[j'].2 := by
          rcases hge.lt_or_eq with h1 | h1
          · exact List.pairwise_iff_getElem.1 h'.sorted _ _ _ _ h1
          · subst h1; exact le_rfl
        rw [← hd'] at this
        exact absurd (lt_of_le_of_lt (this.trans hle) hlt) (lt_irrefl _)
      · simp
    · have := h'.best _ (hsub.subset hc) hmem _ hdist _ (List.getElem_mem hi')
      exact absurd (lt_of_le_of_lt (this.trans hle) hlt) (lt_irrefl _)
  have hnd : ((hits.take (i + 1)).map Prod.fst).Nodup :=
    h.nodup.sublist ((List.take_sublist _ _).map _)
  have := (List.subperm_of_subset hnd hin).length_le
  simp only [List.length_map, List.length_take] at this
  omega

/-- **C230** SAQ: rescoring more candidates never makes the results worse, for every data set, query and
tie-breaking of the sort. -/
theorem C230_rescore {V C : Type} [LinearOrder D] (argsort : List D → List Nat) (ha : IsArgsort argsort)
    (cdist : C → Except Err D) (dist : V → D) (full : List V) (codes : List C)
    (hc : ∀ c ∈ codes, ∃ d, cdist c = .ok d) (hf : codes.length ≤ full.length) (r r' k : Nat)
    (hr : r ≤ r') :
    ∃ l l', saqSearch argsort cdist dist (some full) (r : Int) codes (k : Int) = .ok l ∧
      saqSearch argsort cdist dist (some full) (r' : Int) codes (k : Int) = .ok l' ∧
      NoWorse (l.map Prod.snd) (l'.map Prod.snd) := by
  obtain ⟨ca, h1, h2, h3, -⟩ := saqInitial_spec argsort ha cdist codes hc r
  obtain ⟨ca', h1', h2', h3', -⟩ := saqInitial_spec argsort ha cdist codes hc r'
  obtain ⟨l, g1, g2⟩ := saqRescore_spec argsort ha dist full ca h2
    (fun i hi => lt_of_lt_of_le (h3 i hi) hf) k
  obtain ⟨l', g1', g2'⟩ := saqRescore_spec argsort ha dist full ca' h2'
    (fun i hi => lt_of_lt_of_le (h3' i hi) hf) k
  refine ⟨l, l', by simp only [saqSearch, h1, g1], by simp only [saqSearch, h1', g1'],
    topIdx_noWorse ?_ g2 g2'⟩
  simp only [saqInitial] at h1 h1'
  cases hm : mapE cdist codes with
  | error e => rw [hm] at h1; cases h1
  | ok ds =>
    rw [hm] at h1 h1'
    simp only [Except.ok.injEq, sliceTo_nat] at h1 h1'
    rw [← h1, ← h1']
    have : List.take r (argsort ds) = List.take r (List.take r' (argsort ds)) := by
      rw [List.take_take, Nat.min_eq_left hr]
    rw [this]
    exact List.take_sublist _ _

/-- Two of four codes rescored, then all. -/
example : ∃ l l', saqSearch exArgsort (fun c : Nat => Except.ok c) Int.natAbs (some [5, -1, 3, 0])
      (2 : Nat) [4, 1, 0, 9] (1 : Nat) = .ok l ∧
    saqSearch exArgsort (fun c : Nat => Except.ok c) Int.natAbs (some [5, -1, 3, 0])
      (4 : Nat) [4, 1, 0, 9] (1 : Nat) = .ok l' ∧ NoWorse (l.map Prod.snd) (l'.map Prod.snd) :=
  C230_rescore exArgsort exArgsort_ok (fun c : Nat => Except.ok c) Int.natAbs [5, -1, 3, 0] [4, 1, 0, 9]
    (fun c _ => ⟨_, rfl⟩) (by decide) 2 4 1 (by decide)

end Valori.Props
