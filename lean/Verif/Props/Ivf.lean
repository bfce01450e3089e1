import Verif.Lemmas.IvfSearch
import Verif.Props.Flat

/-!
# Properties C15, C20 - C23: the IVF index

Over every lawful storage, every (partial) distance function into a linear order, every k-means
outcome that gives one label per vector (`Ivf.KMeansOk`).
-/

namespace Valori.Props
open Valori Valori.Spec

variable {σ V M D : Type} [LinearOrder D] {B : Backend σ V M} {okId : Id → Prop} {okM : M → Prop}

/-- A new IVF index, initialised on storage state `s` (training may happen). -/
def ivfOn (env : IvfEnv V D) (B : Backend σ V M) (s : σ) : Ivf V × σ :=
  (Ivf.init env B Ivf.new s).2

/-- The state after a history on a new index. -/
def ivfAfter (env : IvfEnv V D) (B : Backend σ V M) (s : σ) (h : List (IxCall V M)) : Ivf V × σ :=
  (Ivf.run env B (ivfOn env B s) h).2

/-- The ids `self.clusters[c]` lists. -/
def clusterIds (f : Ivf V) (c : Nat) : List String :=
  match f.clusters.get? c with | none => [] | some l => l

theorem clusterIds_eq (f : Ivf V) (c : Nat) : clusterIds f c = Ivf.clu f.clusters c := by
  simp only [clusterIds, Ivf.clu]; cases f.clusters.get? c <;> rfl

theorem ivfOn_inv {L : Lawful B okId okM} {env : IvfEnv V D} (hk : Ivf.KMeansOk env) {s : σ}
    {live : List (Item V M)} (hs : Holds L s live) :
    Ivf.Inv L live (ivfOn env B s) ∧ Ivf.Full live (ivfOn env B s).1 :=
  Ivf.init_inv hk (flatOn_inv hs)

theorem ivfAfter_inv {L : Lawful B okId okM} {env : IvfEnv V D} (hk : Ivf.KMeansOk env) {s : σ}
    {live : List (Item V M)} (hs : Holds L s live) {h : List (IxCall V M)}
    (hok : Live.HistOk okId okM live h) : Ivf.Inv L (Live.after live h) (ivfAfter env B s h) :=
  (Ivf.Inv.run hk h (ivfOn_inv hk hs).1 hok).1

/-! Concrete data: natural numbers, absolute difference, 1000 has another dimension. -/

def exIvf (probes : Int) : IvfEnv Nat Nat where
  nClusters := 2
  nProbes := probes
  dist a b := if a = 1000 ∨ b = 1000 then .error .value else .ok ((a - b) + (b - a))
  kmeans vs := if 1000 ∈ vs then .error .value
    else .ok ([10, 30], vs.map fun v => if v ≤ 20 then 0 else 1)

theorem exIvf_kmeans (n : Int) : Ivf.KMeansOk (exIvf n) := by
  intro vs cs ls h
  simp only [exIvf] at h
  split at h
  · cases h
  · cases h
    refine ⟨by simp, ?_⟩
    intro l hl
    obtain ⟨v, _, rfl⟩ := List.mem_map.1 hl
    split <;> simp

/-! ## C20 -/

/-- **C20** After any history, raising calls included, cluster members are live ids and no id is
listed twice, neither in one cluster nor in two. -/
theorem C20_ivf_members_live (L : Lawful B okId okM) (env : IvfEnv V D) (hk : Ivf.KMeansOk env)
    (s : σ) (live : List (Item V M)) (hs : Holds L s live) (h : List (IxCall V M))
    (hok : Live.HistOk okId okM live h) :
    let f := (ivfAfter env B s h).1
    (∀ c, ∀ id ∈ clusterIds f c, id ∈ (Live.after live h).map Item.id) ∧
    (∀ c, (clusterIds f c).Nodup) ∧
    (∀ id c c', id ∈ clusterIds f c → id ∈ clusterIds f c' → c = c') := by
  intro f
  have hinv : Ivf.Inv L (Live.after live h) (ivfAfter env B s h) := ivfAfter_inv hk hs hok
  simp only [clusterIds_eq]
  exact ⟨fun c id hid => hinv.cl.sub id ((Ivf.mem_members hinv.cl.keys).2 ⟨c, hid⟩),
    fun c => Ivf.clu_nodup hinv.cl.nd c, fun id c c' => Ivf.clu_disjoint hinv.cl.nd⟩

/-- **C20** (partial: histories in which no insert or update raised) While the index is trained,
every live id is in exactly one cluster, exactly once, and the sizes reported by
`cluster_stats` add up to the reported vector count. -/
theorem C20_ivf_partition_partial (L : Lawful B okId okM) (env : IvfEnv V D)
    (hk : Ivf.KMeansOk env) (s : σ) (live : List (Item V M)) (hs : Holds L s live)
    (h : List (IxCall V M)) (hok : Live.HistOk okId okM live h)
    (hclean : ∀ p ∈ h.zip (Ivf.run env B (ivfOn env B s) h).1, p.2 = .raised →
      ∃ n q k, p.1 = .search n q k) :
    let f := (ivfAfter env B s h).1
    f.trained = true →
    (∀ id, id ∈ (Live.after live h).map Item.id ↔ ∃ c, id ∈ clusterIds f c) ∧
    (∀ id c c', id ∈ clusterIds f c → id ∈ clusterIds f c' → c = c') ∧
    (∀ c, (clusterIds f c).Nodup) ∧
    f.statCount = some (f.clusterStats.map Prod.snd).sum ∧
    f.statCount = some (Live.after live h).length := by
  intro f ht
  have hrun := Ivf.Inv.run hk h (ivfOn_inv (env := env) hk hs).1 hok
  have hinv : Ivf.Inv L (Live.after live h) (ivfAfter env B s h) := ivfAfter_inv hk hs hok
  have hfull := hrun.2.1 (ivfOn_inv (env := env) hk hs).2 (by
    intro p hp hb
    rcases p with ⟨c, r⟩
    cases c <;> cases r <;> simp only [Ivf.badCall] at hb
    · obtain ⟨_, _, _, he⟩ := hclean _ hp rfl; cases he
    · obtain ⟨_, _, _, he⟩ := hclean _ hp rfl; cases he)
  obtain ⟨m1, m2, m3⟩ := C20_ivf_members_live L env hk s live hs h hok
  have hperm : (Ivf.members f.clusters).Perm ((Live.after live h).map Item.id) := by
    rw [List.perm_ext_iff_of_nodup hinv.cl.nd hinv.core.nd]
    exact fun id => ⟨hinv.cl.sub id, hfull ht id⟩
  have hcnt : f.statCount = some (Live.after live h).length := by
    have h1 : f.inited = true := hinv.core.inited
    have h2 : f.count = _ := hinv.cnt
    simp [Ivf.statCount, h1, h2]
  refine ⟨?_, m3, m2, ?_, hcnt⟩
  · intro id
    simp only [clusterIds_eq]
    rw [← Ivf.mem_members hinv.cl.keys, hperm.mem_iff]
  · rw [hcnt]
    have := hperm.length_eq
    simp only [Ivf.members, List.length_flatten, List.map_map, List.length_map] at this
    simp only [Ivf.clusterStats, List.map_map]
    rw [← this]
    rfl

/-- A history with training, insert, update, delete; nothing raises. -/
def exIvfHist : List (IxCall Nat Nat) :=
  [.insert 2 [("a", 12), ("b", 28), ("c", 9)] none, .insert 2 [("d", 31)] (some [some 4]),
   .update "a" 27 none, .delete ["b"]]

theorem exIvfHist_ok : Live.HistOk (fun _ => True) (fun _ => True) [] exIvfHist := by
  simp [exIvfHist, Live.HistOk, Live.CallOk, Live.next, Live.removeAll, Live.remove, Live.items,
    Live.has, Live.replace]

example : let f := (ivfAfter (exIvf 1) (memBackend Nat Nat) exMem exIvfHist).1
    f.trained = true ∧ clusterIds f 0 = ["c"] ∧ clusterIds f 1 = ["d", "a"] := by decide

example : (Ivf.run (exIvf 1) (memBackend Nat Nat)
    (ivfOn (exIvf 1) (memBackend Nat Nat) exMem) exIvfHist).1 =
    [.ids ["a", "b", "c"], .ids ["d"], .flag true, .flag true] := by decide

/-- **C20** (refuted) An update that raises (wrong dimension) takes the live id out of every
cluster although storage already holds the new vector; a search that looks at all clusters no
longer sees the id. -/
theorem C20_ivf_partition_refuted :
    let h : List (IxCall Nat Nat) := [.insert 2 [("a", 12), ("b", 28)] none, .update "a" 1000 none]
    let t := ivfAfter (exIvf 5) (memBackend Nat Nat) exMem h
    (Ivf.run (exIvf 5) (memBackend Nat Nat) (ivfOn (exIvf 5) (memBackend Nat Nat) exMem) h).1 =
      [.ids ["a", "b"], .raised] ∧
    t.1.trained = true ∧ (∀ c, "a" ∉ clusterIds t.1 c) ∧
    t.1.statCount = some 2 ∧
    ((memBackend Nat Nat).retrieve t.2 "a").1 = .ok (some (1000, none)) ∧
    (Ivf.search (exIvf 5) (memBackend Nat Nat) 1 12 5 t.1 t.2).1 = .ok [⟨"b", 16, none⟩] := by
  refine ⟨by decide, by decide, ?_, by decide, by decide, by decide⟩
  intro c
  have : (ivfAfter (exIvf 5) (memBackend Nat Nat) exMem
    [.insert 2 [("a", 12), ("b", 28)] none, .update "a" 1000 none]).1.clusters =
      [(0, []), (1, ["b"])] := by decide
  simp only [clusterIds, this, Dict.get?]
  by_cases h0 : 0 = c
  · simp [h0]
  · by_cases h1 : 1 = c
    · simp [h0, h1]
    · simp [h0, h1]

/-! ## C21 -/

/-- **C21** In every reachable state a search that returns gives at most `k` results with
distinct live ids, ordered by distance, with true distances and current metadata. -/
theorem C21_ivf_sound (L : Lawful B okId okM) (env : IvfEnv V D) (hk : Ivf.KMeansOk env)
    (hp : 0 ≤ env.nProbes) (s : σ) (live : List (Item V M)) (hs : Holds L s live)
    (h : List (IxCall V M)) (hok : Live.HistOk okId okM live h) (q : V) (k : Int) (hk0 : 0 ≤ k)
    (hits : List (Hit D M)) :
    let t := ivfAfter env B s h
    (Ivf.search env B 1 q k t.1 t.2).1 = .ok hits →
    hits.length ≤ k.toNat ∧ (hits.map Hit.id).Nodup ∧
    hits.Pairwise (fun a b => a.dist ≤ b.dist) ∧
    ∀ x ∈ hits, ∃ y ∈ Live.after live h, y.id = x.id ∧ env.dist q y.vec = .ok x.dist ∧
      x.md = y.md := by
  intro t heq
  have hinv : Ivf.Inv L (Live.after live h) (ivfAfter env B s h) := ivfAfter_inv hk hs hok
  obtain ⟨r, c, s', e, -, hr⟩ := hinv.search (env := env) q k
  rw [show Ivf.search env B 1 q k t.1 t.2 = _ from e] at heq
  obtain ⟨l, l1, l2, l3, l4, -, -⟩ := hr hits heq hp
  cases hits with
  | nil => simp
  | cons a rest =>
    let dq : V → D := fun v => match env.dist q v with | .ok d => d | .error _ => a.dist
    have hq : Extends (env.dist q) dq := by intro v d hv; simp [dq, hv]
    have ht := l4 hk0 dq hq
    refine ⟨?_, ht.nodup, ht.sorted, ?_⟩
    · have := ht.length; omega
    · intro x hx
      obtain ⟨y, y1, y2, y3, y4⟩ := ht.sound x hx
      obtain ⟨d, hd⟩ := l3 y y1
      refine ⟨y, l2 y y1, y2, ?_, y4⟩
      rw [y3, hq _ _ hd, hd]

example : (Ivf.search (exIvf 1) (memBackend Nat Nat) 1 30 2
    (ivfAfter (exIvf 1) (memBackend Nat Nat) exMem exIvfHist).1
    (ivfAfter (exIvf 1) (memBackend Nat Nat) exMem exIvfHist).2).1 =
    .ok [⟨"d", 1, some 4⟩, ⟨"a", 3, none⟩] := by decide

/-! ## C15 (IVF) -/

/-- **C15** (IVF) After a delete, no search returns the id until it is inserted again. -/
theorem C15_ivf_deleted_gone (L : Lawful B okId okM) (env : IvfEnv V D) (hk : Ivf.KMeansOk env)
    (hp : 0 ≤ env.nProbes) (s : σ) (live : List (Item V M)) (hs : Holds L s live)
    (h h' : List (IxCall V M)) (ids : List String) (id : String) (hid : id ∈ ids)
    (hok : Live.HistOk okId okM live (h ++ .delete ids :: h')) (hq : ∀ c ∈ h', ¬ inserts id c)
    (q : V) (k : Int) (hk0 : 0 ≤ k) (hits : List (Hit D M)) :
    let t := ivfAfter env B s (h ++ .delete ids :: h')
    (Ivf.search env B 1 q k t.1 t.2).1 = .ok hits → id ∉ hits.map Hit.id := by
  intro t heq hm
  obtain ⟨-, -, -, hsound⟩ := C21_ivf_sound L env hk hp s live hs _ hok q k hk0 hits heq
  obtain ⟨x, hx, rfl⟩ := List.mem_map.1 hm
  obtain ⟨y, hy, he, -, -⟩ := hsound x hx
  have : Live.after live (h ++ .delete ids :: h') =
      Live.after ((Live.removeAll (Live.after live h) ids).2) h' := by
    simp [Live.after, List.foldl_append, Live.next]
  rw [this] at hy
  exact after_not_mem _ _ (fun hm => (removeAll_sub _ _ _ hm).2 hid) h' hq
    (List.mem_map.2 ⟨y, hy, he⟩)

/-! ## C22 -/

/-- **C22** A search on an untrained index that returns is exact over the live vectors, for any
function `dq` that extends the distance to the query. -/
theorem C22_ivf_untrained_exact (L : Lawful B okId okM) (env : IvfEnv V D)
    (hk : Ivf.KMeansOk env) (hp : 0 ≤ env.nProbes) (s : σ) (live : List (Item V M))
    (hs : Holds L s live) (h : List (IxCall V M)) (hok : Live.HistOk okId okM live h) (q : V)
    (k : Int) (hk0 : 0 ≤ k) (dq : V → D) (hq : ∀ v d, env.dist q v = .ok d → dq v = d)
    (hits : List (Hit D M)) :
    let t := ivfAfter env B s h
    t.1.trained = false →
    (Ivf.search env B 1 q k t.1 t.2).1 = .ok hits →
    IsTopK dq (Live.after live h) k.toNat hits := by
  intro t ht heq
  have hinv : Ivf.Inv L (Live.after live h) (ivfAfter env B s h) := ivfAfter_inv hk hs hok
  obtain ⟨r, c, s', e, -, hr⟩ := hinv.search (env := env) q k
  rw [show Ivf.search env B 1 q k t.1 t.2 = _ from e] at heq
  obtain ⟨l, -, -, -, l4, l5, -⟩ := hr hits heq hp
  rw [← l5 ht]
  exact l4 hk0 dq hq

/-- **C22** On a trained index a search that returns is exact among the live vectors in the
probed clusters, and the probed clusters are those of `min n_probes (number of centroids)`
nearest centroids. -/
theorem C22_ivf_probed_exact (L : Lawful B okId okM) (env : IvfEnv V D) (hk : Ivf.KMeansOk env)
    (hp : 0 ≤ env.nProbes) (s : σ) (live : List (Item V M)) (hs : Holds L s live)
    (h : List (IxCall V M)) (hok : Live.HistOk okId okM live h) (q : V) (k : Int) (hk0 : 0 ≤ k)
    (dq : V → D) (hq : ∀ v d, env.dist q v = .ok d → dq v = d) (hits : List (Hit D M))
    (cs : List V) (hne : Live.after live h ≠ []) :
    let t := ivfAfter env B s h
    t.1.trained = true → t.1.cents = some cs →
    (Ivf.search env B 1 q k t.1 t.2).1 = .ok hits →
    ∃ ps : List Nat, ps.Nodup ∧ ps.length = min env.nProbes.toNat cs.length ∧
      (∀ i ∈ ps, i < cs.length) ∧
      (∀ i ∈ ps, ∀ j ∉ ps, ∀ v w, cs[i]? = some v → cs[j]? = some w → ∀ d d',
        env.dist q v = .ok d → env.dist q w = .ok d' → d ≤ d') ∧
      IsTopK dq ((Live.after live h).filter fun x => ps.any fun c => x.id ∈ clusterIds t.1 c)
        k.toNat hits := by
  intro t ht hc heq
  have hinv : Ivf.Inv L (Live.after live h) (ivfAfter env B s h) := ivfAfter_inv hk hs hok
  obtain ⟨r, c, s', e, -, hr⟩ := hinv.search (env := env) q k
  rw [show Ivf.search env B 1 q k t.1 t.2 = _ from e] at heq
  obtain ⟨l, l1, l2, -, l4, -, l6⟩ := hr hits heq hp
  obtain ⟨cs', ps, g1, g2, g3⟩ := l6 ht hne
  have g1' : some cs = some cs' := by rw [← hc]; exact g1
  cases g1'
  obtain ⟨hn, -⟩ := Ivf.probes_spec hp g2
  refine ⟨ps, hn.nodup, hn.length, hn.lt, ?_, ?_⟩
  · intro i hi j hj v w hv hw d d' hd hd'
    exact hn.best i hi j v w d d' hj hv hw hd hd'
  · have htop := l4 hk0 dq hq
    have hperm : l.Perm ((Live.after live h).filter
        fun x => ps.any fun c => x.id ∈ clusterIds t.1 c) := by
      rw [List.perm_ext_iff_of_nodup (List.Nodup.of_map _ l1)
        ((List.Nodup.of_map _ hinv.core.nd).filter _)]
      intro x
      simp only [List.mem_filter, List.any_eq_true, decide_eq_true_eq, clusterIds_eq]
      constructor
      · intro hx
        have : x.id ∈ Live.idsOf l := List.mem_map.2 ⟨x, hx, rfl⟩
        rw [g3, List.mem_flatMap] at this
        exact ⟨l2 x hx, this⟩
      · rintro ⟨hx, hx'⟩
        have : x.id ∈ Live.idsOf l := by rw [g3, List.mem_flatMap]; exact hx'
        obtain ⟨y, hy, he⟩ := List.mem_map.1 this
        rw [← Live.eq_of_id hinv.core.nd (l2 y hy) hx he]; exact hy
    exact ⟨by rw [htop.length, hperm.length_eq], htop.nodup, htop.sorted,
      fun a ha => by
        obtain ⟨x, hx, h'⟩ := htop.sound a ha
        exact ⟨x, hperm.mem_iff.1 hx, h'⟩,
      fun x hx => htop.best x (hperm.mem_iff.2 hx)⟩

/-- **C22** With at least as many probes as centroids, and no raising insert or update before,
a search that returns is exact over all live vectors. -/
theorem C22_ivf_all_probes_exact (L : Lawful B okId okM) (env : IvfEnv V D)
    (hk : Ivf.KMeansOk env) (s : σ) (live : List (Item V M)) (hs : Holds L s live)
    (h : List (IxCall V M)) (hok : Live.HistOk okId okM live h)
    (hclean : ∀ p ∈ h.zip (Ivf.run env B (ivfOn env B s) h).1, p.2 = .raised →
      ∃ n q k, p.1 = .search n q k)
    (q : V) (k : Int) (hk0 : 0 ≤ k) (dq : V → D) (hq : ∀ v d, env.dist q v = .ok d → dq v = d)
    (hits : List (Hit D M)) (cs : List V) :
    let t := ivfAfter env B s h
    t.1.trained = true → t.1.cents = some cs → (cs.length : Int) ≤ env.nProbes →
    (Ivf.search env B 1 q k t.1 t.2).1 = .ok hits →
    IsTopK dq (Live.after live h) k.toNat hits := by
  intro t ht hc hp heq
  have hp0 : 0 ≤ env.nProbes := by omega
  by_cases hne : Live.after live h = []
  · have hinv := ivfAfter_inv (env := env) hk hs hok
    obtain ⟨r, c, s', e, -, hr⟩ := hinv.search (env := env) q k
    rw [show Ivf.search env B 1 q k t.1 t.2 = _ from e] at heq
    obtain ⟨l, -, l2, -, l4, -, -⟩ := hr hits heq hp0
    have : l = [] := by
      rw [hne] at l2
      cases l with
      | nil => rfl
      | cons a l => exact absurd (l2 a (by simp)) (by simp)
    subst this
    rw [hne]
    exact l4 hk0 dq hq
  · obtain ⟨ps, p1, p2, p3, -, p5⟩ := C22_ivf_probed_exact L env hk hp0 s live hs h hok q k hk0 dq hq
      hits cs hne ht hc heq
    obtain ⟨f1, -, -, -, -⟩ := C20_ivf_partition_partial L env hk s live hs h hok hclean ht
    have hall : ∀ i, i < cs.length → i ∈ ps := by
      have hlen : ps.length = cs.length := by rw [p2]; omega
      have hsub : ps.Subperm (List.range cs.length) :=
        List.subperm_of_subset p1 (fun i hi => List.mem_range.2 (p3 i hi))
      have := hsub.perm_of_length_le (by simp [hlen])
      intro i hi
      exact this.mem_iff.2 (List.mem_range.2 hi)
    have hinv : Ivf.Inv L (Live.after live h) (ivfAfter env B s h) := ivfAfter_inv hk hs hok
    have : ((Live.after live h).filter fun x => ps.any fun c => x.id ∈ clusterIds t.1 c) =
        Live.after live h := by
      rw [List.filter_eq_self]
      intro x hx
      obtain ⟨c, hcx⟩ := (f1 x.id).1 (List.mem_map.2 ⟨x, hx, rfl⟩)
      simp only [List.any_eq_true, decide_eq_true_eq]
      refine ⟨c, hall c ?_, hcx⟩
      obtain ⟨cs', e1, -, e2⟩ := hinv.cl.tr ht
      rw [show (ivfAfter env B s h).1.cents = some cs from hc] at e1
      cases e1
      rw [clusterIds_eq] at hcx
      exact e2 c (Ivf.clu_key hcx)
    rw [this] at p5
    exact p5

/-- Hypotheses of the three C22 theorems are met: two probes see everything, one does not. -/
example : (Ivf.search (exIvf 2) (memBackend Nat Nat) 1 17 3
    (ivfAfter (exIvf 2) (memBackend Nat Nat) exMem exIvfHist).1
    (ivfAfter (exIvf 2) (memBackend Nat Nat) exMem exIvfHist).2).1 =
      .ok [⟨"c", 8, none⟩, ⟨"a", 10, none⟩, ⟨"d", 14, some 4⟩] ∧
    (Ivf.search (exIvf 1) (memBackend Nat Nat) 1 17 3
    (ivfAfter (exIvf 1) (memBackend Nat Nat) exMem exIvfHist).1
    (ivfAfter (exIvf 1) (memBackend Nat Nat) exMem exIvfHist).2).1 = .ok [⟨"c", 8, none⟩] := by
  decide

/-! ## C23 -/

/-- `c` is the first centroid at the smallest distance from `v`. -/
def IsNearest (dist : V → Except Err D) (cs : List V) (c : Nat) : Prop :=
  ∃ v d, cs[c]? = some v ∧ dist v = .ok d ∧
    ∀ (j : Nat) w d', cs[j]? = some w → dist w = .ok d' → d ≤ d' ∧ (j < c → d < d')

/-- **C23** On a trained index, a successful insert puts every row, and a successful update puts
the updated vector, in the cluster of its nearest centroid; other ids stay where they were. -/
theorem C23_ivf_nearest_cluster (L : Lawful B okId okM) (env : IvfEnv V D)
    (hk : Ivf.KMeansOk env) (s : σ) (live : List (Item V M)) (hs : Holds L s live)
    (h : List (IxCall V M)) (hok : Live.HistOk okId okM live h) (cs : List V) :
    let t := ivfAfter env B s h
    t.1.trained = true → t.1.cents = some cs →
    (∀ rows mds l, Live.CallOk okId okM (Live.after live h) (.insert 2 rows mds) →
      (Ivf.insert env B 2 rows mds t.1 t.2).1 = .ok l →
      let f := (Ivf.insert env B 2 rows mds t.1 t.2).2.1
      (∀ r ∈ rows, ∃ c, IsNearest (env.dist r.2) cs c ∧ r.1 ∈ clusterIds f c) ∧
      ∀ id c, id ∈ clusterIds t.1 c → id ∈ clusterIds f c) ∧
    (∀ id v m, Live.CallOk okId okM (Live.after live h) (.update id v m) →
      (Ivf.update env B id v m t.1 t.2).1 = .ok true →
      let f := (Ivf.update env B id v m t.1 t.2).2.1
      (∃ c, IsNearest (env.dist v) cs c ∧ id ∈ clusterIds f c) ∧
      ∀ id' c, id' ≠ id → id' ∈ clusterIds t.1 c → id' ∈ clusterIds f c) := by
  intro t ht hc
  have hinv : Ivf.Inv L (Live.after live h) (t.1, t.2) := ivfAfter_inv (env := env) hk hs hok
  simp only [clusterIds_eq]
  refine ⟨?_, ?_⟩
  · intro rows mds l hcall hl
    obtain ⟨-, -, -, h4⟩ := hinv.insert (env := env) hk hcall
    obtain ⟨-, -, h5, h6⟩ := h4 ht
    exact ⟨fun r hr => h6 l cs hl hc r.1 r.2 hr, h5⟩
  · intro id v m hcall hl
    obtain ⟨-, -, -, h4⟩ := hinv.update (env := env) v hcall.1 hcall.2
    obtain ⟨-, -, h5, h6⟩ := h4 ht
    exact ⟨h6 cs hl hc, h5⟩

/-- **C23** After a successful insert of `(id, v)` on a trained index and any further history
that neither deletes nor updates `id`, a query equal to `v` with at least one probe and `k` at
least the number of live vectors finds `id`. -/
theorem C23_ivf_self_query (L : Lawful B okId okM) (env : IvfEnv V D) (hk : Ivf.KMeansOk env)
    (hp : 1 ≤ env.nProbes) (s : σ) (live : List (Item V M)) (hs : Holds L s live)
    (h h' : List (IxCall V M)) (rows : List (String × V)) (mds : Option (List (Option M)))
    (id : String) (v : V) (hr : (id, v) ∈ rows)
    (hok : Live.HistOk okId okM live (h ++ .insert 2 rows mds :: h'))
    (hins : ∃ l, (Ivf.call env B (ivfAfter env B s h) (.insert 2 rows mds)).1 = .ids l)
    (hq : ∀ c ∈ h', (∀ ids, c = .delete ids → id ∉ ids) ∧ ∀ i w m, c = .update i w m → i ≠ id)
    (htr : (ivfAfter env B s h).1.trained = true)
    (k : Int) (hits : List (Hit D M)) :
    let t := ivfAfter env B s (h ++ .insert 2 rows mds :: h')
    ((Live.after live (h ++ .insert 2 rows mds :: h')).length : Int) ≤ k →
    (Ivf.search env B 1 v k t.1 t.2).1 = .ok hits → id ∈ hits.map Hit.id := by
  intro t hk0 heq
  have hsplit : ∀ (a b : List (IxCall V M)) (l : List (Item V M)),
      Live.HistOk okId okM l (a ++ b) → Live.HistOk okId okM l a ∧
        Live.HistOk okId okM (Live.after l a) b := by
    intro a
    induction a with
    | nil => intro b l h; exact ⟨trivial, h⟩
    | cons c a ih => intro b l h; exact ⟨⟨h.1, (ih b _ h.2).1⟩, (ih b _ h.2).2⟩
  have hrun : ∀ (a b : List (IxCall V M)) (t : Ivf V × σ),
      (Ivf.run env B t (a ++ b)).2 = (Ivf.run env B (Ivf.run env B t a).2 b).2 := by
    intro a
    induction a with
    | nil => intro b t; rfl
    | cons c a ih => intro b t; simp only [List.cons_append, Ivf.run]; exact ih b _
  obtain ⟨ho1, ho2⟩ := hsplit _ _ _ hok
  have hinv : Ivf.Inv L (Live.after live h) (ivfAfter env B s h) := ivfAfter_inv hk hs ho1
  obtain ⟨cs, hcs, hcne, -⟩ := hinv.cl.tr htr
  set t1 := (Ivf.call env B (ivfAfter env B s h) (.insert 2 rows mds)).2 with ht1
  have hcall := hinv.call (env := env) hk (.insert 2 rows mds) ho2.1
  obtain ⟨-, -, -, h4⟩ := Ivf.Inv.insert (env := env) (f := (ivfAfter env B s h).1)
    (s := (ivfAfter env B s h).2) hk hinv ho2.1
  obtain ⟨k1, k2, -, k4⟩ := h4 htr
  have hcl1 : ∃ c, Ivf.FirstNearest (env.dist v) cs c ∧ id ∈ Ivf.clu t1.1.clusters c := by
    obtain ⟨l, hl⟩ := hins
    simp only [Ivf.call] at hl ht1
    cases hi : Ivf.insert env B 2 rows mds (ivfAfter env B s h).1 (ivfAfter env B s h).2 with
    | mk q t' =>
    rw [hi] at hl ht1 k4
    cases q with
    | error e => simp at hl
    | ok l' =>
      simp only at ht1
      rw [ht1]
      exact k4 l' cs rfl hcs id v hr
  obtain ⟨c, hc1, hc2⟩ := hcl1
  have htr1 : t1.1.trained = true ∧ t1.1.cents = some cs := by
    obtain ⟨g1, g2, -⟩ := hcall.2.2.1 htr
    exact ⟨g1, by rw [ht1, g2, hcs]⟩
  have hteq : t = (Ivf.run env B t1 h').2 := by
    simp only [t, ivfAfter]
    rw [hrun]; rfl
  obtain ⟨r1, -, r3, -⟩ := Ivf.Inv.run (env := env) hk h' hcall.1 ho2.2
  obtain ⟨q1, q2, q3⟩ := r3 htr1.1
  have hmem : id ∈ Ivf.clu t.1.clusters c := by
    rw [hteq]
    refine q3 id c ?_ hc2
    intro c' hc' htch
    obtain ⟨a1, a2⟩ := hq c' hc'
    cases c' with
    | delete ids => exact a1 ids rfl htch
    | update i w m => exact a2 i w m rfl htch
    | insert => exact htch
    | search => exact htch
  have hinvt : Ivf.Inv L (Live.after live (h ++ .insert 2 rows mds :: h')) t :=
    ivfAfter_inv hk hs hok
  have hlive := hinvt.cl.sub id ((Ivf.mem_members hinvt.cl.keys).2 ⟨c, hmem⟩)
  have hne : Live.after live (h ++ .insert 2 rows mds :: h') ≠ [] := by
    intro he; rw [he] at hlive; simp at hlive
  obtain ⟨r, c', s', e, -, hr'⟩ := Ivf.Inv.search (env := env) (f := t.1) (s := t.2) hinvt v k
  rw [e] at heq
  obtain ⟨l, l1, l2, l3, l4, -, l6⟩ := hr' hits heq (by omega)
  obtain ⟨cs', ps, g1, g2, g3⟩ := l6 (by rw [hteq]; exact q1) hne
  rw [hteq, q2, htr1.2] at g1
  cases g1
  have hcp : c ∈ ps := (Ivf.probes_spec (by omega) g2).2 c hp hc1
  have hidl : id ∈ Live.idsOf l := by
    rw [g3, List.mem_flatMap]; exact ⟨c, hcp, hmem⟩
  obtain ⟨y, hy, rfl⟩ := List.mem_map.1 hidl
  obtain ⟨d, hd⟩ := l3 y hy
  let dq : V → D := fun w => match env.dist v w with | .ok d => d | .error _ => d
  have htop := l4 (by omega) dq (by intro w d' hw; simp [dq, hw])
  -- all candidates are returned
  have hlen : l.length ≤ k.toNat := by
    have : (Live.idsOf l).Subperm (Live.idsOf (Live.after live (h ++ .insert 2 rows mds :: h'))) :=
      List.subperm_of_subset l1 (by
        intro i hi
        obtain ⟨x, hx, rfl⟩ := List.mem_map.1 hi
        exact List.mem_map.2 ⟨x, l2 x hx, rfl⟩)
    have := this.length_le
    simp only [Live.idsOf, List.length_map] at this
    omega
  have hsub : (hits.map Hit.id).Subperm (Live.idsOf l) :=
    List.subperm_of_subset htop.nodup (by
      intro i hi
      obtain ⟨x, hx, rfl⟩ := List.mem_map.1 hi
      obtain ⟨z, hz, hz', -⟩ := htop.sound x hx
      exact List.mem_map.2 ⟨z, hz, hz'⟩)
  have hperm := hsub.perm_of_length_le (by
    have := htop.length
    simp only [Live.idsOf, List.length_map]; omega)
  exact hperm.mem_iff.2 (List.mem_map.2 ⟨y, hy, rfl⟩)

/-- Hypotheses of C23 are met: a trained index, a row equally near to both centroids. -/
example : let h : List (IxCall Nat Nat) := [.insert 2 [("a", 12), ("b", 28)] none]
    let t := ivfAfter (exIvf 1) (memBackend Nat Nat) exMem
      (h ++ [.insert 2 [("e", 20)] none, .delete ["b"]])
    (ivfAfter (exIvf 1) (memBackend Nat Nat) exMem h).1.trained = true ∧
    (Ivf.search (exIvf 1) (memBackend Nat Nat) 1 20 2 t.1 t.2).1 =
      .ok [⟨"e", 0, none⟩, ⟨"a", 8, none⟩] := by decide

end Valori.Props
