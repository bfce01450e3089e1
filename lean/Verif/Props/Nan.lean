import Verif.Lemmas.Nan
import Verif.Props.Ivf
import Verif.Props.Hnsw
import Verif.Props.IndexContract

/-!
# Property C212: a vector that is not finite

Distances live in `WithTop D`, `⊤` being NaN (`Model/Nan.lean`); `srt` is any sort that behaves as
Python's on lists with NaN keys.  Histories hold no searches: a search on IVF or HNSW changes nothing
but the cache.
-/

namespace Valori.Props
open Valori Valori.Spec

variable {σ V M D : Type} [LinearOrder D] {B : Backend σ V M} {okId : Id → Prop} {okM : M → Prop}

/-- No call of the history is a search. -/
def NoSearch (h : List (IxCall V M)) : Prop := ∀ c ∈ h, ∀ n q k, c ≠ .search n q k

/-! ## Concrete data

Vectors are numbers; 1000 stands for a vector with a NaN in it. -/

instance (a b : WithTop D) : Decidable (ltNan a b) := by unfold ltNan; infer_instance

/-- One sort with the assumed properties. -/
def exNanSort (D : Type) [LinearOrder D] : NanSort D where
  sort l :=
    if l.IsChain (fun a b => ¬ ltNan b.2 a.2) then l
    else if ∀ x ∈ l, x.2 ≠ ⊤ then pySortBy Prod.snd l else l
  perm l := by
    split
    · exact List.Perm.refl _
    · split
      · exact pySortBy_perm _ _
      · exact List.Perm.refl _
  run l h := by simp only [h, if_true]
  numbers {α} l h := by
    split
    · rename_i hc
      have hc' : l.IsChain (fun a b => a.2 ≤ b.2) := by
        refine List.IsChain.imp_of_mem_imp ?_ hc
        intro a b ha _ hab
        by_contra hlt
        exact hab ⟨h a ha, lt_of_not_ge hlt⟩
      have hp : l.Pairwise (fun a b => a.2 ≤ b.2) := by
        have : IsTrans (α × WithTop D) (fun a b : α × WithTop D => a.2 ≤ b.2) := ⟨fun _ _ _ => le_trans⟩
        exact List.isChain_iff_pairwise.1 hc'
      exact (List.Pairwise.insertionSort_eq hp).symm
    · rfl

/-- Distances of numbers and of vectors with a NaN. -/
def nanDist (a b : Nat) : Except Err (WithTop Nat) :=
  if a = 1000 ∨ b = 1000 then .ok ⊤ else .ok (((a - b) + (b - a) : Nat) : WithTop Nat)

/-- IVF over such vectors; k-means raises when there is a NaN. -/
def exNanIvf (n : Int) : IvfEnv Nat (WithTop Nat) where
  nClusters := n
  nProbes := 1
  dist := nanDist
  kmeans vs := if 1000 ∈ vs then .error .value else .ok ([10], vs.map fun _ => 0)

theorem exNanIvf_kmeans (n : Int) : Ivf.KMeansOk (exNanIvf n) := by
  intro vs cs ls h
  simp only [exNanIvf] at h
  split at h
  · cases h
  · cases h
    simp

def exNanHnsw : HnswEnv Nat (WithTop Nat) where
  efSearch := 50
  dist := nanDist
  rnd _ := ⟨0, fun _ l => l⟩

/-- A far vector, one with a NaN, a near one. -/
def exNanHist : List (IxCall Nat Nat) :=
  [.insert 2 [("far", 50), ("bad", 1000), ("near", 1)] (some [some 7])]

theorem exNanHist_ok : Live.HistOk (fun _ => True) (fun _ => True) [] exNanHist := by
  simp [exNanHist, Live.HistOk, Live.CallOk, Live.has]

theorem exNanHist_noSearch : NoSearch exNanHist := by
  intro c hc n q k he
  simp only [exNanHist, List.mem_singleton] at hc
  rw [hc] at he
  cases he

/-! ## IVF -/

/-- **C212** (partial: the order is missing, see `C212_ivf_order_refuted`) Whatever NaNs are stored or
searched for, an answer of an IVF index holds at most `k` different live ids, each with its distance
and current metadata; an untrained index always answers, with all live vectors when `k` allows. -/
theorem C212_ivf_sound_partial (L : Lawful B okId okM) (srt : NanSort D) (env : IvfEnv V (WithTop D))
    (hk : Ivf.KMeansOk env) (s : σ) (live : List (Item V M)) (hs : Holds L s live)
    (h : List (IxCall V M)) (hok : Live.HistOk okId okM live h) (_hns : NoSearch h) (q : V) (k : Int)
    (hk0 : 0 ≤ k) :
    let t := ivfAfter env B s h
    (∀ hits, (Ivf.searchNan srt env B 1 q k t.1 t.2).1 = .ok hits →
      hits.length ≤ k.toNat ∧ (hits.map Hit.id).Nodup ∧
      (∀ x ∈ hits, ∃ y ∈ Live.after live h, y.id = x.id ∧ env.dist q y.vec = .ok x.dist ∧
        x.md = y.md) ∧
      (t.1.trained = false → ((Live.after live h).length : Int) ≤ k →
        ∀ y ∈ Live.after live h, y.id ∈ hits.map Hit.id)) ∧
    (t.1.trained = false → (∀ y ∈ Live.after live h, ∃ d, env.dist q y.vec = .ok d) →
      ∃ hits, (Ivf.searchNan srt env B 1 q k t.1 t.2).1 = .ok hits) := by
  intro t
  have hinv : Ivf.Inv L (Live.after live h) (ivfAfter env B s h) := ivfAfter_inv hk hs hok
  obtain ⟨r, c, s', e, -, hr, htot, -⟩ := hinv.searchNan srt (env := env) q k
  rw [show Ivf.searchNan srt env B 1 q k t.1 t.2 = _ from e]
  refine ⟨?_, htot⟩
  intro hits hh
  obtain ⟨l, ds, hnd, hsub, hds, rfl, hl⟩ := hr hits hh
  have hids : ((srt.sort ds).map Prod.fst).Perm (Live.idsOf l) := by
    rw [← scanRes_ids hds]; exact (srt.perm ds).map _
  have hmap : (attachMd (Live.find (Live.after live h)) (sliceTo (srt.sort ds) k)).map Hit.id =
      ((srt.sort ds).map Prod.fst).take k.toNat := by
    rw [sliceTo_nonneg _ hk0, List.map_take.symm]
    simp [attachMd, List.map_map, Function.comp_def, List.map_take]
  refine ⟨?_, ?_, ?_, ?_⟩
  · have := congrArg List.length hmap
    simp only [List.length_map, List.length_take] at this
    omega
  · rw [hmap]
    exact (hids.nodup_iff.2 hnd).sublist (List.take_sublist _ _)
  · intro x hx
    obtain ⟨y, hy, rfl⟩ := List.mem_map.1 hx
    obtain ⟨z, hz, e1, e2⟩ := scanRes_mem hds y (srt.mem.1 ((sliceTo_sublist _ _).subset hy))
    refine ⟨z, hsub z hz, e1, e2, ?_⟩
    simp only
    rw [← e1, Live.find_mem hinv.core.nd (hsub z hz)]
    rfl
  · intro ht hle y hy
    have hll := hl ht
    subst hll
    rw [hmap, List.take_of_length_le (by
      rw [hids.length_eq]; simp only [Live.idsOf, List.length_map]; omega)]
    exact hids.mem_iff.2 (List.mem_map_of_mem hy)

example : (Ivf.searchNan (exNanSort Nat) (exNanIvf 9) (memBackend Nat Nat) 1 0 3
    (ivfAfter (exNanIvf 9) (memBackend Nat Nat) exMem exNanHist).1
    (ivfAfter (exNanIvf 9) (memBackend Nat Nat) exMem exNanHist).2).1 =
    .ok [⟨"far", (50 : Nat), some 7⟩, ⟨"bad", ⊤, none⟩, ⟨"near", (1 : Nat), none⟩] := by decide

/-- **C212** While the distances of a query to the live vectors and centroids are numbers, the
search is the one of C20 to C23, whatever else is stored. -/
theorem C212_ivf_numbers (L : Lawful B okId okM) (srt : NanSort D) (env : IvfEnv V (WithTop D))
    (hk : Ivf.KMeansOk env) (s : σ) (live : List (Item V M)) (hs : Holds L s live)
    (h : List (IxCall V M)) (hok : Live.HistOk okId okM live h) (_hns : NoSearch h) (nd : Nat) (q : V)
    (k : Int) :
    let t := ivfAfter env B s h
    (∀ y ∈ Live.after live h, env.dist q y.vec ≠ .ok ⊤) →
    (∀ cs, t.1.cents = some cs → ∀ c ∈ cs, env.dist q c ≠ .ok ⊤) →
    Ivf.searchNan srt env B nd q k t.1 t.2 = Ivf.search env B nd q k t.1 t.2 := by
  intro t h1 h2
  by_cases hnd : nd ≠ 1
  · simp [Ivf.searchNan, Ivf.search, hnd]
  obtain rfl : nd = 1 := not_not.1 hnd
  have hinv : Ivf.Inv L (Live.after live h) (ivfAfter env B s h) := ivfAfter_inv hk hs hok
  obtain ⟨r, c, s', e, -, -, -, hag⟩ := hinv.searchNan srt (env := env) q k
  exact hag h1 h2

/-- **C212** What an untrained IVF index answers when no live vector is nearer than the one inserted
before it, NaN being neither nearer nor farther than anything: the oldest `k` live vectors. -/
theorem C212_ivf_unsorted (L : Lawful B okId okM) (srt : NanSort D) (env : IvfEnv V (WithTop D))
    (hk : Ivf.KMeansOk env) (s : σ) (live : List (Item V M)) (hs : Holds L s live)
    (h : List (IxCall V M)) (hok : Live.HistOk okId okM live h) (_hns : NoSearch h) (q : V) (k : Int)
    (hk0 : 0 ≤ k) (dq : V → WithTop D) (hq : ∀ y ∈ Live.after live h, env.dist q y.vec = .ok (dq y.vec))
    (hch : (Live.after live h).IsChain fun a b => ¬ ltNan (dq b.vec) (dq a.vec)) :
    let t := ivfAfter env B s h
    t.1.trained = false →
    (Ivf.searchNan srt env B 1 q k t.1 t.2).1 =
      .ok (((Live.after live h).take k.toNat).map fun y => ⟨y.id, dq y.vec, y.md⟩) := by
  intro t ht
  have hinv : Ivf.Inv L (Live.after live h) (ivfAfter env B s h) := ivfAfter_inv hk hs hok
  obtain ⟨r, c, s', e, -, hr, htot, -⟩ := hinv.searchNan srt (env := env) q k
  rw [show Ivf.searchNan srt env B 1 q k t.1 t.2 = _ from e]
  obtain ⟨hits, hh⟩ := htot ht (fun x hx => ⟨_, hq x hx⟩)
  obtain ⟨l, ds, hnd, hsub, hds, rfl, hl⟩ := hr hits hh
  have hll := hl ht
  subst hll
  have hds' : ds = (Live.after live h).map fun y => (y.id, dq y.vec) := by
    have : scanRes (env.dist q) (Live.after live h) =
        .ok ((Live.after live h).map fun y => (y.id, dq y.vec)) := by
      clear hds hr hch
      generalize Live.after live h = l at hq
      induction l with
      | nil => rfl
      | cons a l ih => simp [scanRes, hq a (by simp), ih (fun y hy => hq y (by simp [hy]))]
    rw [this] at hds
    exact (Except.ok.inj hds).symm
  simp only
  rw [hh, srt.run ds (by rw [hds']; exact (List.isChain_map _).2 hch), sliceTo_nonneg _ hk0, hds',
    ← List.map_take]
  congr 1
  simp only [attachMd, List.map_map]
  refine List.map_congr_left ?_
  intro y hy
  simp only [Function.comp_def]
  rw [Live.find_mem hnd (List.mem_of_mem_take hy)]
  rfl

/-- **C212** (refuted) One vector with a NaN spoils the order of an IVF index: the nearest-neighbour
query 0 is answered with the vector at distance 50, though one at distance 1 is stored, by every
sort Python may use. -/
theorem C212_ivf_order_refuted (srt : NanSort Nat) :
    let t := ivfAfter (exNanIvf 9) (memBackend Nat Nat) exMem exNanHist
    (Ivf.searchNan srt (exNanIvf 9) (memBackend Nat Nat) 1 0 1 t.1 t.2).1 =
      .ok [⟨"far", (50 : Nat), some 7⟩] ∧
    Item.mk "near" 1 none ∈ Live.after [] exNanHist ∧
    (exNanIvf 9).dist 0 1 = .ok ((1 : Nat) : WithTop Nat) := by
  refine ⟨?_, by decide, rfl⟩
  have := C212_ivf_unsorted memLawful srt (exNanIvf 9) (exNanIvf_kmeans 9) exMem [] exMem_holds
    exNanHist exNanHist_ok exNanHist_noSearch 0 1 (by decide)
    (fun v => if v = 1000 then ⊤ else (v : Nat)) (by decide) (by decide) (by decide)
  exact this

/-- **C212** (refuted) A query with a NaN in it is neither refused nor answered by nearness: an
untrained IVF index returns the oldest `k` live vectors. -/
theorem C212_ivf_query_refuted (L : Lawful B okId okM) (srt : NanSort D) (env : IvfEnv V (WithTop D))
    (hk : Ivf.KMeansOk env) (s : σ) (live : List (Item V M)) (hs : Holds L s live)
    (h : List (IxCall V M)) (hok : Live.HistOk okId okM live h) (hns : NoSearch h) (q : V) (k : Int)
    (hk0 : 0 ≤ k) (hq : ∀ v, env.dist q v = .ok ⊤) :
    let t := ivfAfter env B s h
    t.1.trained = false →
    (Ivf.searchNan srt env B 1 q k t.1 t.2).1 =
      .ok (((Live.after live h).take k.toNat).map fun y => ⟨y.id, ⊤, y.md⟩) :=
  C212_ivf_unsorted L srt env hk s live hs h hok hns q k hk0 (fun _ => ⊤) (fun y _ => hq y.vec)
    (by
      generalize Live.after live h = l
      have : ∀ a b : Item V M, ¬ ltNan (⊤ : WithTop D) (⊤ : WithTop D) := fun _ _ hh => hh.1 rfl
      exact (List.pairwise_of_forall this).isChain)

example : ∀ v, (exNanIvf 9).dist 1000 v = .ok ⊤ := by simp [exNanIvf, nanDist]

/-- **C212** (refuted) When k-means refuses a NaN, as scikit-learn's does, an insert that finds the
index untrained with `n_clusters` live vectors, one of them with a NaN, raises although its rows
are stored and counted, and the index stays untrained: so does every later insert. -/
theorem C212_ivf_training_refuted (L : Lawful B okId okM) (env : IvfEnv V D)
    (hk : Ivf.KMeansOk env) (bad : V → Prop)
    (hb : ∀ vs, (∃ v ∈ vs, bad v) → ∃ e, env.kmeans vs = .error e) (s : σ)
    (live : List (Item V M)) (hs : Holds L s live) (h : List (IxCall V M))
    (rows : List (String × V)) (mds : Option (List (Option M)))
    (hok : Live.HistOk okId okM live (h ++ [.insert 2 rows mds]))
    (hx : ∃ x ∈ Live.after live (h ++ [.insert 2 rows mds]), bad x.vec)
    (hn : env.nClusters ≤ (Live.after live (h ++ [.insert 2 rows mds])).length) :
    let t := ivfAfter env B s h
    t.1.trained = false →
    let r := Ivf.insert env B 2 rows mds t.1 t.2
    r.1 = .error .index ∧ r.2.1.trained = false ∧
    r.2.1.statCount = some (Live.after live (h ++ [.insert 2 rows mds])).length ∧
    ∀ y ∈ Live.after live (h ++ [.insert 2 rows mds]),
      (B.retrieve r.2.2 y.id).1 = .ok (some (y.vec, y.md)) := by
  intro t ht r
  have hsplit : Live.HistOk okId okM live h ∧
      Live.CallOk okId okM (Live.after live h) (.insert 2 rows mds) := by
    clear hx hn ht r t hs
    induction h generalizing live with
    | nil => exact ⟨trivial, hok.1⟩
    | cons c h ih =>
      obtain ⟨a, b⟩ := ih _ hok.2
      exact ⟨⟨hok.1, a⟩, b⟩
  have hlive : Live.after live (h ++ [.insert 2 rows mds]) =
      Live.after live h ++ Live.items mds 0 rows := by
    simp [Live.after, List.foldl_append, Live.next]
  rw [hlive] at hx hn ⊢
  have hinv : Ivf.Inv L (Live.after live h) (t.1, t.2) := ivfAfter_inv hk hs hsplit.1
  obtain ⟨x, hx1, hx2⟩ := hx
  obtain ⟨e, he⟩ := hb ((Live.after live h ++ Live.items mds 0 rows).map Item.vec)
    ⟨x.vec, List.mem_map_of_mem hx1, hx2⟩
  obtain ⟨f1, f2⟩ := hinv.insert_fails ht hsplit.2 hn (List.ne_nil_of_mem hx1) he
  obtain ⟨g, -, -, -⟩ := hinv.insert hk hsplit.2
  refine ⟨f1, f2, ?_, ?_⟩
  · have hi : r.2.1.inited = true := g.core.inited
    simp only [Ivf.statCount, hi, if_true]
    exact congrArg some g.cnt
  · intro y hy
    have hc : L.content r.2.2 y.id = some (y.vec, y.md) := by
      rw [show L.content r.2.2 = _ from g.core.cont]; exact Live.find_mem g.core.nd hy
    obtain ⟨s1, e1, -, -⟩ := L.retrieve (s := r.2.2) g.core.st (L.dom g.core.st (by rw [hc]; rfl))
    rw [e1, hc]

/-- Three clusters: the insert of three rows raises, so does the next one, of a good row. -/
example : (Ivf.run (exNanIvf 3) (memBackend Nat Nat) (ivfOn (exNanIvf 3) (memBackend Nat Nat) exMem)
    (exNanHist ++ [.insert 2 [("d", 5)] none, .delete ["bad"], .insert 2 [("e", 6)] none])).1 =
    [.raised, .raised, .flag true, .ids ["e"]] := by decide

/-! ## HNSW -/

/-- **C212** (partial: the order is missing, see `C212_hnsw_order_refuted`) Whatever NaNs are stored
or searched for, an HNSW index answers, with at most `k` live vectors, each with its distance and
current metadata. -/
theorem C212_hnsw_sound_partial (L : Lawful B okId okM) (srt : NanSort D) (env : HnswEnv V (WithTop D))
    (s : σ) (live : List (Item V M)) (hs : Holds L s live)
    (h : List (IxCall V M)) (hok : Live.HistOk okId okM live h) (_hns : NoSearch h) (q : V) (k : Int)
    (hk0 : 0 ≤ k) :
    let t := hnswAfter env B s h
    (∀ hits, (Hnsw.searchNan srt env B 1 q k t.1 t.2).1 = .ok hits →
      hits.length ≤ min k.toNat (Live.after live h).length ∧
      ∀ x ∈ hits, ∃ y ∈ Live.after live h, y.id = x.id ∧ env.dist q y.vec = .ok x.dist ∧
        x.md = y.md) ∧
    ((∀ y ∈ Live.after live h, ∃ d, env.dist q y.vec = .ok d) →
      ∃ hits, (Hnsw.searchNan srt env B 1 q k t.1 t.2).1 = .ok hits) := by
  intro t
  have hinv : Hnsw.Inv L (Live.after live h) t := hnswAfter_inv env hs hok
  obtain ⟨r, s', e, -, h1, h2, h3, -⟩ := hinv.searchNan srt (env := env) q k
  rw [show Hnsw.searchNan srt env B 1 q k t.1 t.2 = _ from e]
  refine ⟨?_, fun hd => ?_⟩
  · intro hits hh
    by_cases hl : Live.after live h = []
    · rw [h2 hl] at hh
      cases hh
      simp
    · obtain ⟨c, hc, rfl⟩ := h1 hits hh hl
      rw [sliceTo_nonneg _ (by omega)]
      refine ⟨?_, ?_⟩
      · simp only [attachMd, List.length_map, List.length_take]
        omega
      · intro x hx
        obtain ⟨y, hy, rfl⟩ := List.mem_map.1 hx
        obtain ⟨z, hz, e1, e2⟩ := Hnsw.candidatesNan_spec srt hinv.gr.vec hc y
          (srt.mem.1 (List.mem_of_mem_take hy))
        refine ⟨z, hz, e1, e2, ?_⟩
        simp only
        rw [← e1, Live.find_mem hinv.gr.nd hz]
        rfl
  · obtain ⟨c, hc⟩ := Hnsw.candidatesNan_total srt hinv.gr hd
    exact h3 c hc

/-- **C212** While the distances of a query to the live vectors are numbers, the search is the one of
C25 to C27. -/
theorem C212_hnsw_numbers (L : Lawful B okId okM) (srt : NanSort D) (env : HnswEnv V (WithTop D))
    (s : σ) (live : List (Item V M)) (hs : Holds L s live)
    (h : List (IxCall V M)) (hok : Live.HistOk okId okM live h) (_hns : NoSearch h) (nd : Nat) (q : V)
    (k : Int) (hn : ∀ y ∈ Live.after live h, env.dist q y.vec ≠ .ok ⊤) :
    let t := hnswAfter env B s h
    Hnsw.searchNan srt env B nd q k t.1 t.2 = Hnsw.search env B nd q k t.1 t.2 := by
  intro t
  by_cases hnd : nd ≠ 1
  · simp [Hnsw.searchNan, Hnsw.search, hnd]
  obtain rfl : nd = 1 := not_not.1 hnd
  have hinv : Hnsw.Inv L (Live.after live h) t := hnswAfter_inv env hs hok
  obtain ⟨r, s', e, -, -, -, -, hag⟩ := hinv.searchNan srt (env := env) q k
  exact hag hn

/-- **C212** (refuted) One vector with a NaN spoils the order of an HNSW index too, by every sort
Python may use. -/
theorem C212_hnsw_order_refuted (srt : NanSort Nat) :
    let t := hnswAfter exNanHnsw (memBackend Nat Nat) exMem exNanHist
    (Hnsw.searchNan srt exNanHnsw (memBackend Nat Nat) 1 0 1 t.1 t.2).1 =
      .ok [⟨"far", (50 : Nat), some 7⟩] ∧
    (Hnsw.searchNan srt exNanHnsw (memBackend Nat Nat) 1 0 3 t.1 t.2).1 =
      .ok [⟨"far", (50 : Nat), some 7⟩, ⟨"bad", ⊤, none⟩, ⟨"near", (1 : Nat), none⟩] := by
  have hc : Hnsw.candidatesNan srt exNanHnsw 0
      (hnswAfter exNanHnsw (memBackend Nat Nat) exMem exNanHist).1 =
      .ok [("far", ((50 : Nat) : WithTop Nat)), ("bad", ⊤), ("near", ((1 : Nat) : WithTop Nat))] := by
    rfl
  have hsort : srt.sort [("far", ((50 : Nat) : WithTop Nat)), ("bad", ⊤), ("near", ((1 : Nat) : WithTop Nat))] =
      [("far", ((50 : Nat) : WithTop Nat)), ("bad", ⊤), ("near", ((1 : Nat) : WithTop Nat))] :=
    srt.run _ (by decide)
  refine ⟨?_, ?_⟩
  · simp only [Hnsw.searchNan, hc, hsort]; decide
  · simp only [Hnsw.searchNan, hc, hsort]; decide

/-! ## Flat -/

/-- **C212** (refuted) A flat index takes a vector that is not finite and then answers no search at
all; once no such vector is live and all have the dimension of the query, it answers again. -/
theorem C212_flat_refuted (L : Lawful B okId okM) (env : FlatEnv V D) (ha : IsArgsort env.argsort)
    (hm : env.metricOk = true) (s : σ) (live : List (Item V M)) (hs : Holds L s live)
    (h : List (IxCall V M)) (hok : Live.HistOk okId okM live h) (q : V) (k : Int) :
    let t := (Flat.run env B (flatOn B s) h).2
    ((∃ x ∈ Live.after live h, env.finite x.vec = false) →
      ∃ e, (Flat.search env B 1 q k t.1 t.2).1 = .error e) ∧
    ((∀ x ∈ Live.after live h, env.finite x.vec = true ∧ env.dim x.vec = env.dim q) →
      Live.after live h ≠ [] → env.finite q = true → env.dim q ≠ 0 →
      ∃ hits, (Flat.search env B 1 q k t.1 t.2).1 = .ok hits) := by
  intro t
  refine ⟨?_, ?_⟩
  · rintro ⟨x, hx, hf⟩
    exact (C18_flat_search_fails_iff L env ha s live hs h hok (List.ne_nil_of_mem hx) q k).2
      (.inr (.inr (.inr ⟨x, hx, .inl hf⟩)))
  · intro hall hne hq hd
    have hiff := C18_flat_search_fails_iff L env ha s live hs h hok hne q k
    cases hr : (Flat.search env B 1 q k t.1 t.2).1 with
    | ok hits => exact ⟨hits, rfl⟩
    | error e =>
      exfalso
      rcases hiff.1 ⟨e, hr⟩ with h' | h' | h' | ⟨x, hx, h' | h'⟩
      · rw [hm] at h'; cases h'
      · rw [hq] at h'; cases h'
      · exact hd h'
      · rw [(hall x hx).1] at h'; cases h'
      · exact h' (hall x hx).2

example : (Flat.run exFlat (memBackend Nat Nat) (flatOn (memBackend Nat Nat) exMem)
    [.insert 2 [("a", 10), ("b", 0)] none, .search 1 5 1, .delete ["b"], .search 1 5 1]).1 =
    [.ids ["a", "b"], .raised, .flag true, .answered] := by decide

/-! ## LSH and Annoy -/

/-- **C212** An LSH index refuses a batch with a vector that is not finite, and changes nothing but
a dimension not fixed before; it refuses such a query. -/
theorem C212_lsh_refuses {S : Type} [LinearOrder S] {env : LshEnv V S M} (hc : env.hashSize ≤ env.numProj)
    (f : Lsh V M) (hf : f.inited = true) (cols : Nat) (hd : ∀ d, f.dimension = some d → d = cols)
    (rows : List V) (mds : Option (List (Option M))) (ha : Slots.aligned rows mds = true)
    (hm : ∀ l, mds = some l → none ∉ l) (hx : ∃ v ∈ rows, env.finite v = false) (q : V) (k : Int)
    (thr : Option S) :
    (Lsh.insert env 2 cols rows mds f).1 = .error .validation ∧
    ((Lsh.insert env 2 cols rows mds f).2 = f ∨
      (f.dimension = none ∧ (Lsh.insert env 2 cols rows mds f).2 = { f with dimension := some cols })) ∧
    (f.dimension = some cols → env.finite q = false → Lsh.search env q k thr f = .error .validation) := by
  obtain ⟨v, hv, hfin⟩ := hx
  have h1 := (C140_lsh_insert_errors env f hf 2 cols rows mds).2.2.2 ha (Nat.le_refl _) hd
    ⟨v, hv, .inr (by simp [storable, hfin])⟩
  refine ⟨h1, ?_, ?_⟩
  · cases he : Lsh.insert env 2 cols rows mds f with
    | mk r f' =>
      rw [he] at h1
      simp only at h1
      subst h1
      exact C32_lsh_rejected hc f 2 cols rows mds hm he
  · intro hdim hq
    simp [Lsh.search, hf, hdim, Lsh.valid, hq]

/-- LSH over one-dimensional vectors, `[99]` having a NaN in it: refused by `insert` and by `search`,
taken by `update`. -/
def exNanLsh : LshEnv (List Int) (WithBot Int) Nat where
  numTables := 1
  hashSize := 1
  numProj := 1
  threshold := (0 : Int)
  dim v := v.length
  finite v := v != [99]
  bit _ _ _ v := decide (0 ≤ v.sum)
  sim a b := if a = [99] ∨ b = [99] then .ok ⊥ else .ok ((100 - |a.sum - b.sum| : Int) : WithBot Int)
  setOrder l := l.dedup
  parse s := if s = "0" then some 0 else none
  emptyMd := 0

example : (Lsh.insert exNanLsh 2 1 [[5], [99]] none (Lsh.init exNanLsh ⟨[], none, [], [], 0, false⟩)).1 =
    .error .validation := by decide

def exNanLshHist : List (SCall (List Int) Nat (WithBot Int)) :=
  [.insert 2 1 [[5], [6]] none, .update "0" [99] none]

theorem exNanLshHist_ok : LshOk exNanLsh exNanLshHist := by
  refine ⟨?_, ?_, trivial⟩
  · intro l hl; cases hl
  · refine ⟨?_, ?_⟩
    · intro i hi; simp [exNanLsh] at hi; omega
    · intro d hd; revert hd; simp [Slots.next, Slots.offer, Slots.aligned, Slots.accepts, exNanLsh]
      split <;> simp <;> omega

/-- **C212** `update` of an LSH index does not look at the vector, but no search returns one whose
similarity is NaN (here `⊥`, which like NaN is not at or above any threshold): all others are found as
without it. -/
theorem C212_lsh_update {S : Type} [LinearOrder S] {env : LshEnv V (WithBot S) M}
    (hc : env.hashSize ≤ env.numProj) (hset : SetLike env.setOrder) {h : List (SCall V M (WithBot S))}
    (ho : LshOk env h) (q : V) (k : Nat) (thr : Option (WithBot S))
    (ht : thr.getD env.threshold ≠ ⊥) {hits : List (NHit (WithBot S) M)}
    (he : Lsh.search env q k thr (lshAfter env h) = .ok hits) :
    (∀ x ∈ hits, x.score ≠ ⊥) ∧
    Slots.IsAnswer (env.sim q) (Considered env (lshAfter env h) (slotsAfter env h) q)
      (thr.getD env.threshold) k (slotsAfter env h) hits := by
  have hA := C30_lsh_sound hc hset ho q k thr he
  refine ⟨?_, hA⟩
  intro x hx hb
  obtain ⟨n, v, m, -, -, -, hle, -⟩ := hA.sound x hx
  rw [hb] at hle
  exact ht (le_bot_iff.1 hle)

theorem _root_.Valori.Annoy.add_bad {A F : Type} (env : AnEnv A V F M) (nd cols : Nat) (rows : List V)
    (l : List (Option M)) (f : Annoy A V M) (hx : ∃ v ∈ rows, env.finite v = false) :
    ∃ e f', Annoy.add env nd cols rows l f = (.error e, f') ∧ f'.vectors = f.vectors ∧
      f'.metadata = f.metadata := by
  obtain ⟨v, hv, hfin⟩ := hx
  have hall : (rows.all fun v => decide (nd = 2) && Annoy.valid env cols v) = false := by
    rw [List.all_eq_false]
    exact ⟨v, hv, by simp [Annoy.valid, hfin]⟩
  unfold Annoy.add
  split
  · exact ⟨_, _, rfl, rfl, rfl⟩
  split
  · exact ⟨_, _, rfl, rfl, rfl⟩
  split
  · exact ⟨_, _, rfl, rfl, rfl⟩
  dsimp only
  rcases f.dimension with _ | d <;> dsimp only <;> split
  · exact ⟨_, _, rfl, rfl, rfl⟩
  · rw [if_pos (by rw [hall]; rfl)]; exact ⟨_, _, rfl, rfl, rfl⟩
  · exact ⟨_, _, rfl, rfl, rfl⟩
  · rw [if_pos (by rw [hall]; rfl)]; exact ⟨_, _, rfl, rfl, rfl⟩

example : Lsh.search exNanLsh [5] 5 none (lshAfter exNanLsh exNanLshHist) =
    .ok [⟨1, (99 : Int), some 0⟩] := by decide

/-- **C212** An Annoy index refuses a batch with a vector that is not finite, and such a query. -/
theorem C212_annoy_refuses {A F : Type} [Field F] [LinearOrder F] (env : AnEnv A V F M)
    (f : Annoy A V M) (hf : f.inited = true) (cols : Nat) (hd : ∀ d, f.dimension = some d → d = cols)
    (rows : List V) (mds : Option (List (Option M))) (ha : Slots.aligned rows mds = true)
    (hx : ∃ v ∈ rows, env.finite v = false) (q : V) (k : Int) :
    (Annoy.insert env 2 cols rows mds f).1 = .error .validation ∧
    (Annoy.insert env 2 cols rows mds f).2.vectors = f.vectors ∧
    (Annoy.insert env 2 cols rows mds f).2.metadata = f.metadata ∧
    (f.built = true → f.dimension = some cols → env.finite q = false →
      Annoy.search env q k f = .error .validation) := by
  obtain ⟨v, hv, hfin⟩ := hx
  have h1 := (C141_annoy_insert_errors env f hf 2 cols rows mds).2.2.2 ha (Nat.le_refl _) hd
    ⟨v, hv, .inr (.inr (.inr hfin))⟩
  have hins : ∃ e f', Annoy.insert env 2 cols rows mds f = (.error e, f') ∧ f'.vectors = f.vectors ∧
      f'.metadata = f.metadata := by
    cases mds with
    | none =>
      obtain ⟨e, f', he, g⟩ := Annoy.add_bad env 2 cols rows (rows.map fun _ => some env.emptyMd) f
        ⟨v, hv, hfin⟩
      exact ⟨e, f', by simp only [Annoy.insert, he], g⟩
    | some l =>
      obtain ⟨e, f', he, g⟩ := Annoy.add_bad env 2 cols rows l f ⟨v, hv, hfin⟩
      exact ⟨e, f', by simp only [Annoy.insert, he], g⟩
  obtain ⟨e, f', hins, g1, g2⟩ := hins
  refine ⟨h1, by rw [hins]; exact g1, by rw [hins]; exact g2, ?_⟩
  · intro hb hdim hq
    exact (C141_annoy_search_errors env f hf q k).2.2.1 cols hb hdim (.inr (.inr hq))

/-- **C212** (refuted) `update` of an Annoy index with a vector that is not finite raises, but has
removed the stored vector and its metadata by then. -/
theorem C212_annoy_update_refuted {A F : Type} (env : AnEnv A V F M) (f : Annoy A V M)
    (hf : f.inited = true) (id : String) (n : Nat) (hp : env.parse id = some (n : Int))
    (hn : n < f.vectors.length) (hlen : f.metadata.length = f.vectors.length) (v : V) (m : Option M)
    (hv : env.finite v = false) :
    (Annoy.update env id v m f).1 = .error .index ∧
    (Annoy.update env id v m f).2.vectors[n]? = some none ∧
    (Annoy.update env id v m f).2.metadata[n]? = some none := by
  have hm : n < f.metadata.length := by omega
  have hrem : Annoy.remove [(n : Int)] f =
      (.ok (), { f with vectors := f.vectors.set n none, metadata := f.metadata.set n none }) := by
    simp only [Annoy.remove, hf, Annoy.removeLoop, Lsh.pyGet_nat, Lsh.pySet_nat]
    rw [if_neg (by simp), if_pos (by omega), List.getElem?_eq_getElem hn]
    dsimp only
    rw [List.getElem?_eq_getElem hm]
  have hmd : ∃ md, Annoy.updMd (n : Int) m f = some md := by
    cases m with
    | some x => exact ⟨_, rfl⟩
    | none => exact ⟨_, by simp only [Annoy.updMd, Lsh.pyGet_nat]; exact List.getElem?_eq_getElem hm⟩
  obtain ⟨md, hmd⟩ := hmd
  obtain ⟨e, f', he, g1, g2⟩ := Annoy.add_bad env 2 (env.dim v) [v] [md]
    { f with vectors := f.vectors.set n none, metadata := f.metadata.set n none, nextId := (n : Int) }
    ⟨v, by simp, hv⟩
  have hu : Annoy.update env id v m f = (.error .index, f') := by
    unfold Annoy.update
    simp only [hp]
    rw [if_neg (by omega), hmd]
    simp only [hrem]
    rw [he]
  rw [hu]
  refine ⟨rfl, ?_, ?_⟩
  · simp only [g1, List.getElem?_set_self hn]
  · simp only [g2, List.getElem?_set_self hm]

/-- The library of C36 with 99 for a vector that is not finite. -/
def exNanAn : AnEnv (List (Int × Int)) Int ℚ Nat := { exAn with finite := fun v => v != 99 }

example : (Annoy.insert exNanAn 2 1 [5, 99] none (anAfter exNanAn .euclidean [])).1 =
    .error .validation := by decide +kernel

/-- The vector that was to be replaced is lost. -/
example : ((Annoy.update exNanAn "0" 99 none
    (anAfter exNanAn .euclidean [.insert 2 1 [10, 20] (some [some 7, some 8])])).2.vectors) =
    [none, some 20] := by decide +kernel

end Valori.Props
