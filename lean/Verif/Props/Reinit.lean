import Verif.Lemmas.HnswAlike
import Verif.Props.ClientStats

/-!
# Properties C195 and C218 when an open client is initialised again
-/

namespace Valori.Props
open Valori Valori.Spec

variable {σ V M D X : Type} {B : Backend σ V M} {okId : Id → Prop} {okM : M → Prop}

section again
variable {L : Lawful B okId okM} {P : Parts (X × σ) (IxCall V M) (FwdReply D M)} {fresh : X → Prop}
  {Inv : List (Item V M) → X × σ → Prop} {may : List (Item V M) → IxCall V M → Prop}
  {good : List (Item V M) → V → Int → List (Hit D M) → Prop}

/-- Initialising an index again over a storage that still holds its items gives an index of these
items. -/
def InitsAgain (L : Lawful B okId okM) (P : Parts (X × σ) (IxCall V M) (FwdReply D M))
    (Inv : List (Item V M) → X × σ → Prop) : Prop :=
  ∀ live x s₀ s, Inv live (x, s₀) → L.inv s → L.content s = Live.find live →
    ∃ t live', P.indexInit (x, s) = (.ok (), t) ∧ Inv live' t ∧
      ∀ id, Live.find live' id = L.content s id

theorem again_step (hS : Serves L P fresh Inv may good) (hA : InitsAgain L P Inv)
    (hR : Reopens L false) {db : Db V M} {c : Client (X × σ)} (h : Follows L fresh Inv db c)
    (x : ClCall (IxCall V M))
    (hx : match x with
      | .request q => db.isOpen = true → Live.CallOk okId okM db.live q
      | _ => True) :
    Db.RightBy may good db x (seen (Client.ask P c x).1) ∧
    Follows L fresh Inv (Db.next false db x) (Client.ask P c x).2 := by
  by_cases hi : x = .init → db.isOpen = false
  · exact follows_step hS hR h x hx hi
  push Not at hi
  obtain ⟨rfl, ho⟩ := hi
  obtain ⟨⟨f, s⟩, b⟩ := c
  obtain ⟨o, live⟩ := db
  obtain ⟨h1, h2, -⟩ := h
  simp only at h1 h2 ho
  subst h1
  simp only [ne_eq, Bool.not_eq_false] at ho
  subst ho
  obtain ⟨live', hp, hinv⟩ := h2 rfl
  have hcont : L.content s = Live.find live' := hS.cont hinv
  obtain ⟨q1, q2⟩ := hR.again rfl s (hS.st hinv)
  obtain ⟨t, live2, e, hinv2, hf⟩ := hA live' f s (B.init s) hinv q1 (by rw [q2, hcont])
  have e2 : Client.ask P ⟨(f, s), true⟩ .init = (.unit (.ok ()), ⟨t, true⟩) := by
    have e1 : Client.init P ⟨(f, s), true⟩ = (.ok (), ⟨t, true⟩) := by
      simp [Client.init, Client.steps, hS.sInit, hS.qInit, hS.pInit, e]
    simp only [Client.ask, e1]
  rw [e2]
  refine ⟨rfl, rfl, fun _ => ⟨live2, ?_, hinv2⟩, (fun h => absurd h (by simp [Db.next]))⟩
  have hn : (Live.idsOf live).Nodup := (hp.map Item.id).nodup_iff.2 (hS.nd hinv)
  refine find_perm_of_eq hn (hS.nd hinv2) fun id => ?_
  rw [hf, q2, hcont]
  exact find_of_perm hp hn id

theorem again_all (hS : Serves L P fresh Inv may good) (hA : InitsAgain L P Inv)
    (hR : Reopens L false) (h : List (ClCall (IxCall V M))) : ∀ (db : Db V M) (c : Client (X × σ)),
    Follows L fresh Inv db c → Db.HistOk okId okM false db h →
    Db.AllRightBy false may good db h ((Client.converse P c h).1.map seen) ∧
    Follows L fresh Inv (Db.after false db h) (Client.converse P c h).2 := by
  induction h with
  | nil => intro db c hs _; exact ⟨trivial, hs⟩
  | cons x h ih =>
    intro db c hs hok
    obtain ⟨a1, a2⟩ := again_step hS hA hR hs x hok.1
    exact ⟨⟨a1, (ih _ _ a2 hok.2).1⟩, (ih _ _ a2 hok.2).2⟩

end again

section ivf
variable [LinearOrder D] {L : Lawful B okId okM}

theorem ivf_again {env : IvfEnv V D} (hk : Ivf.KMeansOk env)
    (hK : ∀ vs, vs ≠ [] → ∃ r, env.kmeans vs = .ok r) :
    InitsAgain L (ivfParts env B) (Ivf.Inv L) := by
  intro live f s₀ s h hs hc
  obtain ⟨g, s', live', e, hinv, hf⟩ := Flat.init_inv (L := L) (f := Ivf.toFlat f) hs (by
    intro id v v' m h1 h2
    rw [hc] at h1
    have hm : id ∈ Live.idsOf live := by rw [← Live.has_iff, ← Live.find_isSome, h1]; rfl
    obtain ⟨y, hy, rfl⟩ := List.mem_map.1 hm
    rw [Live.find_mem h.core.nd hy] at h1
    cases h1
    exact h.core.cache y hy v' h2)
  have hp : live.Perm live' := find_perm_of_eq h.core.nd hinv.nd fun id => by rw [hf, hc]
  have hidp := hp.map Item.id
  simp only [Flat.init] at e
  rcases hl : B.list s none with ⟨_ | l, s1⟩
  · rw [hl] at e; simp at e
  rw [hl] at e
  simp only [Prod.mk.injEq, true_and] at e
  obtain ⟨rfl, rfl⟩ := e
  have hI : Ivf.Inv L live' ({ f with ids := l, count := l.length, inited := true }, s1) :=
    ⟨⟨rfl, hinv.ids, hinv.nd, hinv.cache, hinv.st, hinv.cont⟩,
      ⟨h.cl.keys, h.cl.nd, fun id hid => hidp.mem_iff.1 (h.cl.sub id hid), h.cl.tr⟩, hinv.cnt⟩
  by_cases hc' : env.nClusters ≤ (l.length : Int)
  · obtain ⟨t, ht⟩ := Ivf.Inv.train_total (L := L) (live := live') hK hI
    have hi2 : Ivf.Inv L live'
        (Ivf.train env B { f with ids := l, count := l.length, inited := true } s1).2 :=
      (hI.train_inv hk).1
    rw [ht] at hi2
    exact ⟨t, live', by simp only [ivfParts, Ivf.init, hl, if_pos hc', ht], hi2, hf⟩
  · exact ⟨_, live', by simp only [ivfParts, Ivf.init, hl, if_neg hc'], hI, hf⟩

end ivf

section hnsw

/-- An HNSW index and its storage hold the live items; the order of the vectors does not matter. -/
def HnswHolds (L : Lawful B okId okM) (live : List (Item V M)) (t : Hnsw V × σ) : Prop :=
  ∃ g d, DSame d g.vectors ∧ t.1 = Hnsw.withV g d ∧ Hnsw.Inv L live (g, t.2)

variable {L : Lawful B okId okM}

theorem hnswHolds_of_inv {live : List (Item V M)} {t : Hnsw V × σ} (h : Hnsw.Inv L live t) :
    HnswHolds L live t :=
  ⟨t.1, t.1.vectors, DSame.refl (by rw [h.gr.vec, Hnsw.vecs_keys]; exact h.gr.nd), rfl, h⟩

theorem hnsw_serves_any [LinearOrder D] (L : Lawful B okId okM) (env : HnswEnv V D) :
    Serves L (hnswParts env B) (fun f => ∃ n, f = ⟨[], [], 0, 0, false, n⟩) (HnswHolds L)
      (fun live c => ∃ q k, c = .search 1 q k ∧ ∃ y ∈ live, ∃ e, env.dist q y.vec = .error e)
      (Db.Honest (partialDist env.dist)) where
  sInit := rfl
  qInit := rfl
  pInit := rfl
  pClose := rfl
  qClose := rfl
  sClose := rfl
  opens := by
    intro x s hf hs
    obtain ⟨t, live, e, hi, hl⟩ := (hnsw_serves L env).opens x s hf hs
    exact ⟨t, live, e, hnswHolds_of_inv hi, hl⟩
  closes := (hnsw_serves L env).closes
  nd := by rintro live t ⟨g, d, -, -, h⟩; exact h.gr.nd
  st := by rintro live t ⟨g, d, -, -, h⟩; exact h.st
  cont := by rintro live t ⟨g, d, -, -, h⟩; exact h.cont
  mayPerm := (hnsw_serves L env).mayPerm
  goodPerm := (hnsw_serves L env).goodPerm
  request := by
    rintro live ⟨f, s⟩ ⟨g, d, hd, rfl, h⟩ c hc
    obtain ⟨h1, h2⟩ := (hnsw_serves L env).request h c hc
    obtain ⟨d', k1, k2⟩ : ∃ d', DSame d' ((hnswParts env B).request c (g, s)).2.1.vectors ∧
        (hnswParts env B).request c (Hnsw.withV g d, s) =
          (((hnswParts env B).request c (g, s)).1,
            Hnsw.withV ((hnswParts env B).request c (g, s)).2.1 d',
            ((hnswParts env B).request c (g, s)).2.2) := by
      cases c with
      | insert nd rows mds =>
        obtain ⟨d', k1, k2⟩ := Hnsw.insert_alike (B := B) env nd rows mds hd s
        simp only [hnswParts, k2]
        revert k1
        rcases Hnsw.insert env B nd rows mds g s with ⟨_ | _, t⟩ <;> exact fun k1 => ⟨d', k1, rfl⟩
      | delete ids =>
        obtain ⟨d', k1, k2⟩ := Hnsw.delete_alike (B := B) ids hd s
        simp only [hnswParts, k2]
        revert k1
        rcases Hnsw.delete B ids g s with ⟨_ | _, t⟩ <;> exact fun k1 => ⟨d', k1, rfl⟩
      | update id v m =>
        obtain ⟨d', k1, k2⟩ := Hnsw.update_alike (B := B) id v m hd s
        simp only [hnswParts, k2]
        revert k1
        rcases Hnsw.update B id v m g s with ⟨_ | _, t⟩ <;> exact fun k1 => ⟨d', k1, rfl⟩
      | search nd q k =>
        obtain ⟨k1, k2⟩ := Hnsw.search_alike (B := B) env nd q k hd s
        simp only [hnswParts, k2]
        revert k1
        rcases Hnsw.search env B nd q k g s with ⟨_ | _, t, s'⟩ <;>
          · intro k1
            simp only at k1
            subst k1
            exact ⟨d, hd, rfl⟩
    rw [k2]
    exact ⟨h1, ⟨_, d', k1, rfl, h2⟩⟩

theorem loadAll_again (env : HnswEnv V D) {all : List (Item V M)} (hn : (Live.idsOf all).Nodup)
    (todo : List (Item V M)) (hsub : ∀ x ∈ todo, x ∈ all) : ∀ (g : Hnsw V) (d : Dict Id V) (s : σ),
    DSame d (Hnsw.vecs all) → L.inv s → L.content s = Live.find all →
    ∃ d', DSame d' (Hnsw.vecs all) ∧
      Hnsw.loadAll env B (Live.idsOf todo) { g with vectors := d, count := all.length } s =
        ((Hnsw.loadAll env B (Live.idsOf todo) g s).1,
          { (Hnsw.loadAll env B (Live.idsOf todo) g s).2.1 with vectors := d', count := all.length },
          (Hnsw.loadAll env B (Live.idsOf todo) g s).2.2) := by
  induction todo with
  | nil => intro g d s hd hs hc; exact ⟨d, hd, rfl⟩
  | cons x todo ih =>
    intro g d s hd hs hc
    have hx : x ∈ all := hsub x (by simp)
    have hf : L.content s x.id = some (x.vec, x.md) := by rw [hc]; exact Live.find_mem hn hx
    obtain ⟨s1, e1, i1, c1⟩ := L.retrieve hs (L.dom hs (by rw [hf]; rfl))
    have hset : DSame (d.set x.id x.vec) (Hnsw.vecs all) :=
      hd.set_same (by rw [Hnsw.vecs_get?, Live.find_mem hn hx]; rfl)
    have hlen : (d.set x.id x.vec).length = all.length := by
      rw [hset.length]; simp [Hnsw.vecs]
    obtain ⟨d', k1, k2⟩ := ih (fun y hy => hsub y (by simp [hy])) (Hnsw.insertInternal env x.id x.vec g)
      (d.set x.id x.vec) s1 hset i1 (by rw [c1, hc])
    refine ⟨d', k1, ?_⟩
    simp only [Live.idsOf, List.map_cons, Hnsw.loadAll, e1, hf] at k2 ⊢
    rw [← k2]
    simp only [Hnsw.insertInternal, hlen]

theorem hnsw_again [LinearOrder D] (env : HnswEnv V D) :
    InitsAgain L (hnswParts env B) (HnswHolds L) := by
  rintro live f s₀ s ⟨g₀, d, hd, rfl, h⟩ hs hc
  obtain ⟨g, s', live', e, hinv, hfd⟩ := Flat.init_inv (L := L) (f := Flat.new) hs
    (fun id v v' m _ h => by simp [Flat.new] at h)
  have hp : live.Perm live' := find_perm_of_eq h.gr.nd hinv.nd fun id => by rw [hfd, hc]
  simp only [Flat.init] at e
  rcases hl : B.list s none with ⟨_ | l, s1⟩
  · rw [hl] at e; simp at e
  rw [hl] at e
  simp only [Prod.mk.injEq, true_and] at e
  obtain ⟨rfl, rfl⟩ := e
  have hids : l = Live.idsOf live' := hinv.ids
  subst hids
  obtain ⟨f', s2, e2, g2, -⟩ := Hnsw.loadAll_spec (L := L) env hinv.nd live' []
    (⟨[[]], [], g₀.maxLevel, 0, true, g₀.draws⟩ : Hnsw V) s1 rfl
    ⟨rfl, by simp, rfl, rfl, ⟨by simp [Hnsw.GraphOk.empty, Dict.keys], by simp [Dict.keys]⟩⟩
    hinv.st hinv.cont
  have hd' : DSame d (Hnsw.vecs live') := by
    refine ⟨hd.left, by rw [Hnsw.vecs_keys]; exact hinv.nd, fun k => ?_⟩
    rw [hd.get, h.gr.vec, Hnsw.vecs_get?, Hnsw.vecs_get?, find_of_perm hp h.gr.nd]
  obtain ⟨d', k1, k2⟩ := loadAll_again (L := L) env hinv.nd live' (fun x hx => hx)
    (⟨[[]], [], g₀.maxLevel, 0, true, g₀.draws⟩ : Hnsw V) d s1 hd' hinv.st hinv.cont
  rw [e2] at k2
  have hcnt : g₀.count = live'.length := by rw [h.gr.cnt, hp.length_eq]
  refine ⟨(Hnsw.withV f' d', s2), live', ?_, ⟨f', d', ?_, rfl, g2⟩, hfd⟩
  · have e3 : ({ Hnsw.withV g₀ d with inited := true, levels := [[]] } : Hnsw V) =
        ⟨[[]], d, g₀.maxLevel, live'.length, true, g₀.draws⟩ := by
      simp [Hnsw.withV, hcnt]
    have e4 : ({ f' with vectors := d', count := live'.length } : Hnsw V) = Hnsw.withV f' d' := by
      have : f'.count = live'.length := g2.gr.cnt
      simp [Hnsw.withV, ← this]
    simp only [e4] at k2
    simp only [hnswParts, Hnsw.init, hl, e3]
    rw [k2]
  · have : f'.vectors = Hnsw.vecs live' := g2.gr.vec
    rw [this]; exact k1

end hnsw

section main
variable [LinearOrder D] (L : Lawful B okId okM) (hR : Reopens L false) (s : σ)
  (live : List (Item V M)) (hn : (live.map Item.id).Nodup) (hs : L.inv (B.init s))
  (hl : ∀ id, L.content (B.init s) id = Live.find live id)

include hR hn hs hl in
/-- **C195** On a storage that keeps its content, a client over an IVF index is an honest search
database for every history, also if `initialize` is called while it is open. -/
theorem C195_ivf_persistent (env : IvfEnv V D) (hk : Ivf.KMeansOk env)
    (hK : ∀ vs, vs ≠ [] → ∃ r, env.kmeans vs = .ok r) (hp : 0 ≤ env.nProbes)
    (h : List (ClCall (IxCall V M))) (hok : Db.HistOk okId okM false ⟨false, live⟩ h) :
    Db.AllRightBy false (fun _ _ => ∃ a b e, env.dist a b = .error e)
      (HonestDistinct (partialDist env.dist)) ⟨false, live⟩ h
      ((Client.converse (ivfParts env B) ⟨(Ivf.new, s), false⟩ h).1.map seen) :=
  (again_all (ivf_serves L env hk hK hp) (ivf_again hk hK) hR h ⟨false, live⟩ ⟨(Ivf.new, s), false⟩
    ⟨rfl, (fun h => by cases h), fun _ => ⟨rfl, hn, hs, hl⟩⟩ hok).1

include hR hn hs hl in
/-- **C195** The same for HNSW. -/
theorem C195_hnsw_persistent (env : HnswEnv V D) (h : List (ClCall (IxCall V M)))
    (hok : Db.HistOk okId okM false ⟨false, live⟩ h) :
    Db.AllRightBy false
      (fun live c => ∃ q k, c = .search 1 q k ∧ ∃ y ∈ live, ∃ e, env.dist q y.vec = .error e)
      (Db.Honest (partialDist env.dist)) ⟨false, live⟩ h
      ((Client.converse (hnswParts env B) ⟨(Hnsw.new, s), false⟩ h).1.map seen) :=
  (again_all (hnsw_serves_any L env) (hnsw_again env) hR h ⟨false, live⟩ ⟨(Hnsw.new, s), false⟩
    ⟨rfl, (fun h => by cases h), fun _ => ⟨⟨0, rfl⟩, hn, hs, hl⟩⟩ hok).1

variable (hC : Counts L) (mem : σ → Option Nat) (caches : Bool) (hM : CachesSome L mem caches)

include hR hC hM hn hs hl in
/-- **C218** On a storage that keeps its content, the statistics of a client over an IVF index are true
after every history, also if `initialize` is called while it is open. -/
theorem C218_ivf_persistent (env : IvfEnv V D) (hk : Ivf.KMeansOk env)
    (hK : ∀ vs, vs ≠ [] → ∃ r, env.kmeans vs = .ok r) (hp : 0 ≤ env.nProbes)
    (h : List (ClCall (IxCall V M))) (hok : Db.HistOk okId okM false ⟨false, live⟩ h) :
    TrueStats caches (Db.after false ⟨false, live⟩ h)
      (Client.stats (ivfParts env B) B Ivf.statCount mem
        (Client.converse (ivfParts env B) ⟨(Ivf.new, s), false⟩ h).2) := by
  have hS := ivf_serves L env hk hK hp
  have hf := (again_all hS (ivf_again hk hK) hR h ⟨false, live⟩ ⟨(Ivf.new, s), false⟩
    ⟨rfl, (fun h => by cases h), fun _ => ⟨rfl, hn, hs, hl⟩⟩ hok).2
  exact follows_stats rfl rfl hS.nd hS.st hS.cont
    (fun h => by
      have e := h.core.inited
      simp only [Ivf.toFlat] at e
      simp [Ivf.statCount, e, h.cnt]) hC hM hf

include hR hC hM hn hs hl in
/-- **C218** The same for HNSW. -/
theorem C218_hnsw_persistent (env : HnswEnv V D)
    (h : List (ClCall (IxCall V M))) (hok : Db.HistOk okId okM false ⟨false, live⟩ h) :
    TrueStats caches (Db.after false ⟨false, live⟩ h)
      (Client.stats (hnswParts env B) B Hnsw.statCount mem
        (Client.converse (hnswParts env B) ⟨(Hnsw.new, s), false⟩ h).2) := by
  have hS := hnsw_serves_any L env
  have hf := (again_all hS (hnsw_again env) hR h ⟨false, live⟩ ⟨(Hnsw.new, s), false⟩
    ⟨rfl, (fun h => by cases h), fun _ => ⟨⟨0, rfl⟩, hn, hs, hl⟩⟩ hok).2
  refine follows_stats rfl rfl hS.nd hS.st hS.cont ?_ hC hM hf
  rintro l ⟨f, s'⟩ ⟨g, d, -, rfl, hi⟩
  have e1 : g.inited = true := hi.gr.inited
  have e2 : g.count = l.length := hi.gr.cnt
  simp [Hnsw.statCount, Hnsw.withV, e1, e2]

end main

/-- **C218** On a storage that forgets when it is initialised, a client over an HNSW index counts wrong
after every `initialize` of an open client: the storage counts nothing, the index counts all items that
were live before (hnsw.py:43-61 keeps `vectors` and `vector_count`).  So the statistics are false unless
there was nothing to forget. -/
theorem C218_reinit_refuted [LinearOrder D] (L : Lawful B okId okM) (hR : Reopens L true) (hC : Counts L)
    (mem : σ → Option Nat) (caches : Bool) (hM : CachesSome L mem caches) (s : σ)
    (env : HnswEnv V D) (h : List (ClCall (IxCall V M)))
    (hok : Db.HistOk okId okM true ⟨false, []⟩ h) (hop : Db.OpensClosed true ⟨false, []⟩ h)
    (ho : (Db.after true (⟨false, []⟩ : Db V M) h).isOpen = true) :
    let n := (Db.after true (⟨false, []⟩ : Db V M) h).live.length
    let r := Client.stats (hnswParts env B) B Hnsw.statCount mem
      (Client.converse (hnswParts env B) ⟨(Hnsw.new, s), false⟩ (h ++ [.init])).2
    r = .ok ⟨some 0, if caches then some 0 else none, some n, false, false⟩ ∧
    (TrueStats caches (Db.after true (⟨false, []⟩ : Db V M) (h ++ [.init])) r ↔ n = 0) := by
  intro n r
  have hf := follows_after (hnsw_serves L env) hR h ⟨false, []⟩ ⟨(Hnsw.new, s), false⟩
    ⟨rfl, (fun h => by cases h), fun _ => ⟨⟨0, rfl⟩, List.nodup_nil, (hR.volatile rfl s).1,
      (hR.volatile rfl s).2⟩⟩ hok hop
  have ec : (Client.converse (hnswParts env B) ⟨(Hnsw.new, s), false⟩ (h ++ [.init])).2 =
      (Client.ask (hnswParts env B) (Client.converse (hnswParts env B) ⟨(Hnsw.new, s), false⟩ h).2
        .init).2 := by
    rw [converse_append]; rfl
  have ed : Db.after true (⟨false, []⟩ : Db V M) (h ++ [.init]) = ⟨true, []⟩ := by
    simp [Db.after, Db.next]
  have hr : r = .ok ⟨some 0, if caches then some 0 else none, some n, false, false⟩ := by
    simp only [r, ec]
    revert hf
    rcases (Client.converse (hnswParts env B) ⟨(Hnsw.new, s), false⟩ h).2 with ⟨⟨f, s1⟩, b⟩
    rintro ⟨h1, h2, -⟩
    simp only [ho] at h1
    subst h1
    obtain ⟨live, hp, hi⟩ := h2 ho
    obtain ⟨i1, c1⟩ := hR.volatile rfl s1
    obtain ⟨l, s2, el, i2, c2, -, hmem⟩ := L.list i1
    have hl : l = [] := by
      rw [List.eq_nil_iff_forall_not_mem]
      intro id hid
      have := (hmem id).1 hid
      rw [c1 id] at this; cases this
    subst hl
    have e1 : Hnsw.init env B f (B.init s1) = (.ok (), { f with inited := true, levels := [[]] }, s2) := by
      simp only [Hnsw.init, el, Hnsw.loadAll]
    have e2 : Client.ask (hnswParts env B) ⟨(f, s1), true⟩ .init =
        (.unit (.ok ()), ⟨({ f with inited := true, levels := [[]] }, s2), true⟩) := by
      have e3 : Client.init (hnswParts env B) ⟨(f, s1), true⟩ =
          (.ok (), ⟨({ f with inited := true, levels := [[]] }, s2), true⟩) := by
        simp [Client.init, Client.steps, hnswParts, e1]
      simp only [Client.ask, e3]
    rw [e2]
    have hz : ∀ id, L.content s2 id = Live.find ([] : List (Item V M)) id := fun id => by
      rw [c2, c1]; rfl
    have k1 := hC s2 [] i2 List.nodup_nil hz
    have k2 := hM s2 [] i2 hz
    have k3 : f.count = n := by
      have := hi.gr.cnt
      simp only at this
      rw [this, ← hp.length_eq]
    have k4 : mem s2 = if caches then some 0 else none := by
      cases caches with
      | false => exact k2
      | true =>
        obtain ⟨m, hm, hle⟩ := k2
        have : m = 0 := by simpa using hle
        simp [hm, this]
    simp [Client.stats, hnswParts, k1, k4, Hnsw.statCount, k3]
  refine ⟨hr, ?_⟩
  rw [hr, ed]
  constructor
  · rintro ⟨m, e, -⟩
    simp only [Except.ok.injEq, ClientStats.mk.injEq, Option.some.injEq] at e
    exact e.2.2.1
  · intro h0
    refine ⟨if caches then some 0 else none, by rw [h0]; rfl, ?_⟩
    cases caches <;> simp

/-- Initialising twice with an insert between, on disk: the hypotheses hold and the second search finds
both items, with true counts. -/
example : Db.HistOk (OwnName exEnv) (fun m => exEnv.picklable m = true) false (⟨false, []⟩ : Db Nat Nat) exReinit ∧
    (Client.converse (hnswParts exHnswAll (diskBackend exEnv)) ⟨(Hnsw.new, Disk.opened (emptyDir Nat Nat)), false⟩
      exReinit).1.map seen = [.done, .ids ["a", "b"], .done, .ids ["c"],
        .hits [⟨"c", 1, none⟩, ⟨"a", 2, none⟩, ⟨"b", 26, none⟩]] := by
  refine ⟨?_, by decide +kernel⟩
  simp [exReinit, Db.HistOk, Db.next, Live.CallOk, Live.next, Live.items, Live.has, OwnName]
  decide +kernel

/-- In memory, two items live: the storage counts none, the index two. -/
example :
    Db.HistOk (fun _ => True) (fun _ => True) true (⟨false, []⟩ : Db Nat Nat) (exReinit.take 2) ∧
    Db.OpensClosed true (⟨false, []⟩ : Db Nat Nat) (exReinit.take 2) ∧
    (Db.after true (⟨false, []⟩ : Db Nat Nat) (exReinit.take 2)).live.length = 2 ∧
    Client.stats (hnswParts exHnswAll (memBackend Nat Nat)) (memBackend Nat Nat) Hnsw.statCount
      (fun _ => none) (Client.converse (hnswParts exHnswAll (memBackend Nat Nat))
        ⟨(Hnsw.new, Mem.new), false⟩ (exReinit.take 2 ++ [.init])).2 =
      .ok ⟨some 0, none, some 2, false, false⟩ := by
  refine ⟨?_, ?_, ?_, by decide⟩
  · simp [exReinit, Db.HistOk, Db.next, Live.CallOk, Live.has]
  · simp [exReinit, Db.OpensClosed, Db.next]
  · rfl

end Valori.Props
