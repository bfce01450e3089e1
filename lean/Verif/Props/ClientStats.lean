import Verif.Model.ClientStats
import Verif.Props.CrashIndices

/-!
# Property C218: the statistics of a client
-/

namespace Valori.Props
open Valori Valori.Spec

variable {σ V M D X : Type} {B : Backend σ V M} {okId : Id → Prop} {okM : M → Prop}

/-- A storage that counts what it holds. -/
def Counts (L : Lawful B okId okM) : Prop :=
  ∀ s (live : List (Item V M)), L.inv s → (Live.idsOf live).Nodup →
    (∀ id, L.content s id = Live.find live id) → B.count s = some live.length

/-- Every refinement of the abstract store counts. -/
theorem refines_counts {vol : Bool} {scan : List String → List String}
    {nm : Id → Id} {okId₀ okId : Id → Prop} {okM : M → Prop}
    (R : Refines B vol scan nm okId₀ okM) (hok : ∀ i, okId i → okId₀ i)
    (hnm : ∀ i, okId i → nm i = i) (hscan : ∀ l, (scan l).Perm l) :
    Counts (R.lawful hok hnm hscan) := by
  rintro s live ⟨h1, h2, h3, h4⟩ hn hc
  have st := (R.step s .count h1 (by simp [Call.ids]) (by simp [Call.metas])).2
  simp only [Call.mapId, Store.step, h2, if_true] at st
  have e1 : (B.call s .count).1 = .num (R.abs s).order.length := (Prod.mk.inj st).1
  have hp : (R.abs s).order.Perm (Live.idsOf live) := by
    rw [List.perm_ext_iff_of_nodup h3.1 hn]
    intro id
    rw [h3.2 id]
    have e : (R.abs s).content id = Live.find live id := hc id
    rw [e, Live.find_isSome, Live.has_iff]
  have hlen : (R.abs s).order.length = live.length := by
    rw [hp.length_eq]; simp [Live.idsOf]
  rcases hcnt : B.count s with _ | n
  · simp [Backend.call, hcnt] at e1
  · simp only [Backend.call, hcnt, Reply.num.injEq] at e1
    rw [e1, hlen]

/-- The part of a storage that is in memory: none, or at most all items. -/
def CachesSome (L : Lawful B okId okM) (mem : σ → Option Nat) (caches : Bool) : Prop :=
  ∀ s (live : List (Item V M)), L.inv s → (∀ id, L.content s id = Live.find live id) →
    if caches then ∃ n, mem s = some n ∧ n ≤ live.length else mem s = none

/-- True statistics of a database: a closed one refuses; an open one gives the number of its items as
count of the storage and as count of the index, with at most as many in memory if the storage caches,
and no other components. -/
def TrueStats (caches : Bool) (db : Db V M) (r : Except Err ClientStats) : Prop :=
  if db.isOpen then
    ∃ m, r = .ok ⟨some db.live.length, m, some db.live.length, false, false⟩ ∧
      if caches then ∃ n, m = some n ∧ n ≤ db.live.length else m = none
  else r = .error .valori

section clients
variable {L : Lawful B okId okM} {P : Parts (X × σ) (IxCall V M) (FwdReply D M)} {fresh : X → Prop}
  {Inv : List (Item V M) → X × σ → Prop} {ix : X → Option Nat} {mem : σ → Option Nat} {caches : Bool}

theorem follows_stats (hq : P.quantInit = none) (hpi : P.persInit = none)
    (hnd : ∀ {live t}, Inv live t → (Live.idsOf live).Nodup)
    (hst : ∀ {live t}, Inv live t → L.inv t.2)
    (hct : ∀ {live t}, Inv live t → L.content t.2 = Live.find live)
    (hix : ∀ {live t}, Inv live t → ix t.1 = some live.length)
    (hC : Counts L) (hM : CachesSome L mem caches) {db : Db V M} {c : Client (X × σ)}
    (h : Follows L fresh Inv db c) : TrueStats caches db (Client.stats P B ix mem c) := by
  obtain ⟨⟨x, s⟩, b⟩ := c
  obtain ⟨o, live⟩ := db
  obtain ⟨h1, h2, -⟩ := h
  simp only at h1 h2
  subst h1
  cases b with
  | false => rfl
  | true =>
    obtain ⟨live', hp, hinv⟩ := h2 rfl
    have hf : ∀ id, L.content s id = Live.find live' id := fun id => by
      have := hct hinv; simp only at this; rw [this]
    refine ⟨mem s, ?_, ?_⟩
    · have e1 := hC s live' (hst hinv) (hnd hinv) hf
      have e2 := hix hinv
      simp only at e2
      simp [Client.stats, e1, e2, hq, hpi, hp.length_eq]
    · simp only [hp.length_eq]
      exact hM s live' (hst hinv) hf

end clients

theorem sim_after_any [LinearOrder D] {L : Lawful B okId okM} {vol : Bool} (hR : Reopens L vol)
    (env : FlatEnv V D) (ha : IsArgsort env.argsort) (h : List (ClCall (IxCall V M))) :
    ∀ (db : Db V M) (c : Client (Flat V × σ)), Sim L db c → Db.HistOk okId okM vol db h →
      Sim L (Db.after vol db h) (Client.converse (flatParts env B) c h).2 := by
  induction h with
  | nil => intro db c hs _; exact hs
  | cons x h ih =>
    intro db c hs hok
    exact ih _ _ (sim_step hR env ha hs x hok.1).2 hok.2

section main
variable [LinearOrder D] (L : Lawful B okId okM) (vol : Bool) (hR : Reopens L vol) (hC : Counts L)
  (mem : σ → Option Nat) (caches : Bool) (hM : CachesSome L mem caches) (s : σ)
  (live : List (Item V M)) (hn : (live.map Item.id).Nodup) (hs : L.inv (B.init s))
  (hl : ∀ id, L.content (B.init s) id = Live.find live id)

include hR hC hM hn hs hl in
/-- **C218** After every history of calls, the statistics of a client over a flat index are true: a
closed client refuses; an open one gives the number of live items as count of the storage and as count of
the index. -/
theorem C218_flat (env : FlatEnv V D) (ha : IsArgsort env.argsort) (h : List (ClCall (IxCall V M)))
    (hok : Db.HistOk okId okM vol ⟨false, live⟩ h) :
    TrueStats caches (Db.after vol ⟨false, live⟩ h)
      (Client.stats (flatParts env B) B Flat.statCount mem
        (Client.converse (flatParts env B) ⟨(Flat.new, s), false⟩ h).2) := by
  have hsim := sim_after_any hR env ha h ⟨false, live⟩ ⟨(Flat.new, s), false⟩
    ⟨rfl, (fun h => by cases h), fun _ => ⟨rfl, hn, hs, hl⟩⟩ hok
  exact follows_stats (L := L) (fresh := fun f : Flat V => f.cache = []) (Inv := Flat.Inv L) rfl rfl
    (fun h => h.nd) (fun h => h.st) (fun h => h.cont)
    (fun h => by simp [Flat.statCount, h.inited, h.cnt]) hC hM hsim

include hR hC hM hn hs hl in
/-- **C218** The same for an IVF index, if `initialize` is called on a closed client only. -/
theorem C218_ivf_partial (env : IvfEnv V D) (hk : Ivf.KMeansOk env)
    (hK : ∀ vs, vs ≠ [] → ∃ r, env.kmeans vs = .ok r) (hp : 0 ≤ env.nProbes)
    (h : List (ClCall (IxCall V M))) (hok : Db.HistOk okId okM vol ⟨false, live⟩ h)
    (hop : Db.OpensClosed vol ⟨false, live⟩ h) :
    TrueStats caches (Db.after vol ⟨false, live⟩ h)
      (Client.stats (ivfParts env B) B Ivf.statCount mem
        (Client.converse (ivfParts env B) ⟨(Ivf.new, s), false⟩ h).2) := by
  have hS := ivf_serves L env hk hK hp
  have hf := follows_after hS hR h ⟨false, live⟩ ⟨(Ivf.new, s), false⟩
    ⟨rfl, (fun h => by cases h), fun _ => ⟨rfl, hn, hs, hl⟩⟩ hok hop
  exact follows_stats rfl rfl hS.nd hS.st hS.cont
    (fun h => by
      have e := h.core.inited
      simp only [Ivf.toFlat] at e
      simp [Ivf.statCount, e, h.cnt]) hC hM hf

include hR hC hM hn hs hl in
/-- **C218** The same for an HNSW index, if `initialize` is called on a closed client only. -/
theorem C218_hnsw_partial (env : HnswEnv V D)
    (h : List (ClCall (IxCall V M))) (hok : Db.HistOk okId okM vol ⟨false, live⟩ h)
    (hop : Db.OpensClosed vol ⟨false, live⟩ h) :
    TrueStats caches (Db.after vol ⟨false, live⟩ h)
      (Client.stats (hnswParts env B) B Hnsw.statCount mem
        (Client.converse (hnswParts env B) ⟨(Hnsw.new, s), false⟩ h).2) := by
  have hS := hnsw_serves L env
  have hf := follows_after hS hR h ⟨false, live⟩ ⟨(Hnsw.new, s), false⟩
    ⟨rfl, (fun h => by cases h), fun _ => ⟨⟨0, rfl⟩, hn, hs, hl⟩⟩ hok hop
  exact follows_stats rfl rfl hS.nd hS.st hS.cont
    (fun h => by simp [Hnsw.statCount, h.gr.inited, h.gr.cnt]) hC hM hf

end main

section instances
variable [ByteSize V] [ByteSize M]

/-- **C218** In-memory storage counts what it holds. -/
theorem C218_memory : Counts (memLawful (V := V) (M := M)) ∧
    CachesSome (memLawful (V := V) (M := M)) (fun _ => none) false :=
  ⟨refines_counts _ _ _ _, fun _ _ _ _ => rfl⟩

omit [ByteSize V] [ByteSize M] in
/-- **C218** Disk storage counts what it holds. -/
theorem C218_disk (denv : DiskEnv M) (hg : ∀ l, (denv.glob l).Perm l) :
    Counts (diskLawful (V := V) denv hg) ∧
    CachesSome (diskLawful (V := V) denv hg) (fun _ => none) false :=
  ⟨refines_counts _ _ _ _, fun _ _ _ _ => rfl⟩

/-- **C218** Hybrid storage counts what it holds on disk, and never more in memory. -/
theorem C218_hybrid (denv : DiskEnv M) (hg : ∀ l, (denv.glob l).Perm l) :
    Counts (hybLawful (V := V) denv hg) ∧
    CachesSome (hybLawful (V := V) denv hg) Hyb.memCount true := by
  refine ⟨refines_counts _ _ _ _, ?_⟩
  rintro s live ⟨h1, h2, -, h4⟩ hc
  have h1 : Hyb.Inv denv (OwnName denv) s := h1
  have h2 : s.inited = true := h2
  refine ⟨s.mem.vectors.length, ?_, ?_⟩
  · simp [Hyb.memCount, h2, Mem.statCount, h1.mi, h1.mem.cnt]
  · have hsub : s.mem.vectors.keys ⊆ Live.idsOf live := by
      intro id hid
      have hi : s.mem.vectors.mem id = true := (Dict.mem_keys _ _).1 hid
      obtain ⟨v, hv⟩ := Option.isSome_iff_exists.1 ((Dict.mem_keys _ _).1 hid)
      obtain ⟨hP, hd⟩ := h1.coh id (v, s.mem.metadata.get? id) (by
        simp [Mem.at', Mem.contentOf, hv])
      have hP : sanitize denv id = id := hP
      rw [hP] at hd
      have e : s.disk.dir.content id = Live.find live id := hc id
      rw [← Live.has_iff, ← Live.find_isSome, ← e, hd]; rfl
    have := (List.subperm_of_subset h1.mem.vnd hsub).length_le
    rw [Dict.length_keys] at this
    simpa [Live.idsOf] using this

end instances

/-- **C218** is false of the code for HNSW without the condition on `initialize`: the index keeps its
vectors and its count when it is initialised again while in-memory storage empties itself, so that the
two counts disagree (hnsw.py:43-61, memory.py:31-38). -/
theorem C218_hnsw_refuted :
    ¬ ∀ h : List (ClCall (IxCall Nat Nat)),
      Db.HistOk (fun _ => True) (fun _ => True) true ⟨false, []⟩ h →
      TrueStats false (Db.after true (⟨false, []⟩ : Db Nat Nat) h)
        (Client.stats (hnswParts exHnswAll (memBackend Nat Nat)) (memBackend Nat Nat) Hnsw.statCount
          (fun _ => none)
          (Client.converse (hnswParts exHnswAll (memBackend Nat Nat)) ⟨(Hnsw.new, Mem.new), false⟩
            h).2) := by
  intro hall
  have h := hall exReinit exReinit_ok
  have e : Client.stats (hnswParts exHnswAll (memBackend Nat Nat)) (memBackend Nat Nat) Hnsw.statCount
      (fun _ => none) (Client.converse (hnswParts exHnswAll (memBackend Nat Nat))
        ⟨(Hnsw.new, Mem.new), false⟩ exReinit).2 = .ok ⟨some 1, none, some 3, false, false⟩ := by decide
  rw [e] at h
  simp [TrueStats, exReinit, Db.after, Db.next, Live.next, Live.items] at h

/-- On hybrid storage with room for one item in memory: two live items after an insert of three and a
delete; a closed client refuses. -/
example :
    let P := ivfParts exIvfAll (hybBackend exEnv)
    let c : Client (Ivf Nat × Hyb Nat Nat) := ⟨(Ivf.new, Hyb.opened (emptyDir Nat Nat) 1), false⟩
    Client.stats P (hybBackend exEnv) Ivf.statCount Hyb.memCount
      (Client.converse P c (exApproxHist.take 4)).2 = .ok ⟨some 2, some 1, some 2, false, false⟩ ∧
    Client.stats P (hybBackend exEnv) Ivf.statCount Hyb.memCount
      (Client.converse P c (exApproxHist.take 7)).2 = .error .valori := by decide +kernel

end Valori.Props
