import Verif.Props.IvfExact

/-!
# Closing and opening a persistent database (C228)

On storage that keeps its content, closing and opening a database keeps what it holds.  A flat index and
an IVF index that probes all clusters then answer as before; an IVF index trains again and an HNSW index
draws a new graph, so that the same search may return other items.
-/

namespace Valori.Props
open Valori.Spec

variable {σ V M D : Type} {B : Backend σ V M} {okId : Id → Prop} {okM : M → Prop}

theorem after_reopened (live : List (Item V M)) (h : List (ClCall (IxCall V M)))
    (ho : (Db.after false ⟨false, live⟩ h).isOpen = true) :
    Db.after false ⟨false, live⟩ (h ++ [.close, .init]) = Db.after false ⟨false, live⟩ h := by
  simp only [Db.after, List.foldl_append, List.foldl_cons, List.foldl_nil] at ho ⊢
  revert ho
  generalize h.foldl (Db.next false) ⟨false, live⟩ = db
  obtain ⟨o, l⟩ := db
  rintro rfl
  rfl

theorem histOk_join (h g : List (ClCall (IxCall V M))) : ∀ db : Db V M, Db.HistOk okId okM false db h →
    Db.HistOk okId okM false (Db.after false db h) g → Db.HistOk okId okM false db (h ++ g) := by
  induction h with
  | nil => intro db _ h2; exact h2
  | cons x h ih => intro db h1 h2; exact ⟨h1.1, ih _ h1.2 h2⟩

theorem histOk_reopened (live : List (Item V M)) (h : List (ClCall (IxCall V M)))
    (hok : Db.HistOk okId okM false ⟨false, live⟩ h) :
    Db.HistOk okId okM false ⟨false, live⟩ (h ++ [.close, .init]) :=
  histOk_join h _ _ hok ⟨trivial, trivial, trivial⟩

/-- Both answers are search results, or they are equal. -/
def DbAns.Alike (a b : DbAns D M) : Prop := a = b ∨ ∃ l l', a = .hits l ∧ b = .hits l'

/-- Two right answers of the same honest database differ in search results only. -/
theorem honest_alike {good : List (Item V M) → V → Int → List (Hit D M) → Prop}
    {db : Db V M} {x : ClCall (IxCall V M)}
    {a b : DbAns D M} (ha : Db.RightBy (fun _ _ => False) good db x a)
    (hb : Db.RightBy (fun _ _ => False) good db x b) : DbAns.Alike a b := by
  cases x with
  | init => exact .inl (ha.trans hb.symm)
  | close => exact .inl (ha.trans hb.symm)
  | request c =>
    simp only [Db.RightBy] at ha hb
    by_cases hop : db.isOpen = false
    · rw [if_pos hop] at ha hb
      exact .inl (ha.trans hb.symm)
    · rw [if_neg hop] at ha hb
      cases c with
      | insert nd rows mds =>
        simp only at ha hb
        split at ha
        · rename_i hnd
          rw [if_pos hnd] at hb
          exact .inl ((ha.resolve_right fun x => x.1).trans (hb.resolve_right fun x => x.1).symm)
        · rename_i hnd
          rw [if_neg hnd] at hb
          exact .inl (ha.trans hb.symm)
      | delete ids => exact .inl (ha.trans hb.symm)
      | update id v m =>
        exact .inl ((ha.resolve_right fun x => x.1).trans (hb.resolve_right fun x => x.1).symm)
      | search nd q k =>
        simp only at ha hb
        split at ha
        · rename_i hnd
          rw [if_pos hnd] at hb
          obtain ⟨l, e, -⟩ := (ha.resolve_right fun x => x.1)
          obtain ⟨l', e', -⟩ := (hb.resolve_right fun x => x.1)
          exact .inr ⟨l, l', e, e'⟩
        · rename_i hnd
          rw [if_neg hnd] at hb
          exact .inl (ha.trans hb.symm)

theorem honest_all {good : List (Item V M) → V → Int → List (Hit D M) → Prop}
    (h : List (ClCall (IxCall V M))) :
    ∀ (db : Db V M) (as bs : List (DbAns D M)), Db.AllRightBy false (fun _ _ => False) good db h as →
    Db.AllRightBy false (fun _ _ => False) good db h bs → List.Forall₂ DbAns.Alike as bs := by
  induction h with
  | nil =>
    intro db as bs ha hb
    cases as <;> cases bs <;> first | exact .nil | exact ha.elim | exact hb.elim
  | cons x h ih =>
    intro db as bs ha hb
    cases as with
    | nil => exact ha.elim
    | cons a as =>
      cases bs with
      | nil => exact hb.elim
      | cons b bs => exact .cons (honest_alike ha.1 hb.1) (ih _ as bs ha.2 hb.2)

theorem allRightBy_mono {may may' : List (Item V M) → IxCall V M → Prop}
    {good : List (Item V M) → V → Int → List (Hit D M) → Prop} (hm : ∀ l c, may l c → may' l c)
    (h : List (ClCall (IxCall V M))) : ∀ (db : Db V M) (as : List (DbAns D M)),
    Db.AllRightBy false may good db h as → Db.AllRightBy false may' good db h as := by
  induction h with
  | nil => intro db as ha; cases as <;> exact ha
  | cons x h ih =>
    intro db as ha
    cases as with
    | nil => exact ha
    | cons a as =>
      refine ⟨?_, ih _ _ ha.2⟩
      have := ha.1
      cases x with
      | init => exact this
      | close => exact this
      | request c =>
        simp only [Db.RightBy] at this ⊢
        split
        · rename_i ho; rw [if_pos ho] at this; exact this
        · rename_i ho
          rw [if_neg ho] at this
          cases c with
          | insert nd rows mds =>
            simp only at this ⊢
            split
            · rename_i hnd
              rw [if_pos hnd] at this
              exact this.imp_right fun x => ⟨hm _ _ x.1, x.2⟩
            · rename_i hnd
              rw [if_neg hnd] at this
              exact this
          | delete ids => exact this
          | update id v m => exact this.imp_right fun x => ⟨hm _ _ x.1, x.2⟩
          | search nd q k =>
            simp only at this ⊢
            split
            · rename_i hnd
              rw [if_pos hnd] at this
              exact this.imp_right fun x => ⟨hm _ _ x.1, x.2⟩
            · rename_i hnd
              rw [if_neg hnd] at this
              exact this

section reopened
variable [LinearOrder D] (L : Lawful B okId okM) (hR : Reopens L false) (s : σ) (live : List (Item V M))
  (hn : (live.map Item.id).Nodup) (hs : L.inv (B.init s))
  (hl : ∀ id, L.content (B.init s) id = Live.find live id)

include hR hn hs hl in
/-- **C228** An IVF database that probes all clusters answers after closing and opening as before. -/
theorem C228_ivf_exact_partial (env : IvfEnv V D) (hk : Ivf.KMeansOk env)
    (hK : ∀ vs, vs ≠ [] → ∃ r, env.kmeans vs = .ok r) (hp : 0 ≤ env.nProbes)
    (hc : ∀ vs cs ls, env.kmeans vs = .ok (cs, ls) → (cs.length : Int) ≤ env.nProbes) (d : V → V → D)
    (hd : ∀ a b, env.dist a b = .ok (d a b)) (h g : List (ClCall (IxCall V M)))
    (ho : (Db.after false ⟨false, live⟩ h).isOpen = true)
    (hok : Db.HistOk okId okM false ⟨false, live⟩ (h ++ g)) :
    let P := ivfParts env B
    let c : Client (Ivf V × σ) := ⟨(Ivf.new, s), false⟩
    List.Forall₂ DbAns.Agree ((Client.converse P (Client.converse P c h).2 g).1.map seen)
      ((Client.converse P (Client.converse P c (h ++ [.close, .init])).2 g).1.map seen) := by
  intro P c
  have hS := ivfWhole_serves L env hk hK hp hc hd
  have hA := ivfWhole_again (L := L) (env := env) hk hK hc
  have f0 : Follows L (· = Ivf.new) (IvfWhole L env) ⟨false, live⟩ c :=
    ⟨rfl, (fun h => by cases h), fun _ => ⟨rfl, hn, hs, hl⟩⟩
  obtain ⟨k1, k2⟩ := histOk_append h g _ hok
  have f1 := (again_all hS hA hR h _ _ f0 k1).2
  have f2 := (again_all hS hA hR _ _ _ f0 (histOk_reopened live h k1)).2
  rw [after_reopened live h ho] at f2
  have hnd : ∀ n, (Live.idsOf (Db.after false (Db.after false ⟨false, live⟩ h) (g.take n)).live).Nodup := by
    intro n
    have hk3 : Db.HistOk okId okM false (Db.after false ⟨false, live⟩ h) (g.take n) := by
      rw [← List.take_append_drop n g] at k2
      exact (histOk_append _ _ _ k2).1
    have f3 := (again_all hS hA hR _ _ _ f1 hk3).2
    cases hb : (Db.after false (Db.after false ⟨false, live⟩ h) (g.take n)).isOpen with
    | true =>
      obtain ⟨l, hp, hi⟩ := f3.2.1 hb
      exact (hp.map Item.id).nodup_iff.2 (hS.nd hi)
    | false => exact (f3.2.2 hb).2.1
  exact allRight_agree g _ _ _ hnd (allRight_of_by g _ _ (again_all hS hA hR g _ _ f1 k2).1)
    (allRight_of_by g _ _ (again_all hS hA hR g _ _ f2 k2).1)

include hR hn hs hl in
/-- **C228** Any IVF database: closing and opening may change the results of searches only. -/
theorem C228_ivf_partial (env : IvfEnv V D) (hk : Ivf.KMeansOk env)
    (hK : ∀ vs, vs ≠ [] → ∃ r, env.kmeans vs = .ok r) (hp : 0 ≤ env.nProbes)
    (hd : ∀ a b, ∃ d, env.dist a b = .ok d) (h g : List (ClCall (IxCall V M)))
    (ho : (Db.after false ⟨false, live⟩ h).isOpen = true)
    (hok : Db.HistOk okId okM false ⟨false, live⟩ (h ++ g)) :
    let P := ivfParts env B
    let c : Client (Ivf V × σ) := ⟨(Ivf.new, s), false⟩
    List.Forall₂ DbAns.Alike ((Client.converse P (Client.converse P c h).2 g).1.map seen)
      ((Client.converse P (Client.converse P c (h ++ [.close, .init])).2 g).1.map seen) := by
  intro P c
  have hS := ivf_serves L env hk hK hp
  have hA := ivf_again (L := L) (env := env) hk hK
  have f0 : Follows L (· = Ivf.new) (Ivf.Inv L) ⟨false, live⟩ c :=
    ⟨rfl, (fun h => by cases h), fun _ => ⟨rfl, hn, hs, hl⟩⟩
  obtain ⟨k1, k2⟩ := histOk_append h g _ hok
  have f1 := (again_all hS hA hR h _ _ f0 k1).2
  have f2 := (again_all hS hA hR _ _ _ f0 (histOk_reopened live h k1)).2
  rw [after_reopened live h ho] at f2
  have hm : ∀ (l : List (Item V M)) (c : IxCall V M), (∃ a b e, env.dist a b = .error e) → False := by
    rintro - - ⟨a, b, e, he⟩
    obtain ⟨d, hd⟩ := hd a b
    rw [hd] at he; cases he
  exact honest_all g _ _ _
    (allRightBy_mono hm g _ _ (again_all hS hA hR g _ _ f1 k2).1)
    (allRightBy_mono hm g _ _ (again_all hS hA hR g _ _ f2 k2).1)

include hR hn hs hl in
/-- **C228** The same for HNSW, for every outcome of the random choices. -/
theorem C228_hnsw_partial (env : HnswEnv V D) (hd : ∀ a b, ∃ d, env.dist a b = .ok d)
    (h g : List (ClCall (IxCall V M))) (ho : (Db.after false ⟨false, live⟩ h).isOpen = true)
    (hok : Db.HistOk okId okM false ⟨false, live⟩ (h ++ g)) :
    let P := hnswParts env B
    let c : Client (Hnsw V × σ) := ⟨(Hnsw.new, s), false⟩
    List.Forall₂ DbAns.Alike ((Client.converse P (Client.converse P c h).2 g).1.map seen)
      ((Client.converse P (Client.converse P c (h ++ [.close, .init])).2 g).1.map seen) := by
  intro P c
  have hS := hnsw_serves_any L env
  have hA := hnsw_again (L := L) env
  have f0 : Follows L (fun f => ∃ n, f = ⟨[], [], 0, 0, false, n⟩) (HnswHolds L) ⟨false, live⟩ c :=
    ⟨rfl, (fun h => by cases h), fun _ => ⟨⟨0, rfl⟩, hn, hs, hl⟩⟩
  obtain ⟨k1, k2⟩ := histOk_append h g _ hok
  have f1 := (again_all hS hA hR h _ _ f0 k1).2
  have f2 := (again_all hS hA hR _ _ _ f0 (histOk_reopened live h k1)).2
  rw [after_reopened live h ho] at f2
  have hm : ∀ (l : List (Item V M)) (c : IxCall V M),
      (∃ q k, c = .search 1 q k ∧ ∃ y ∈ l, ∃ e, env.dist q y.vec = .error e) → False := by
    rintro - - ⟨q, k, -, y, -, e, he⟩
    obtain ⟨d, hd⟩ := hd q y.vec
    rw [hd] at he; cases he
  exact honest_all g _ _ _
    (allRightBy_mono hm g _ _ (again_all hS hA hR g _ _ f1 k2).1)
    (allRightBy_mono hm g _ _ (again_all hS hA hR g _ _ f2 k2).1)

end reopened

/-- k-means that takes the first and the last vector as centroids. -/
def exIvfEndsAt : IvfEnv Nat Nat where
  nClusters := 2
  nProbes := 1
  dist a b := .ok ((a - b) + (b - a))
  kmeans vs := .ok ([vs.headD 0, vs.getLastD 0],
    vs.map fun v => if (v - vs.headD 0) + (vs.headD 0 - v) ≤ (v - vs.getLastD 0) + (vs.getLastD 0 - v)
      then 0 else 1)

/-- Four vectors, the index is trained after the first two. -/
def exIvfGrown : List (ClCall (IxCall Nat Nat)) :=
  [.init, .request (.insert 2 [("a", 0), ("b", 10)] none), .request (.insert 2 [("c", 6)] none),
   .request (.insert 2 [("d", 4)] none)]

/-- **C228** With fewer probes the claim is false of the code: closing and opening a disk database trains the
index again on all vectors, and the same search gives another answer, with other distances. -/
theorem C228_ivf_refuted :
    ¬ ∀ h : List (ClCall (IxCall Nat Nat)),
      Db.HistOk (OwnName exEnv) (fun m => exEnv.picklable m = true) false ⟨false, []⟩ h →
      Db.OpensClosed false ⟨false, []⟩ h → (Db.after false (⟨false, []⟩ : Db Nat Nat) h).isOpen = true →
      let P := ivfParts exIvfEndsAt (diskBackend exEnv)
      let c : Client (Ivf Nat × Disk Nat Nat) := ⟨(Ivf.new, Disk.opened (emptyDir Nat Nat)), false⟩
      let g : List (ClCall (IxCall Nat Nat)) := [.request (.search 1 5 2)]
      List.Forall₂ DbAns.Agree ((Client.converse P (Client.converse P c h).2 g).1.map seen)
        ((Client.converse P (Client.converse P c (h ++ [.close, .init])).2 g).1.map seen) := by
  intro hall
  have h := hall exIvfGrown
    (by
      simp [exIvfGrown, Db.HistOk, Db.next, Live.CallOk, Live.next, Live.items, Live.has, OwnName]
      decide +kernel)
    (by simp [exIvfGrown, Db.OpensClosed, Db.next]) rfl
  simp only at h
  rw [show (Client.converse (ivfParts exIvfEndsAt (diskBackend exEnv)) (Client.converse
      (ivfParts exIvfEndsAt (diskBackend exEnv)) ⟨(Ivf.new, Disk.opened (emptyDir Nat Nat)), false⟩
      exIvfGrown).2 [.request (.search 1 5 2)]).1.map seen =
      [.hits [⟨"d", 1, none⟩, ⟨"a", 5, none⟩]] by decide +kernel,
    show (Client.converse (ivfParts exIvfEndsAt (diskBackend exEnv)) (Client.converse
      (ivfParts exIvfEndsAt (diskBackend exEnv)) ⟨(Ivf.new, Disk.opened (emptyDir Nat Nat)), false⟩
      (exIvfGrown ++ [.close, .init])).2 [.request (.search 1 5 2)]).1.map seen =
      [.hits [⟨"c", 1, none⟩, ⟨"d", 1, none⟩]] by decide +kernel] at h
  cases h with
  | cons h1 _ => exact absurd h1.1 (by decide)

/-- One link for each vector; the later draws pick the new vector itself, which gives no link. -/
def exHnswDraws : HnswEnv Nat Nat where
  efSearch := 50
  dist a b := .ok ((a - b) + (b - a))
  rnd i := ⟨0, fun _ l => if i < 3 then l.take 1 else l.drop (l.length - 1)⟩

/-- Three vectors. -/
def exHnswGrown : List (ClCall (IxCall Nat Nat)) :=
  [.init, .request (.insert 2 [("a", 0), ("b", 10), ("c", 6)] none)]

theorem exHnswGrown_ok :
    Db.HistOk (OwnName exEnv) (fun m => exEnv.picklable m = true) false (⟨false, []⟩ : Db Nat Nat)
      exHnswGrown := by
  simp [exHnswGrown, Db.HistOk, Db.next, Live.CallOk, Live.next, Live.items, Live.has, OwnName]
  decide +kernel

/-- **C228** For HNSW the claim is false of the code too: opening draws a new graph, and a vector that
a search found before is not found any more. -/
theorem C228_hnsw_refuted :
    ¬ ∀ h : List (ClCall (IxCall Nat Nat)),
      Db.HistOk (OwnName exEnv) (fun m => exEnv.picklable m = true) false ⟨false, []⟩ h →
      Db.OpensClosed false ⟨false, []⟩ h → (Db.after false (⟨false, []⟩ : Db Nat Nat) h).isOpen = true →
      let P := hnswParts exHnswDraws (diskBackend exEnv)
      let c : Client (Hnsw Nat × Disk Nat Nat) := ⟨(Hnsw.new, Disk.opened (emptyDir Nat Nat)), false⟩
      let g : List (ClCall (IxCall Nat Nat)) := [.request (.search 1 5 1)]
      List.Forall₂ DbAns.Agree ((Client.converse P (Client.converse P c h).2 g).1.map seen)
        ((Client.converse P (Client.converse P c (h ++ [.close, .init])).2 g).1.map seen) := by
  intro hall
  have h := hall exHnswGrown exHnswGrown_ok (by simp [exHnswGrown, Db.OpensClosed, Db.next]) rfl
  simp only at h
  rw [show (Client.converse (hnswParts exHnswDraws (diskBackend exEnv)) (Client.converse
      (hnswParts exHnswDraws (diskBackend exEnv)) ⟨(Hnsw.new, Disk.opened (emptyDir Nat Nat)), false⟩
      exHnswGrown).2 [.request (.search 1 5 1)]).1.map seen =
      [.hits [⟨"c", 1, none⟩]] by decide +kernel,
    show (Client.converse (hnswParts exHnswDraws (diskBackend exEnv)) (Client.converse
      (hnswParts exHnswDraws (diskBackend exEnv)) ⟨(Hnsw.new, Disk.opened (emptyDir Nat Nat)), false⟩
      (exHnswGrown ++ [.close, .init])).2 [.request (.search 1 5 1)]).1.map seen =
      [.hits [⟨"a", 5, none⟩]] by decide +kernel] at h
  cases h with
  | cons h1 _ => exact absurd h1.1 (by decide)

/-- The hypotheses of the positive theorems hold for these histories, followed by a request. -/
example : Db.HistOk (OwnName exEnv) (fun m => exEnv.picklable m = true) false (⟨false, []⟩ : Db Nat Nat)
      (exHnswGrown ++ [.request (.search 1 5 1)]) ∧
    (Db.after false (⟨false, []⟩ : Db Nat Nat) exHnswGrown).isOpen = true ∧
    (∀ a b, ∃ d, exHnswDraws.dist a b = .ok d) ∧ (∀ a b, ∃ d, exIvfEndsAt.dist a b = .ok d) :=
  ⟨histOk_join _ _ _ exHnswGrown_ok ⟨fun _ => trivial, trivial⟩, rfl, fun _ _ => ⟨_, rfl⟩, fun _ _ => ⟨_, rfl⟩⟩

end Valori.Props
