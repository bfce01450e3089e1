import Verif.Props.Oblivious
import Verif.Props.IvfExact
import Verif.Props.Lsh
import Verif.Props.Annoy
import Verif.Props.Saq

/-!
# Asking for more results (C229)

A search for more results gives the same results first and further ones after them.  The theorems hold
for every state of the client, its index and its storage, also for states no history reaches.
-/

namespace Valori.Props
open Valori.Spec

section
variable {σ V M D : Type} {B : Backend σ V M}

theorem fetchMeta_prefix (l : List (Id × D)) (n : Nat) : ∀ (s s' : σ) (hits : List (Hit D M)),
    fetchMeta B l s = (.ok hits, s') → ∃ s'', fetchMeta B (l.take n) s = (.ok (hits.take n), s'') := by
  induction l generalizing n with
  | nil =>
    intro s s' hits h
    simp only [fetchMeta, Prod.mk.injEq, Except.ok.injEq] at h
    exact ⟨s, by simp [fetchMeta, ← h.1]⟩
  | cons x l ih =>
    obtain ⟨id, d⟩ := x
    intro s s' hits h
    cases n with
    | zero => exact ⟨s, by simp [fetchMeta]⟩
    | succ n =>
      simp only [fetchMeta] at h
      simp only [List.take_succ_cons, fetchMeta]
      rcases hr : B.retrieve s id with ⟨_ | _ | ⟨v, m⟩, s1⟩
      · rw [hr] at h; simp at h
      · rw [hr] at h; simp at h
      · rw [hr] at h
        simp only at h ⊢
        rcases hf : fetchMeta B l s1 with ⟨_ | hs, s2⟩
        · rw [hf] at h; simp at h
        · rw [hf] at h
          simp only [Prod.mk.injEq, Except.ok.injEq] at h
          obtain ⟨s3, e⟩ := ih n s1 s2 hs hf
          exact ⟨s3, by rw [e, ← h.1]; rfl⟩

theorem fetchMeta_length (l : List (Id × D)) : ∀ (s s' : σ) (hits : List (Hit D M)),
    fetchMeta B l s = (.ok hits, s') → hits.length = l.length := by
  induction l with
  | nil =>
    intro s s' hits h
    simp only [fetchMeta, Prod.mk.injEq, Except.ok.injEq] at h
    simp [← h.1]
  | cons x l ih =>
    obtain ⟨id, d⟩ := x
    intro s s' hits h
    simp only [fetchMeta] at h
    rcases hr : B.retrieve s id with ⟨_ | _ | ⟨v, m⟩, s1⟩
    · rw [hr] at h; simp at h
    · rw [hr] at h; simp at h
    · rw [hr] at h
      simp only at h
      rcases hf : fetchMeta B l s1 with ⟨_ | hs, s2⟩
      · rw [hf] at h; simp at h
      · rw [hf] at h
        simp only [Prod.mk.injEq, Except.ok.injEq] at h
        simp [← h.1, ih s1 s2 hs hf]

theorem sliceTo_prefix {α : Type} (l : List α) {k k' : Int} (h0 : 0 ≤ k) (hk : k ≤ k') :
    sliceTo l k = (sliceTo l k').take k.toNat := by
  rw [sliceTo_nonneg l h0, sliceTo_nonneg l (h0.trans hk), List.take_take]
  congr 1
  omega

theorem ranked_prefix [LinearOrder D] (env : FlatEnv V D) (ha : IsArgsort env.argsort) (q : V)
    (vs : List (Id × V)) {k k' : Int} (h0 : 0 ≤ k) (hk : k ≤ k') :
    Flat.ranked env q k vs = (Flat.ranked env q k' vs).take k.toNat := by
  have key : ∀ l : List Nat, (∀ i ∈ l, i < vs.length) → ∀ n,
      (l.take n).filterMap (fun i => (vs[i]?).map fun x => (x.1, env.dist q x.2)) =
      (l.filterMap fun i => (vs[i]?).map fun x => (x.1, env.dist q x.2)).take n := by
    intro l
    induction l with
    | nil => simp
    | cons i l ih =>
      intro h n
      have hi := h i (by simp)
      cases n with
      | zero => rfl
      | succ n =>
        simp only [List.take_succ_cons, List.filterMap_cons, List.getElem?_eq_getElem hi, Option.map_some]
        rw [ih (fun j hj => h j (by simp [hj]))]
  simp only [Flat.ranked]
  rw [sliceTo_prefix _ h0 hk, key]
  intro i hi
  have := (ha (vs.map fun x => env.dist q x.2)).1.mem_iff.1 ((sliceTo_sublist _ _).subset hi)
  simpa using this

/-- **C229** Flat index: if a search for `k'` results answers, a search for `k ≤ k'` answers the first `k`
of them. -/
theorem C229_flat [LinearOrder D] (env : FlatEnv V D) (ha : IsArgsort env.argsort)
    (c : Client (Flat V × σ)) (nd : Nat) (q : V) (k k' : Int) (h0 : 0 ≤ k) (hk : k ≤ k')
    (l : List (Hit D M))
    (h : seen (Client.ask (flatParts env B) c (.request (.search nd q k'))).1 = .hits l) :
    seen (Client.ask (flatParts env B) c (.request (.search nd q k))).1 = .hits (l.take k.toNat) := by
  obtain ⟨⟨f, s⟩, b⟩ := c
  cases b with
  | false => cases h
  | true =>
    have red : ∀ k, (Client.ask (flatParts env B) ⟨(f, s), true⟩ (.request (.search nd q k))).1 =
        .reply (fwd .hits (Flat.search env B nd q k f s)).1 := fun k => rfl
    rw [red] at h ⊢
    simp only [Flat.search] at h ⊢
    by_cases hi : f.inited = true
    swap
    · rw [if_pos (by simpa using hi)] at h; cases h
    by_cases hnd : nd = 1
    swap
    · rw [if_neg (by simp [hi]), if_pos hnd] at h; cases h
    rw [if_neg (by simp [hi]), if_neg (by simp [hnd])] at h ⊢
    by_cases he : f.ids.isEmpty = true
    · rw [if_pos he] at h ⊢
      simp only [fwd, seen, DbAns.hits.injEq] at h ⊢
      simp [← h]
    rw [if_neg he] at h ⊢
    rcases hlv : loadVecs B f.ids f.cache s with ⟨_ | vs, ca, s1⟩
    · rw [hlv] at h; cases h
    rw [hlv] at h
    simp only at h ⊢
    by_cases hv : vs.isEmpty = true
    · rw [if_pos hv] at h ⊢
      simp only [fwd, seen, DbAns.hits.injEq] at h ⊢
      simp [← h]
    rw [if_neg hv] at h ⊢
    by_cases hc : Flat.checkOk env q (vs.map Prod.snd) = true
    swap
    · rw [if_pos (by simpa using hc)] at h; cases h
    rw [if_neg (by simp [hc])] at h ⊢
    rcases hf : fetchMeta B (Flat.ranked env q (min k' (f.ids.length : Int)) vs) s1 with ⟨_ | hits, s2⟩
    · rw [hf] at h; cases h
    · rw [hf] at h
      simp only [fwd, seen, DbAns.hits.injEq] at h
      obtain ⟨s3, e⟩ := fetchMeta_prefix _ (min k (f.ids.length : Int)).toNat _ _ _ hf
      rw [← ranked_prefix env ha q vs (by omega) (by omega)] at e
      rw [e]
      simp only [fwd, seen, DbAns.hits.injEq]
      have hlen : hits.length ≤ f.ids.length := by
        rw [fetchMeta_length _ _ _ _ hf]
        refine (List.length_filterMap_le _ _).trans ?_
        rw [sliceTo_nonneg _ (by omega), List.length_take]
        omega
      rw [h]
      subst h
      rw [List.take_eq_take_iff]
      omega

theorem scanTop_prefix [LinearOrder D] (env : IvfEnv V D) (q : V) (cand : List Id) (f : Ivf V) (s : σ)
    {k k' : Int} (h0 : 0 ≤ k) (hk : k ≤ k') (l : List (Hit D M))
    (h : (Ivf.scanTop env B q k' cand f s).1 = .ok l) :
    (Ivf.scanTop env B q k cand f s).1 = .ok (l.take k.toNat) := by
  simp only [Ivf.scanTop] at h ⊢
  rcases hv : scanVecs B (env.dist q) cand f.cache s with ⟨_ | ds, c, s1⟩
  · rw [hv] at h; cases h
  rw [hv] at h
  simp only at h ⊢
  rcases hf : fetchMeta B (sliceTo (pySortBy Prod.snd ds) k') s1 with ⟨_ | hits, s2⟩
  · rw [hf] at h; cases h
  · rw [hf] at h
    simp only [Except.ok.injEq] at h
    obtain ⟨s3, e⟩ := fetchMeta_prefix _ k.toNat _ _ _ hf
    rw [← sliceTo_prefix _ h0 hk] at e
    rw [e, h]

/-- **C229** The same for IVF. -/
theorem C229_ivf [LinearOrder D] (env : IvfEnv V D) (c : Client (Ivf V × σ)) (nd : Nat) (q : V)
    (k k' : Int) (h0 : 0 ≤ k) (hk : k ≤ k') (l : List (Hit D M))
    (h : seen (Client.ask (ivfParts env B) c (.request (.search nd q k'))).1 = .hits l) :
    seen (Client.ask (ivfParts env B) c (.request (.search nd q k))).1 = .hits (l.take k.toNat) := by
  obtain ⟨⟨f, s⟩, b⟩ := c
  cases b with
  | false => cases h
  | true =>
    have red : ∀ k, (Client.ask (ivfParts env B) ⟨(f, s), true⟩ (.request (.search nd q k))).1 =
        .reply (fwd .hits (Ivf.search env B nd q k f s)).1 := fun k => rfl
    have fin : ∀ (r : Res (Ivf V × σ) (List (Hit D M))) (x : List (Hit D M)),
        seen (.reply (fwd (FwdReply.hits (D := D) (M := M)) r).1) = .hits x ↔ r.1 = .ok x := by
      rintro ⟨_ | y, t⟩ x
      · rename_i e
        cases e <;> simp [fwd, seen]
      · simp [fwd, seen]
    rw [red, fin] at h ⊢
    simp only [Ivf.search] at h ⊢
    by_cases hi : f.inited = true
    swap
    · rw [if_pos (by simpa using hi)] at h; cases h
    by_cases hnd : nd = 1
    swap
    · rw [if_neg (by simp [hi]), if_pos hnd] at h; cases h
    rw [if_neg (by simp [hi]), if_neg (by simp [hnd])] at h ⊢
    by_cases he : f.ids.isEmpty = true
    · rw [if_pos he] at h ⊢
      simp only [Except.ok.injEq] at h ⊢
      simp [← h]
    rw [if_neg he] at h ⊢
    by_cases ht : f.trained = true
    · rw [if_neg (by simp [ht])] at h ⊢
      rcases hcc : f.cents with _ | cents
      · rw [hcc] at h; cases h
      rw [hcc] at h
      simp only at h ⊢
      rcases hpp : Ivf.probes env q cents with _ | ps
      · rw [hpp] at h; cases h
      rw [hpp] at h
      exact scanTop_prefix env q _ f s h0 hk l h
    · rw [if_pos (by simpa using ht)] at h ⊢
      exact scanTop_prefix env q _ f s h0 hk l h

/-- **C229** The same for HNSW. -/
theorem C229_hnsw [LinearOrder D] (env : HnswEnv V D) (c : Client (Hnsw V × σ)) (nd : Nat) (q : V)
    (k k' : Int) (h0 : 0 ≤ k) (hk : k ≤ k') (l : List (Hit D M))
    (h : seen (Client.ask (hnswParts env B) c (.request (.search nd q k'))).1 = .hits l) :
    seen (Client.ask (hnswParts env B) c (.request (.search nd q k))).1 = .hits (l.take k.toNat) := by
  obtain ⟨⟨f, s⟩, b⟩ := c
  cases b with
  | false => cases h
  | true =>
    have red : ∀ k, (Client.ask (hnswParts env B) ⟨(f, s), true⟩ (.request (.search nd q k))).1 =
        .reply (fwd .hits (Hnsw.search env B nd q k f s)).1 := fun k => rfl
    have fin : ∀ (r : Res (Hnsw V × σ) (List (Hit D M))) (x : List (Hit D M)),
        seen (.reply (fwd (FwdReply.hits (D := D) (M := M)) r).1) = .hits x ↔ r.1 = .ok x := by
      rintro ⟨_ | y, t⟩ x
      · rename_i e
        cases e <;> simp [fwd, seen]
      · simp [fwd, seen]
    rw [red, fin] at h ⊢
    simp only [Hnsw.search] at h ⊢
    by_cases hi : f.inited = true
    swap
    · rw [if_pos (by simpa using hi)] at h; cases h
    by_cases hnd : nd = 1
    swap
    · rw [if_neg (by simp [hi]), if_pos hnd] at h; cases h
    rw [if_neg (by simp [hi]), if_neg (by simp [hnd])] at h ⊢
    by_cases he : f.vectors.isEmpty = true
    · rw [if_pos he] at h ⊢
      simp only [Except.ok.injEq] at h ⊢
      simp [← h]
    rw [if_neg he] at h ⊢
    rcases hcc : Hnsw.candidates env q f with _ | ca
    · rw [hcc] at h; cases h
    rw [hcc] at h
    simp only at h ⊢
    rcases hf : fetchMeta B (sliceTo (pySortBy Prod.snd ca) (min k' (f.vectors.length : Int))) s with
      ⟨_ | hits, s2⟩
    · rw [hf] at h; cases h
    · rw [hf] at h
      simp only [Except.ok.injEq] at h
      obtain ⟨s3, e⟩ := fetchMeta_prefix _ (min k (f.vectors.length : Int)).toNat _ _ _ hf
      rw [← sliceTo_prefix _ (by omega) (by omega)] at e
      rw [e]
      have hlen : hits.length ≤ f.vectors.length := by
        rw [fetchMeta_length _ _ _ _ hf, sliceTo_nonneg _ (by omega), List.length_take]
        omega
      subst h
      simp only [Except.ok.injEq]
      rw [List.take_eq_take_iff]
      omega

end

/-- **C229** The same for LSH, whatever the threshold. -/
theorem C229_lsh {V S M : Type} [LinearOrder S] (env : LshEnv V S M) (f : Lsh V M) (q : V) (k k' : Int)
    (h0 : 0 ≤ k) (hk : k ≤ k') (thr : Option S) (l : List (NHit S M))
    (h : Lsh.search env q k' thr f = .ok l) : Lsh.search env q k thr f = .ok (l.take k.toNat) := by
  simp only [Lsh.search] at h ⊢
  by_cases hi : f.inited = true
  swap
  · rw [if_pos (by simpa using hi)] at h; cases h
  rw [if_neg (by simp [hi])] at h ⊢
  rcases hdd : f.dimension with _ | d
  · rw [hdd] at h
    simp only [Except.ok.injEq] at h ⊢
    simp [← h]
  rw [hdd] at h
  simp only at h ⊢
  split at h
  · cases h
  rename_i hv
  rw [if_neg hv]
  rcases hcc : Lsh.hashVector env f q with _ | codes
  · rw [hcc] at h; cases h
  rw [hcc] at h
  simp only at h ⊢
  split at h
  · cases h
  · rename_i l' hs
    simp only [hs, Except.ok.injEq] at h ⊢
    rw [← h, sliceTo_prefix _ h0 hk]

/-- **C229** The same for SAQ, whatever the number of rescored candidates. -/
theorem C229_saq {V C D : Type} [LinearOrder D] (argsort : List D → List Nat) (ha : IsArgsort argsort)
    (cdist : C → Except Err D) (dist : V → D) (full : Option (List V)) (r : Int) (codes : List C)
    (k k' : Int) (h0 : 0 ≤ k) (hk : k ≤ k') (l : List (Nat × D))
    (h : saqSearch argsort cdist dist full r codes k' = .ok l) :
    saqSearch argsort cdist dist full r codes k = .ok (l.take k.toNat) := by
  simp only [saqSearch] at h ⊢
  rcases full with _ | full
  · cases h
  simp only at h ⊢
  rcases hi : saqInitial argsort cdist r codes with _ | cands
  · rw [hi] at h; cases h
  rw [hi] at h
  simp only [saqRescore] at h ⊢
  rcases hm : mapE (fullAt full) cands with _ | vs
  · rw [hm] at h; cases h
  rw [hm] at h
  simp only [Except.ok.injEq] at h ⊢
  have hl : vs.length = cands.length := by
    clear h hi
    induction cands generalizing vs with
    | nil => simp only [mapE, Except.ok.injEq] at hm; simp [← hm]
    | cons c cands ih =>
      simp only [mapE] at hm
      split at hm
      · cases hm
      · split at hm
        · cases hm
        · rename_i hm'
          simp only [Except.ok.injEq] at hm
          simp [← hm, ih _ hm']
  have hp := (ha (vs.map dist)).1
  have key : ∀ p : List Nat, (∀ t ∈ p, t < vs.length) → ∀ n,
      (p.take n).filterMap (hitAt cands (vs.map dist)) =
        (p.filterMap (hitAt cands (vs.map dist))).take n := by
    intro p
    induction p with
    | nil => simp
    | cons t p ih =>
      intro hlt n
      have ht := hlt t (by simp)
      cases n with
      | zero => rfl
      | succ n =>
        have : hitAt cands (vs.map dist) t = some (cands[t]'(by omega), (vs.map dist)[t]'(by simpa using ht)) := by
          simp [hitAt, List.getElem?_eq_getElem ht, List.getElem?_eq_getElem (hl ▸ ht)]
        simp only [List.take_succ_cons, List.filterMap_cons, this]
        rw [ih (fun j hj => hlt j (by simp [hj]))]
  rw [← h, sliceTo_prefix _ h0 hk, key]
  intro t ht
  have := hp.mem_iff.1 ((sliceTo_sublist _ _).subset ht)
  simpa using this

theorem results_append {L V F M : Type} [Field F] [LinearOrder F] (f : Annoy L V M) (a b : List (Nat × F))
    (l : List (AnHit F M)) (h : Annoy.results f (a ++ b) = .ok l) :
    ∃ l', Annoy.results f a = .ok l' ∧ l' <+: l := by
  induction a generalizing l with
  | nil => exact ⟨[], rfl, List.nil_prefix⟩
  | cons x a ih =>
    obtain ⟨n, d⟩ := x
    simp only [List.cons_append, Annoy.results] at h ⊢
    split at h
    · rename_i hn
      rw [if_pos hn]
      split at h
      · cases h
      rename_i md hmd
      split at h
      · cases h
      rename_i l0 hl0
      obtain ⟨l', e1, e2⟩ := ih _ hl0
      simp only [Except.ok.injEq] at h
      rw [e1]
      exact ⟨_, rfl, by rw [← h]; exact List.cons_prefix_cons.2 ⟨rfl, e2⟩⟩
    · rename_i hn
      rw [if_neg hn]
      exact ih _ h

/-- **C229** The same for Annoy, for a library whose answers with one `search_k` have the property.
Identifiers that were deleted are left out of both answers. -/
theorem C229_annoy {L V F M : Type} [Field F] [LinearOrder F] (env : AnEnv L V F M) (f : Annoy L V M)
    (q : V) (k k' : Int)
    (hlib : ∀ l sk ns, env.nns l q k' sk = .ok ns → env.nns l q k sk = .ok (ns.take k.toNat))
    (l : List (AnHit F M)) (h : Annoy.search env q k' f = .ok l) :
    ∃ l', Annoy.search env q k f = .ok l' ∧ l' <+: l := by
  simp only [Annoy.search] at h ⊢
  split at h
  · cases h
  rename_i h1
  rw [if_neg h1]
  split at h
  · cases h
  rename_i h2
  rw [if_neg h2]
  rcases hd : f.dimension with _ | d
  · rw [hd] at h
    simp only [Except.ok.injEq] at h
    exact ⟨_, rfl, by rw [← h]⟩
  rw [hd] at h
  simp only at h ⊢
  split at h
  · cases h
  rename_i h3
  rw [if_neg h3]
  rcases hl : f.lib with _ | lib
  · rw [hl] at h; cases h
  rw [hl] at h
  simp only at h ⊢
  split at h
  · cases h
  rename_i ns hns
  rw [hlib _ _ _ hns]
  rw [← List.take_append_drop k.toNat ns] at h
  exact results_append f _ _ l h

/-- Three vectors. -/
def exThreeIn : List (ClCall (IxCall Nat Nat)) :=
  [.init, .request (.insert 2 [("a", 3), ("b", 8), ("c", 30)] (some [some 1]))]

/-- Searches for three and for two of three vectors, with each index. -/
example :
    (let c := (Client.converse (ivfParts exIvfTwo (memBackend Nat Nat)) ⟨(Ivf.new, Mem.new), false⟩
        exThreeIn).2
     (seen (Client.ask (ivfParts exIvfTwo (memBackend Nat Nat)) c (.request (.search 1 7 3))).1,
      seen (Client.ask (ivfParts exIvfTwo (memBackend Nat Nat)) c (.request (.search 1 7 2))).1)) =
      (.hits [⟨"b", 1, none⟩, ⟨"a", 4, some 1⟩, ⟨"c", 23, none⟩],
       .hits [⟨"b", 1, none⟩, ⟨"a", 4, some 1⟩]) ∧
    (let c := (Client.converse (hnswParts exHnswAll (memBackend Nat Nat)) ⟨(Hnsw.new, Mem.new), false⟩
        exThreeIn).2
     (seen (Client.ask (hnswParts exHnswAll (memBackend Nat Nat)) c (.request (.search 1 7 3))).1,
      seen (Client.ask (hnswParts exHnswAll (memBackend Nat Nat)) c (.request (.search 1 7 2))).1)) =
      (.hits [⟨"b", 1, none⟩, ⟨"a", 4, some 1⟩, ⟨"c", 23, none⟩],
       .hits [⟨"b", 1, none⟩, ⟨"a", 4, some 1⟩]) := by
  constructor <;> decide +kernel

/-- The same with the flat index, from the theorem. -/
example (l : List (Hit Nat Nat))
    (h : seen (Client.ask (flatParts exFlatAll (memBackend Nat Nat)) (Client.converse
      (flatParts exFlatAll (memBackend Nat Nat)) ⟨(Flat.new, Mem.new), false⟩ exThreeIn).2
      (.request (.search 1 7 3))).1 = .hits l) :
    seen (Client.ask (flatParts exFlatAll (memBackend Nat Nat)) (Client.converse
      (flatParts exFlatAll (memBackend Nat Nat)) ⟨(Flat.new, Mem.new), false⟩ exThreeIn).2
      (.request (.search 1 7 2))).1 = .hits (l.take 2) :=
  C229_flat exFlatAll exArgsort_ok _ 1 7 2 3 (by decide) (by decide) l h

example : seen (Client.ask (flatParts exFlatAll (memBackend Nat Nat)) (Client.converse
      (flatParts exFlatAll (memBackend Nat Nat)) ⟨(Flat.new, Mem.new), false⟩ exThreeIn).2
      (.request (.search 1 7 3))).1 =
    .hits [⟨"b", 1, none⟩, ⟨"a", 4, some 1⟩, ⟨"c", 23, none⟩] := by decide +kernel

/-- The library of the Annoy example has the assumed property. -/
example (q k k' : Int) (hk : k ≤ k') : ∀ l sk ns, exAn.nns l q k' sk = .ok ns →
    exAn.nns l q k sk = .ok (ns.take k.toNat) := by
  intro l sk ns h
  simp only [exAn, Except.ok.injEq] at h ⊢
  rw [← h, List.take_take, min_eq_left (by omega)]

end Valori.Props
