import Verif.Props.LoneIvfTrained
import Verif.Props.FlatRest
import Verif.Props.IvfExact

/-!
# C236: a search of a trained IVF index after threads have left it at rest
-/

namespace Valori.Props
open Valori Spec TConc

variable {V M D : Type} {s s0 : TConc V M D} {ops : Nat → FOp V M}

/-- What the storage holds. -/
def heldT (s : TConc V M D) : List (Item V M) := s.store.map fun x => ⟨x.1, x.2.1, x.2.2⟩

/-- The part of the index that a flat index has as well. -/
def flatPart (s : TConc V M D) : FConc V M D := ⟨s.store, s.ids, s.cache, s.count, fun _ => .start⟩

theorem flatPart_settled (hs : Settled s) : FConc.Settled (flatPart s) :=
  ⟨hs.storeKeys, hs.cacheKeys, hs.agree, hs.ids⟩

theorem clu_plain (k : Nat) (id : Id) :
    id ∈ Ivf.clu (plainLists s.lists s.clusters) k ↔ ∃ r, s.clusters.get? k = some r ∧ id ∈ s.content r := by
  have : (plainLists s.lists s.clusters).get? k = (s.clusters.get? k).map s.content := by
    unfold plainLists content
    generalize s.clusters = cl
    induction cl with
    | nil => rfl
    | cons e cl ih =>
      obtain ⟨a, b⟩ := e
      simp only [List.map_cons, Dict.get?]
      split
      · rfl
      · exact ih
  unfold Ivf.clu
  rw [this]
  cases s.clusters.get? k <;> simp

theorem clu_placed (hs : Settled s) (k : Nat) (id : Id) :
    id ∈ Ivf.clu (plainLists s.lists s.clusters) k ↔ Placed s id k := by
  rw [clu_plain]
  constructor
  · rintro ⟨r, h1, h2⟩
    refine ⟨r, h1, fun r' => ?_⟩
    have hsg := hs.single id
    have h3 := hsg.once r
    have h4 := List.count_pos_iff.2 h2
    split
    · rename_i h; subst h; omega
    · rename_i h
      exact List.count_eq_zero.2 fun h' => h (hsg.uniq _ _ h' h2)
  · rintro ⟨r, h1, h2⟩
    exact ⟨r, h1, List.count_pos_iff.1 (by rw [h2, if_pos rfl]; omega)⟩

theorem members_nodupT (hs : Settled s) (ho : OwnLT s.lists s.clusters) :
    (Ivf.members (plainLists s.lists s.clusters)).Nodup := by
  have h : ∀ cl : List (Nat × Nat), (cl.map Prod.snd).Nodup →
      (Ivf.members (plainLists s.lists cl)).Nodup := by
    intro cl
    induction cl with
    | nil => intro; simp [Ivf.members, plainLists]
    | cons e cl ih =>
      intro hn
      rw [List.map_cons, List.nodup_cons] at hn
      have e' : Ivf.members (plainLists s.lists (e :: cl)) = s.content e.2 ++ Ivf.members (plainLists s.lists cl) := by
        simp [Ivf.members, plainLists, content]
      rw [e', List.nodup_append]
      refine ⟨List.nodup_iff_count_le_one.2 fun id => (hs.single id).once _, ih hn.2, ?_⟩
      rintro id h1 _ h2 rfl
      simp only [Ivf.members, plainLists, List.map_map, List.mem_flatten, List.mem_map, Function.comp] at h2
      obtain ⟨_, ⟨x, hx, rfl⟩, h2⟩ := h2
      exact hn.1 (List.mem_map.2 ⟨x, hx, (hs.single id).uniq _ _ h2 h1⟩)
  exact h _ ho.refs

theorem rest_invT (hs : Settled s) (ho : OwnLT s.lists s.clusters) (hc : s.cents ≠ [])
    (hk : ∀ k ∈ s.clusters.keys, k < s.cents.length) :
    let live := listedItems (flatPart s)
    Ivf.Inv plainLawful live (({ ivfT s with count := live.length } : Ivf V), s.store) ∧
      Ivf.Full live (ivfT s) := by
  have hf := flatPart_settled hs
  have hids := listedItems_ids hf
  have hkeys : (plainLists s.lists s.clusters).map Prod.fst = s.clusters.keys := by
    simp [plainLists, Dict.keys]
  have hnd : ((plainLists s.lists s.clusters).map Prod.fst).Nodup := hkeys ▸ ho.keys
  have hstored : ∀ id, id ∈ Live.idsOf (listedItems (flatPart s)) ↔ (s.store.get? id).isSome := fun id => by
    rw [hids]; exact settled_listed hf id
  refine ⟨⟨⟨rfl, hids.symm, by rw [hids]; exact settled_nodup hf, fun x hx v hv => ?_, hs.storeKeys,
    (listedItems_find hf).symm⟩, ⟨hnd, members_nodupT hs ho, fun id hid => ?_,
    fun _ => ⟨s.cents, rfl, hc, fun k h => hk k (by rw [← hkeys]; exact h)⟩⟩, rfl⟩, fun _ id hid => ?_⟩
  · have h1 := (mem_listedItems.1 hx).2
    have h2 : s.cache.get? x.id = some v := hv
    rw [hs.agree, show s.store.get? x.id = _ from h1] at h2
    exact (Option.some.inj h2).symm
  · obtain ⟨k, hk⟩ := (Ivf.mem_members hnd).1 hid
    obtain ⟨r, -, h⟩ := (clu_plain k id).1 hk
    rw [hstored]
    by_contra hne
    exact hs.absent id (by simpa using hne) r h
  · obtain ⟨k, hk⟩ := hs.placed id ((hstored id).1 hid)
    exact (Ivf.mem_members hnd).2 ⟨k, (clu_placed hs k id).2 hk⟩

theorem search_countI [LinearOrder D] (env : IvfEnv V D) (n : Nat) {σ : Type} (B : Backend σ V M) (q : V) (k : Int) (f : Ivf V)
    (st : σ) : (Ivf.search env B 1 q k { f with count := n } st).1 = (Ivf.search env B 1 q k f st).1 := by
  simp only [Ivf.search, Ivf.scanTop]
  repeat' split
  all_goals rfl

section
variable [LinearOrder D] {env : IConcEnv V D} {env' : IvfEnv V D}

/-- **C236** A search of an index at rest with nobody else at work gives the exact `k` nearest of the vectors in the
clusters it probes, which are those with the nearest centres. -/
theorem C236_search (he : SameIvf env.toIParEnv env') (hd : SameIvfC env env') {d : V → V → D}
    (hdist : ∀ a b, env.dist a b = .ok (d a b)) (hp : 0 ≤ env.nProbes) (hs : Settled s)
    (ho : OwnLT s.lists s.clusters) (hc : s.cents ≠ []) (hk : ∀ k ∈ s.clusters.keys, k < s.cents.length) {t : Nat}
    {q : V} {k : Int} (hop : ops t = .search q k) (ht : s.thr t = .start) (hk0 : 0 ≤ k) :
    ∃ n ps l hits, (s.run env ops (List.replicate n t)).thr t = .done (.hits hits) ∧
      Ivf.Nearest (env.dist q) s.cents env.nProbes.toNat ps ∧
      (∀ x, x ∈ l ↔ x ∈ heldT s ∧ ∃ c ∈ ps, Placed s x.id c) ∧ (Live.idsOf l).Nodup ∧
      IsTopK (d q) l k.toNat hits := by
  obtain ⟨n, hn, -⟩ := C213_ivf_trained env env' he hd ops s ho t ht
  obtain ⟨hinv, -⟩ := rest_invT hs ho hc hk
  have hf := flatPart_settled hs
  have hdist' : ∀ a b, env'.dist a b = .ok (d a b) := by rw [hd.dist]; exact hdist
  have hp' : 0 ≤ env'.nProbes := by rw [hd.probes]; exact hp
  have hmem : ∀ x, x ∈ heldT s ↔ x ∈ listedItems (flatPart s) := fun x => mem_heldF hf
  obtain ⟨ds, hds⟩ := Ivf.numberedDists_total (dist := env'.dist q) (fun v => ⟨_, hdist' q v⟩) s.cents 0
  obtain ⟨ps, hps⟩ : ∃ ps, Ivf.probes env' q s.cents = .ok ps := ⟨_, by simp only [Ivf.probes, hds]; rfl⟩
  obtain ⟨hnear, -⟩ := Ivf.probes_spec hp' hps
  rw [hd.dist, hd.probes] at hnear
  obtain ⟨r, c, st', e, -, hr⟩ := hinv.search (env := env') q k
  obtain ⟨hits, hh⟩ : ∃ hits, r = .ok hits := by
    cases r with
    | ok hits => exact ⟨hits, rfl⟩
    | error x =>
      exact absurd (congrArg Prod.fst e) (by
        obtain ⟨l, t, h⟩ := hinv.search_total ⟨fun a b => ⟨_, hdist' a b⟩, fun vs _ => ⟨_, he.kmeans vs⟩⟩ q k
        rw [h]; simp)
  subst hh
  obtain ⟨l, l1, l2, -, l4, -, l6⟩ := hr hits rfl hp'
  have e1 := search_countI env' (listedItems (flatPart s)).length (plainStore V M) q k (ivfT s) s.store
  rw [e] at e1
  refine ⟨n, ps, l, hits, ?_, hnear, fun x => ?_, l1, l4 hk0 (d q) fun v x h => ?_⟩
  · rw [hn, hop]
    simp only [trainedCall, ← e1]
  · rw [hmem]
    by_cases hne : listedItems (flatPart s) = []
    · constructor
      · intro h; have := l2 x h; rw [hne] at this; cases this
      · rintro ⟨h, -⟩; rw [hne] at h; cases h
    · obtain ⟨cs, ps', h1, h2, h3⟩ := l6 rfl hne
      cases h1
      rw [hps] at h2
      cases h2
      have hpl : (∃ c ∈ ps, Placed s x.id c) ↔ x.id ∈ Live.idsOf l := by
        rw [h3, List.mem_flatMap]
        exact exists_congr fun c => and_congr_right fun _ => (clu_placed hs c x.id).symm
      rw [hpl]
      constructor
      · intro h; exact ⟨l2 x h, List.mem_map.2 ⟨x, h, rfl⟩⟩
      · rintro ⟨h, h'⟩
        obtain ⟨y, hy, hxy⟩ := List.mem_map.1 h'
        rw [← Live.eq_of_id hinv.core.nd (l2 y hy) h hxy]; exact hy
  · rw [hdist'] at h; exact Except.ok.inj h

/-- **C236** If it probes as many clusters as there are centres, these are the exact `k` nearest of all vectors in the
storage. -/
theorem C236_search_exact (he : SameIvf env.toIParEnv env') (hd : SameIvfC env env') {d : V → V → D}
    (hdist : ∀ a b, env.dist a b = .ok (d a b)) (hp : (s.cents.length : Int) ≤ env.nProbes) (hs : Settled s)
    (ho : OwnLT s.lists s.clusters) (hc : s.cents ≠ []) (hk : ∀ k ∈ s.clusters.keys, k < s.cents.length) {t : Nat}
    {q : V} {k : Int} (hop : ops t = .search q k) (ht : s.thr t = .start) (hk0 : 0 ≤ k) :
    ∃ n hits, (s.run env ops (List.replicate n t)).thr t = .done (.hits hits) ∧
      IsTopK (d q) (heldT s) k.toNat hits := by
  obtain ⟨n, ps, l, hits, h1, h2, h3, h4, h5⟩ := C236_search he hd hdist (by omega) hs ho hc hk hop ht hk0
  have hf := flatPart_settled hs
  have hall : ∀ i, i < s.cents.length → i ∈ ps := by
    have hlen : ps.length = s.cents.length := by have := h2.length; omega
    have hsub : ps.Subperm (List.range s.cents.length) :=
      List.subperm_of_subset h2.nodup (fun i hi => List.mem_range.2 (h2.lt i hi))
    have := hsub.perm_of_length_le (by simp [hlen])
    intro i hi
    exact this.mem_iff.2 (List.mem_range.2 hi)
  refine ⟨n, hits, h1, isTopK_perm ?_ h5⟩
  have hnd : (Live.idsOf (heldT s)).Nodup := by
    have : Live.idsOf (heldT s) = s.store.keys := by simp [Live.idsOf, heldT, Dict.keys, Function.comp_def]
    rw [this]; exact hs.storeKeys
  rw [List.perm_ext_iff_of_nodup (List.Nodup.of_map _ h4) (List.Nodup.of_map _ hnd)]
  intro x
  rw [h3]
  refine ⟨And.left, fun hx => ⟨hx, ?_⟩⟩
  have hx' := (mem_listedItems.1 ((mem_heldF hf).1 hx)).2
  obtain ⟨c, hc'⟩ := hs.placed x.id (by rw [show s.store.get? x.id = _ from hx']; rfl)
  obtain ⟨o, ho', -⟩ := id hc'
  exact ⟨c, hall c (hk c ((Dict.mem_keys _ _).2 (by rw [ho']; rfl))), hc'⟩

/-- **C236** So a search of the index that threads leave, once all that touch ids have ended. -/
theorem C236_search_after (he : SameIvf env.toIParEnv env') (hd : SameIvfC env env') {d : V → V → D}
    (hdist : ∀ a b, env.dist a b = .ok (d a b)) (hp : (s0.cents.length : Int) ≤ env.nProbes)
    (h0 : ∀ t, s0.thr t = .start) (hs : Settled s0) (ha : Apart ops s0) (hr : Ready env s0)
    (ho : OwnLT s0.lists s0.clusters) (hc : s0.cents ≠ []) (hk : ∀ k ∈ s0.clusters.keys, k < s0.cents.length)
    {sched : List Nat} (hend : ∀ t id, opTouches (ops t) id → ∃ x, (s0.run env ops sched).thr t = .done x) {t : Nat}
    {q : V} {k : Int} (hop : ops t = .search q k) (ht : (s0.run env ops sched).thr t = .start) (hk0 : 0 ≤ k) :
    ∃ n hits, (s0.run env ops (sched ++ List.replicate n t)).thr t = .done (.hits hits) ∧
      IsTopK (d q) (heldT (s0.run env ops sched)) k.toNat hits := by
  obtain ⟨a1, -, a3, a4⟩ := C236_at_rest h0 hs ha hr hend
  obtain ⟨n, hits, h1, h2⟩ := C236_search_exact (ops := ops) he hd hdist (by rw [a4]; exact hp) a1
    (C213_ivf_trained_own env ops sched s0 ho) (by rw [a4]; exact hc) (by rw [a3, a4]; exact hk) hop ht hk0
  refine ⟨n, hits, ?_, h2⟩
  rw [TConc.run, List.foldl_append]
  exact h1
end

/-! ## A case -/

/-- The index of `Props/IvfTrainedCases` with another call in place of its own searches: four threads, then a search. -/
def thenSearch : Nat → FOp Nat Nat
  | 0 => .insert [⟨"e", 90, none⟩, ⟨"f", 8, some 7⟩]
  | 1 => .update "b" 99 (some 2)
  | 2 => .delete ["a"]
  | _ => .search 20 2

/-- Both clusters are probed. -/
def bothIvfC : IConcEnv Nat Nat := { loneIvfC with nProbes := 2 }

/-- The hypotheses can be met. -/
example : SameIvf bothIvfC.toIParEnv { loneIvf with nProbes := 2 } ∧ SameIvfC bothIvfC { loneIvf with nProbes := 2 } ∧
    (∃ d : Nat → Nat → Nat, ∀ a b, bothIvfC.dist a b = .ok (d a b)) ∧ (fourT.cents.length : Int) ≤ bothIvfC.nProbes ∧
    Settled fourT ∧ Apart thenSearch fourT ∧ Ready bothIvfC fourT ∧ OwnLT fourT.lists fourT.clusters ∧
    fourT.cents ≠ [] ∧ (∀ k ∈ fourT.clusters.keys, k < fourT.cents.length) ∧
    (let s := fourT.run bothIvfC thenSearch (List.replicate 30 [0, 1, 2]).flatten
     (∀ t id, opTouches (thenSearch t) id → ∃ x, s.thr t = .done x) ∧ s.thr 3 = .start) ∧
    (fourT.run bothIvfC thenSearch ((List.replicate 30 [0, 1, 2]).flatten ++ List.replicate 40 3)).thr 3 =
      .done (.hits [⟨"d", 8, none⟩, ⟨"f", 12, some 7⟩]) := by
  have hnear : ∀ v, fourT.clusters.mem (bothIvfC.near fourT.cents v) = true := by
    intro v
    have h : bothIvfC.near fourT.cents v = 0 ∨ bothIvfC.near fourT.cents v = 1 := by
      simp only [bothIvfC, loneIvfC, loneIvfPar, loneIvf, fourT, Ivf.closest]
      generalize (if v ≤ 100 then 100 - v else v - 100) = x
      generalize (if v ≤ 0 then 0 - v else v - 0) = y
      by_cases hlt : x < y
      · rw [if_pos hlt]; exact .inr rfl
      · rw [if_neg hlt]; exact .inl rfl
    rcases h with h | h <;> rw [h] <;> decide
  refine ⟨⟨rfl, loneIvf_same.kmeans, loneIvf_same.near⟩, ⟨rfl, rfl⟩, ⟨_, fun a b => rfl⟩, by decide, fourT_settled,
    ⟨fun t t' id h h' => ?_, fun t rows h => ?_, fun t id h => ?_⟩, ⟨hnear, fourT_ready.valid⟩,
    ⟨by decide, by decide, fourT_ready.valid⟩, by decide, by decide, ⟨fun t id h => ?_, by decide +kernel⟩,
    by decide +kernel⟩
  · rcases t with _ | _ | _ | t <;> rcases t' with _ | _ | _ | t' <;>
      simp [thenSearch, opTouches, opWrites, opDeletes] at h h' ⊢ <;>
      first | (subst h; simp at h') | (subst h'; simp at h)
  · rcases t with _ | _ | _ | t <;> simp only [thenSearch, reduceCtorEq] at h
    cases h; decide
  · rcases t with _ | _ | _ | t <;> simp [thenSearch, opInserts] at h
    rcases h with rfl | rfl <;> decide
  · rcases t with _ | _ | _ | t
    · exact ⟨.ids ["e", "f"], by decide +kernel⟩
    · exact ⟨.flag true, by decide +kernel⟩
    · exact ⟨.flag true, by decide +kernel⟩
    · simp [thenSearch, opTouches, opWrites, opDeletes] at h

end Valori.Props
