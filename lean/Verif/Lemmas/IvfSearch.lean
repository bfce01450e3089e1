import Verif.Lemmas.Ivf

/-! Search of the IVF index. -/

namespace Valori
open Spec (Item Hit IxCall IxReply IsTopK put)
open Spec

variable {σ V M D : Type} {B : Backend σ V M} {okId : Id → Prop} {okM : M → Prop}

/-- What scanning items gives: the first error or all distances. -/
def scanRes (dist : V → Except Err D) : List (Item V M) → Except Err (List (Id × D))
  | [] => .ok []
  | x :: l =>
    match dist x.vec with
    | .error e => .error e
    | .ok d =>
      match scanRes dist l with
      | .error e => .error e
      | .ok r => .ok ((x.id, d) :: r)

/-- `dq` extends the partial function `dist`. -/
def Extends (dist : V → Except Err D) (dq : V → D) : Prop := ∀ v d, dist v = .ok d → dq v = d

theorem scanRes_ok {dist : V → Except Err D} {l : List (Item V M)} {ds : List (Id × D)}
    (h : scanRes dist l = .ok ds) :
    (∀ x ∈ l, ∃ d, dist x.vec = .ok d) ∧
    ∀ dq, Extends dist dq → ds = l.map fun x => (x.id, dq x.vec) := by
  induction l generalizing ds with
  | nil => simp only [scanRes, Except.ok.injEq] at h; subst h; simp
  | cons x l ih =>
    simp only [scanRes] at h
    cases hd : dist x.vec with
    | error e => rw [hd] at h; simp at h
    | ok d =>
      rw [hd] at h
      simp only at h
      cases hr : scanRes dist l with
      | error e => rw [hr] at h; simp at h
      | ok r =>
        rw [hr] at h
        simp only [Except.ok.injEq] at h
        subst h
        obtain ⟨h1, h2⟩ := ih hr
        refine ⟨?_, ?_⟩
        · intro y hy
          rcases List.mem_cons.1 hy with rfl | hy
          · exact ⟨d, hd⟩
          · exact h1 y hy
        · intro dq hq
          simp [hq _ _ hd, ← h2 dq hq]

theorem scanRes_total {dist : V → Except Err D} {l : List (Item V M)}
    (h : ∀ x ∈ l, ∃ d, dist x.vec = .ok d) : ∃ ds, scanRes dist l = .ok ds := by
  induction l with
  | nil => exact ⟨[], rfl⟩
  | cons x l ih =>
    obtain ⟨d, hd⟩ := h x (by simp)
    obtain ⟨ds, hds⟩ := ih (fun y hy => h y (by simp [hy]))
    exact ⟨(x.id, d) :: ds, by simp only [scanRes, hd, hds]⟩

theorem scanVecs_spec (L : Lawful B okId okM) {live : List (Item V M)}
    (hn : (Live.idsOf live).Nodup) (dist : V → Except Err D)
    (l : List (Item V M)) (hsub : ∀ x ∈ l, x ∈ live) {c : Dict Id V} (hc : CacheOk live c)
    {s : σ} (hs : L.inv s) (hcont : L.content s = Live.find live) :
    ∃ c' s', scanVecs B dist (Live.idsOf l) c s = (scanRes dist l, c', s') ∧
      CacheOk live c' ∧ L.inv s' ∧ L.content s' = L.content s := by
  induction l generalizing c s with
  | nil => exact ⟨c, s, rfl, hc, hs, rfl⟩
  | cons x l ih =>
    have hx := hsub x (by simp)
    have hsub' : ∀ y ∈ l, y ∈ live := fun y hy => hsub y (by simp [hy])
    simp only [Live.idsOf, List.map_cons, scanVecs, scanRes]
    cases hg : c.get? x.id with
    | some v =>
      have := hc x hx v hg
      subst this
      simp only
      cases hd : dist x.vec with
      | error e => exact ⟨c, s, rfl, hc, hs, rfl⟩
      | ok d =>
        obtain ⟨c', s', e, h1, h2, h3⟩ := ih hsub' hc hs hcont
        simp only [Live.idsOf] at e
        refine ⟨c', s', ?_, h1, h2, h3⟩
        simp only [e]
        cases scanRes dist l <;> rfl
    | none =>
      have hf : L.content s x.id = some (x.vec, x.md) := by rw [hcont]; exact Live.find_mem hn hx
      obtain ⟨s1, e1, i1, c1⟩ := L.retrieve hs (L.dom hs (by rw [hf]; rfl))
      have hc' : CacheOk live (c.set x.id x.vec) := by
        intro y hy v hv
        rw [Dict.get?_set] at hv
        split at hv
        · rename_i he
          have := Live.eq_of_id hn hy hx he
          subst this
          exact (Option.some.inj hv).symm
        · exact hc y hy v hv
      simp only [e1, hf]
      cases hd : dist x.vec with
      | error e => exact ⟨_, s1, rfl, hc', i1, c1⟩
      | ok d =>
        obtain ⟨c', s', e, h1, h2, h3⟩ := ih hsub' hc' i1 (by rw [c1, hcont])
        simp only [Live.idsOf] at e
        refine ⟨c', s', ?_, h1, h2, by rw [h3, c1]⟩
        simp only [e]
        cases scanRes dist l <;> rfl

/-- Ids of live items come from a list of live items. -/
theorem items_of_ids {live : List (Item V M)} (is : List Id) (h : ∀ i ∈ is, i ∈ Live.idsOf live) :
    ∃ l : List (Item V M), Live.idsOf l = is ∧ ∀ x ∈ l, x ∈ live := by
  induction is with
  | nil => exact ⟨[], rfl, by simp⟩
  | cons i is ih =>
    obtain ⟨l, h1, h2⟩ := ih (fun j hj => h j (by simp [hj]))
    obtain ⟨x, hx, rfl⟩ := List.mem_map.1 (h i (by simp))
    refine ⟨x :: l, by simp [← h1], ?_⟩
    intro y hy
    rcases List.mem_cons.1 hy with rfl | hy
    · exact hx
    · exact h2 y hy

/-- Cutting a sorted list of all candidates gives an exact answer among the candidates. -/
theorem isTopK_sub [LinearOrder D] {live l : List (Item V M)} (hn : (Live.idsOf live).Nodup)
    (hl : (Live.idsOf l).Nodup) (hsub : ∀ x ∈ l, x ∈ live) (dist : V → D)
    {full : List (Id × D)} (hp : full.Perm (l.map fun x => (x.id, dist x.vec)))
    (hs : full.Pairwise (fun a b => a.2 ≤ b.2)) (n : Nat) :
    IsTopK dist l n (attachMd (Live.find live) (full.take n)) := by
  have : attachMd (M := M) (Live.find live) (full.take n) =
      attachMd (Live.find l) (full.take n) := by
    simp only [attachMd]
    refine List.map_congr_left ?_
    intro x hx
    obtain ⟨y, hy, rfl⟩ := List.mem_map.1 (hp.mem_iff.1 (List.mem_of_mem_take hx))
    simp only [Live.find_mem hn (hsub y hy), Live.find_mem hl hy]
  rw [this]
  exact isTopK_of_sorted hl dist hp hs n

namespace Ivf

variable {L : Lawful B okId okM} {live : List (Item V M)}

theorem Inv.withCache {f : Ivf V} {s s' : σ} (h : Inv L live (f, s)) {c : Dict Id V}
    (hc : CacheOk live c) (hs : L.inv s') (hcont : L.content s' = L.content s) :
    Inv L live ({ f with cache := c }, s') :=
  ⟨⟨h.core.inited, h.core.ids, h.core.nd, hc, hs, by simp only; rw [hcont]; exact h.core.cont⟩,
   ⟨h.cl.keys, h.cl.nd, h.cl.sub, h.cl.tr⟩, h.cnt⟩

theorem Inv.scanTop [LinearOrder D] {env : IvfEnv V D} {f : Ivf V} {s : σ}
    (h : Inv L live (f, s)) (q : V) (k : Int) (l : List (Item V M))
    (hl : (Live.idsOf l).Nodup) (hsub : ∀ x ∈ l, x ∈ live) :
    ∃ r c s', Ivf.scanTop env B q k (Live.idsOf l) f s = (r, { f with cache := c }, s') ∧
      Inv L live ({ f with cache := c }, s') ∧
      ((∃ hits, r = .ok hits) ↔ ∀ x ∈ l, ∃ d, env.dist q x.vec = .ok d) ∧
      ∀ hits, r = .ok hits → 0 ≤ k → ∀ dq, Extends (env.dist q) dq →
        IsTopK dq l k.toNat hits := by
  obtain ⟨c, s1, e1, hc, i1, c1⟩ := scanVecs_spec L h.core.nd (env.dist q) l hsub h.core.cache
    h.core.st h.core.cont
  simp only [toFlat] at e1 c1
  simp only [Ivf.scanTop, e1]
  cases hr : scanRes (env.dist q) l with
  | error e =>
    refine ⟨.error .index, c, s1, rfl, h.withCache hc i1 c1, ?_, by simp⟩
    constructor
    · rintro ⟨_, h⟩; cases h
    · intro hall
      obtain ⟨ds, hds⟩ := scanRes_total hall
      rw [hds] at hr; cases hr
  | ok ds =>
    obtain ⟨hall, hds⟩ := scanRes_ok hr
    have hmem : ∀ x ∈ sliceTo (pySortBy Prod.snd ds) k, (L.content s1 x.1).isSome = true := by
      intro x hx
      have hx2 := (pySortBy_perm Prod.snd ds).mem_iff.1 ((sliceTo_sublist _ _).subset hx)
      obtain ⟨dq, hq⟩ : ∃ dq, Extends (env.dist q) dq :=
        ⟨fun v => match env.dist q v with | .ok d => d | .error _ => x.2, by
          intro v d hv; simp [hv]⟩
      rw [hds dq hq] at hx2
      obtain ⟨y, hy, rfl⟩ := List.mem_map.1 hx2
      rw [c1, show L.content s = Live.find live from h.core.cont]
      show (Live.find live y.id).isSome = true
      rw [Live.find_mem h.core.nd (hsub y hy)]; rfl
    obtain ⟨s2, e2, i2, c2⟩ := fetchMeta_spec L _ i1 hmem
    refine ⟨.ok (attachMd (L.content s1) (sliceTo (pySortBy Prod.snd ds) k)), c, s2, ?_,
      h.withCache hc i2 (by rw [c2, c1]), ?_, ?_⟩
    · simp only [e2]
    · exact ⟨fun _ => hall, fun _ => ⟨_, rfl⟩⟩
    · intro hits hh hk dq hq
      cases hh
      rw [c1, show L.content s = Live.find live from h.core.cont, sliceTo_nonneg _ hk]
      refine isTopK_sub h.core.nd hl hsub dq ?_ (pySortBy_sorted _ _) _
      rw [← hds dq hq]
      exact pySortBy_perm _ _

/-! ## Probed clusters -/

theorem numberedDists_spec [LinearOrder D] {dist : V → Except Err D} (cs : List V) :
    ∀ (i : Nat) (ds : List (Nat × D)), numberedDists dist i cs = .ok ds →
    ds.map Prod.fst = List.range' i cs.length ∧
    ∀ j d, (j, d) ∈ ds ↔ i ≤ j ∧ ∃ v, cs[j - i]? = some v ∧ dist v = .ok d := by
  induction cs with
  | nil => intro i ds h; simp only [numberedDists, Except.ok.injEq] at h; subst h; simp
  | cons a cs ih =>
    intro i ds h
    simp only [numberedDists] at h
    cases hd : dist a with
    | error e => rw [hd] at h; simp at h
    | ok d =>
      rw [hd] at h
      simp only at h
      cases hr : numberedDists dist (i + 1) cs with
      | error e => rw [hr] at h; simp at h
      | ok l =>
        rw [hr] at h
        simp only [Except.ok.injEq] at h
        subst h
        obtain ⟨h1, h2⟩ := ih _ _ hr
        refine ⟨by simp [h1, List.range'_succ], ?_⟩
        intro j d'
        simp only [List.mem_cons, Prod.mk.injEq]
        constructor
        · rintro (⟨rfl, rfl⟩ | hm)
          · exact ⟨Nat.le_refl _, a, by simp, hd⟩
          · obtain ⟨g1, v, g2, g3⟩ := (h2 j d').1 hm
            refine ⟨by omega, v, ?_, g3⟩
            rw [show j - i = (j - (i + 1)) + 1 by omega]; simpa using g2
        · rintro ⟨g1, v, g2, g3⟩
          by_cases e : j = i
          · subst e
            simp only [Nat.sub_self, List.getElem?_cons_zero, Option.some.injEq] at g2
            subst g2
            rw [hd] at g3; cases g3; exact .inl ⟨rfl, rfl⟩
          · right
            rw [h2]
            refine ⟨by omega, v, ?_, g3⟩
            rw [show j - i = (j - (i + 1)) + 1 by omega] at g2; simpa using g2

/-- `ps` are the positions of the `n` nearest points. -/
structure Nearest [LinearOrder D] (dist : V → Except Err D) (cs : List V) (n : Nat)
    (ps : List Nat) : Prop where
  nodup : ps.Nodup
  length : ps.length = min n cs.length
  lt : ∀ i ∈ ps, i < cs.length
  best : ∀ i ∈ ps, ∀ j v w d d', j ∉ ps → cs[i]? = some v → cs[j]? = some w →
    dist v = .ok d → dist w = .ok d' → d ≤ d'

theorem probes_spec [LinearOrder D] {env : IvfEnv V D} {q : V} {cs : List V} {ps : List Nat}
    (hp : 0 ≤ env.nProbes) (h : probes env q cs = .ok ps) :
    Nearest (env.dist q) cs env.nProbes.toNat ps ∧
    (∀ c, 1 ≤ env.nProbes → FirstNearest (env.dist q) cs c → c ∈ ps) := by
  simp only [probes] at h
  cases hd : numberedDists (env.dist q) 0 cs with
  | error e => rw [hd] at h; simp at h
  | ok ds =>
    rw [hd] at h
    simp only [Except.ok.injEq, sliceTo_nonneg _ hp] at h
    obtain ⟨h1, h2⟩ := numberedDists_spec cs 0 ds hd
    set srt := pySortBy Prod.snd ds with hsrt
    have hperm : srt.Perm ds := pySortBy_perm _ _
    have hsort : srt.Pairwise (fun a b => a.2 ≤ b.2) := pySortBy_sorted _ _
    have hfst : (srt.map Prod.fst).Perm (List.range' 0 cs.length) := h1 ▸ hperm.map Prod.fst
    have hfnd : (srt.map Prod.fst).Nodup := hfst.nodup_iff.2 (List.nodup_range' (step := 1))
    have hsnd : srt.Nodup := List.Nodup.of_map _ hfnd
    have hlen : srt.length = cs.length := by simpa using hfst.length_eq
    have hps : ps = (srt.map Prod.fst).take env.nProbes.toNat := by rw [← h, List.map_take]
    have hmem : ∀ i d, (i, d) ∈ srt ↔ ∃ v, cs[i]? = some v ∧ env.dist q v = .ok d := by
      intro i d; rw [hperm.mem_iff, h2]; simp
    refine ⟨⟨?_, ?_, ?_, ?_⟩, ?_⟩
    · rw [hps]; exact hfnd.sublist (List.take_sublist _ _)
    · rw [hps]; simp [hlen]
    · intro i hi
      rw [hps] at hi
      have := hfst.mem_iff.1 (List.mem_of_mem_take hi)
      simp only [List.mem_range'_1] at this
      omega
    · intro i hi j v w d d' hj hv hw hdv hdw
      rw [← h] at hi hj
      obtain ⟨⟨i', di⟩, hi1, hi2⟩ := List.mem_map.1 hi
      simp only at hi2
      subst hi2
      have him := (hmem _ _).1 (List.mem_of_mem_take hi1)
      obtain ⟨v', hv', hdv'⟩ := him
      rw [hv] at hv'; cases hv'
      rw [hdv] at hdv'; cases hdv'
      have hjm : (j, d') ∈ srt := (hmem _ _).2 ⟨w, hw, hdw⟩
      rw [← List.take_append_drop env.nProbes.toNat srt] at hjm hsort
      rcases List.mem_append.1 hjm with hjm | hjm
      · exact absurd (List.mem_map.2 ⟨_, hjm, rfl⟩) hj
      · exact (List.pairwise_append.1 hsort).2.2 _ hi1 _ hjm
    · rintro c hone ⟨v, d, hv, hdv, hmin⟩
      have hcm : (c, d) ∈ srt := (hmem _ _).2 ⟨v, hv, hdv⟩
      cases hs : srt with
      | nil => rw [hs] at hcm; simp at hcm
      | cons a rest =>
        obtain ⟨j, dj⟩ := a
        have hjs : (j, dj) ∈ srt := by rw [hs]; simp
        obtain ⟨w, hw, hdw⟩ := (hmem _ _).1 hjs
        obtain ⟨m1, m2⟩ := hmin j w dj hw hdw
        have hjc : (j, dj) = (c, d) := by
          by_contra hne
          have hcr : (c, d) ∈ rest := by
            rw [hs] at hcm
            rcases List.mem_cons.1 hcm with e | e
            · exact absurd e.symm hne
            · exact e
          have hle : dj ≤ d := by
            rw [hs, List.pairwise_cons] at hsort
            exact hsort.1 _ hcr
          have heq : dj = d := le_antisymm hle m1
          have hcj : c < j := by
            rcases Nat.lt_trichotomy j c with h' | h' | h'
            · exact absurd (m2 h') (by rw [heq]; exact lt_irrefl _)
            · exact absurd (by rw [h', heq]) hne
            · exact h'
          have hsub : [(c, d), (j, dj)].Sublist ds := by
            have hpw : ds.Pairwise (fun a b => a.1 < b.1) := by
              have := List.pairwise_lt_range' (s := 0) (n := cs.length) (step := 1)
              rw [← h1, List.pairwise_map] at this
              exact this
            obtain ⟨l1, l2, e⟩ := List.append_of_mem (hperm.mem_iff.1 hcm)
            have hjd := hperm.mem_iff.1 hjs
            rw [e] at hjd hpw ⊢
            rcases List.mem_append.1 hjd with hj | hj
            · have := (List.pairwise_append.1 hpw).2.2 _ hj (c, d) (by simp)
              simp only at this; omega
            · rcases List.mem_cons.1 hj with hj | hj
              · exact absurd hj hne
              · refine List.Sublist.trans ?_ (List.sublist_append_right _ _)
                exact List.Sublist.cons_cons _ (List.singleton_sublist.2 hj)
          have hst : [(c, d), (j, dj)].Sublist srt :=
            pySortBy_stable Prod.snd (by simp [heq]) hsub
          rw [hs] at hst hsnd
          rw [List.nodup_cons] at hsnd
          cases hst with
          | cons _ h' => exact hsnd.1 (h'.subset (by simp))
          | cons_cons _ h' => exact hne rfl
        rw [hps, hs, ← Nat.succ_pred_eq_of_pos (show 0 < env.nProbes.toNat by omega)]
        simp only [List.map_cons, List.take_succ_cons, List.mem_cons]
        exact .inl (Prod.mk.inj hjc).1.symm

theorem cand_spec {cl : Dict Nat (List Id)} (hm : (members cl).Nodup) {ps : List Nat}
    (hps : ps.Nodup) : (ps.flatMap (clu cl)).Nodup := by
  rw [List.nodup_flatMap]
  refine ⟨fun c _ => clu_nodup hm c, ?_⟩
  refine List.Pairwise.imp ?_ hps
  intro a b hab
  simp only [Function.onFun, List.disjoint_left]
  intro x hx hx'
  exact hab (clu_disjoint hm hx hx')

theorem Inv.search [LinearOrder D] {env : IvfEnv V D} {f : Ivf V} {s : σ}
    (h : Inv L live (f, s)) (q : V) (k : Int) :
    ∃ r c s', Ivf.search env B 1 q k f s = (r, { f with cache := c }, s') ∧
      Inv L live ({ f with cache := c }, s') ∧
      ∀ hits, r = .ok hits → 0 ≤ env.nProbes →
        ∃ l : List (Item V M), (Live.idsOf l).Nodup ∧ (∀ x ∈ l, x ∈ live) ∧
        (∀ x ∈ l, ∃ d, env.dist q x.vec = .ok d) ∧
        (0 ≤ k → ∀ dq, Extends (env.dist q) dq → IsTopK dq l k.toNat hits) ∧
        (f.trained = false → l = live) ∧
        (f.trained = true → live ≠ [] → ∃ cs ps, f.cents = some cs ∧ probes env q cs = .ok ps ∧
          Live.idsOf l = ps.flatMap (clu f.clusters)) := by
  have hi : f.inited = true := h.core.inited
  have hids : f.ids = Live.idsOf live := h.core.ids
  have hs0 : Ivf.search env B 1 q k f s =
      if f.ids.isEmpty then (.ok [], f, s)
      else if !f.trained then Ivf.scanTop env B q k f.ids f s
      else
        match f.cents with
        | none => (.error .index, f, s)
        | some cents =>
          match probes env q cents with
          | .error _ => (.error .index, f, s)
          | .ok ps => Ivf.scanTop env B q k (ps.flatMap (clu f.clusters)) f s := by
    unfold Ivf.search
    rw [if_neg (by simp [hi]), if_neg (by simp)]
    rfl
  by_cases hl : live = []
  · subst hl
    refine ⟨.ok [], f.cache, s, by rw [hs0, if_pos (by rw [hids]; rfl)], h, ?_⟩
    intro hits hh _
    cases hh
    refine ⟨[], by simp, by simp, by simp, ?_, by simp, fun _ h => absurd rfl h⟩
    intro _ dq _
    exact ⟨by simp, by simp, by simp, by simp, by simp⟩
  · have hne : f.ids.isEmpty = false := by
      rw [hids]; cases live with
      | nil => exact absurd rfl hl
      | cons => rfl
    rw [if_neg (by simp [hne])] at hs0
    by_cases ht : f.trained = true
    · rw [if_neg (by simp [ht])] at hs0
      obtain ⟨cs, hcs, hcne, hlt⟩ := h.cl.tr ht
      simp only at hcs
      simp only [hcs] at hs0
      cases hp : probes env q cs with
      | error e =>
        rw [hp] at hs0
        exact ⟨_, f.cache, s, hs0, h, by simp⟩
      | ok ps =>
        rw [hp] at hs0
        simp only at hs0
        have hsubset : ∀ i ∈ ps.flatMap (clu f.clusters), i ∈ Live.idsOf live := by
          intro i hi'
          obtain ⟨c, _, hc⟩ := List.mem_flatMap.1 hi'
          exact h.cl.sub i ((mem_members h.cl.keys).2 ⟨c, hc⟩)
        obtain ⟨l, hl1, hl2⟩ := items_of_ids (live := live) _ hsubset
        have hpnd : ps.Nodup := by
          simp only [probes] at hp
          cases hd : numberedDists (env.dist q) 0 cs with
          | error e => rw [hd] at hp; simp at hp
          | ok ds =>
            rw [hd] at hp
            simp only [Except.ok.injEq] at hp
            obtain ⟨h1, -⟩ := numberedDists_spec cs 0 ds hd
            rw [← hp]
            refine List.Nodup.sublist ((sliceTo_sublist _ _).map _) ?_
            rw [((pySortBy_perm Prod.snd ds).map Prod.fst).nodup_iff, h1]
            exact List.nodup_range' (step := 1)
        have hlnd : (Live.idsOf l).Nodup := by
          rw [hl1]; exact cand_spec h.cl.nd hpnd
        obtain ⟨r, c, s', e, hinv, hit, hr⟩ := h.scanTop (env := env) q k l hlnd hl2
        rw [← hl1, e] at hs0
        refine ⟨r, c, s', hs0, hinv, ?_⟩
        intro hits hh _
        exact ⟨l, hlnd, hl2, hit.1 ⟨_, hh⟩, hr hits hh, by simp [ht],
          fun _ _ => ⟨cs, ps, hcs, hp, hl1⟩⟩
    · rw [if_pos (by simp [ht])] at hs0
      obtain ⟨r, c, s', e, hinv, hit, hr⟩ :=
        h.scanTop (env := env) q k live h.core.nd (fun x hx => hx)
      rw [hids, e] at hs0
      refine ⟨r, c, s', hs0, hinv, ?_⟩
      intro hits hh _
      exact ⟨live, h.core.nd, fun x hx => hx, hit.1 ⟨_, hh⟩, hr hits hh, fun _ => rfl,
        fun h' => absurd h' ht⟩

/-! ## Histories -/

/-- A call that fails to keep all vectors clustered: a raising insert or update. -/
def badCall : IxCall V M → IxReply → Prop
  | .insert .., .raised => True
  | .update .., .raised => True
  | _, _ => False

/-- A call that moves `id`. -/
def touches (id : Id) : IxCall V M → Prop
  | .delete ids => id ∈ ids
  | .update i _ _ => i = id
  | _ => False

theorem Inv.call [LinearOrder D] {env : IvfEnv V D} (hk : KMeansOk env) {t : Ivf V × σ}
    (h : Inv L live t) (c : IxCall V M) (hc : Live.CallOk okId okM live c) :
    let r := Ivf.call env B t c
    Inv L (Live.next live c) r.2 ∧
    (Full live t.1 → ¬ badCall c r.1 → Full (Live.next live c) r.2.1) ∧
    (t.1.trained = true → r.2.1.trained = true ∧ r.2.1.cents = t.1.cents ∧
      ∀ x p, ¬ touches x c → x ∈ clu t.1.clusters p → x ∈ clu r.2.1.clusters p) ∧
    (r.1 = .raised ∨ r.1 = Live.reply (fun _ _ => false) live c) := by
  obtain ⟨f, s⟩ := t
  have hi : f.inited = true := h.core.inited
  intro r
  cases c with
  | insert nd rows mds =>
    by_cases hnd : nd = 2
    · subst hnd
      obtain ⟨h1, h2, h3, h4⟩ := h.insert hk hc
      simp only [Live.next, if_true, Live.reply]
      simp only [r, Ivf.call]
      cases he : Ivf.insert env B 2 rows mds f s with
      | mk q t' =>
      rw [he] at h1 h2 h3 h4
      cases q with
      | ok l =>
        exact ⟨h1, fun hf _ => h3 hf (.inl ⟨l, rfl⟩), fun ht => ⟨(h4 ht).1, (h4 ht).2.1,
          fun x p _ hx => (h4 ht).2.2.1 x p hx⟩, .inr (by simp [h2 l rfl])⟩
      | error e =>
        exact ⟨h1, fun hf hb => absurd trivial hb, fun ht => ⟨(h4 ht).1, (h4 ht).2.1,
          fun x p _ hx => (h4 ht).2.2.1 x p hx⟩, .inl rfl⟩
    · have e : Ivf.insert env B nd rows mds f s = (.error .index, f, s) := by
        simp [Ivf.insert, hi, hnd]
      have hr : r = (.raised, f, s) := by simp only [r, Ivf.call, e]
      rw [hr]
      simp only [Live.next, hnd, if_false]
      exact ⟨h, fun hf _ => hf, fun ht => ⟨ht, trivial, fun _ _ _ hx => hx⟩, .inl trivial⟩
  | delete ids =>
    obtain ⟨f', s', e, r1, r2, r3, r4, r5, r6⟩ := deleteLoop_spec ids true live f s h.core h.cl hc
    have hr : r = (.flag (Live.removeAll live ids).1, { f' with count := f'.ids.length }, s') := by
      simp only [r, Ivf.call, Ivf.delete, hi, e]; simp
    rw [hr]
    simp only [Live.next, Live.reply]
    refine ⟨⟨⟨r1.inited, r1.ids, r1.nd, r1.cache, r1.st, r1.cont⟩,
      ⟨r2.keys, r2.nd, r2.sub, r2.tr⟩, ?_⟩, fun hf _ => r5 hf, fun ht => ⟨by rw [r3]; exact ht, r4,
      fun x p hx => r6 x p hx⟩, .inr trivial⟩
    have := r1.ids
    simp only [toFlat] at this ⊢
    simp [this, Live.idsOf]
  | update id v m =>
    obtain ⟨h1, h2, h3, h4⟩ := h.update (env := env) v hc.1 hc.2
    simp only [Live.next, Live.reply]
    simp only [r, Ivf.call]
    cases he : Ivf.update env B id v m f s with
    | mk q t' =>
    rw [he] at h1 h2 h3 h4
    cases q with
    | ok l =>
      exact ⟨h1, fun hf _ => h3 hf (.inl ⟨l, rfl⟩), fun ht => ⟨(h4 ht).1, (h4 ht).2.1,
        fun x p hx hxc => (h4 ht).2.2.1 x p (fun e => hx e.symm) hxc⟩, .inr (by rw [h2 l rfl])⟩
    | error e =>
      exact ⟨h1, fun hf hb => absurd trivial hb, fun ht => ⟨(h4 ht).1, (h4 ht).2.1,
        fun x p hx hxc => (h4 ht).2.2.1 x p (fun e => hx e.symm) hxc⟩, .inl rfl⟩
  | search nd q k =>
    by_cases hnd : nd = 1
    · subst hnd
      obtain ⟨q', c, s', e, hinv, -⟩ := h.search (env := env) q k
      simp only [Live.next]
      have hkeep : ∀ t' : Ivf V × σ, t' = ({ f with cache := c }, s') →
          Inv L live t' ∧ (Full live f → Full live t'.1) ∧
          (f.trained = true → t'.1.trained = true ∧ t'.1.cents = f.cents ∧
            ∀ x p, ¬ touches x (.search 1 q k : IxCall V M) → x ∈ clu f.clusters p →
              x ∈ clu t'.1.clusters p) := by
        rintro t' rfl
        exact ⟨hinv, fun hf => hf, fun ht => ⟨ht, rfl, fun _ _ _ hx => hx⟩⟩
      simp only [r, Ivf.call, e]
      cases q' with
      | ok l =>
        obtain ⟨k1, k2, k3⟩ := hkeep _ rfl
        exact ⟨k1, fun hf _ => k2 hf, k3, .inr rfl⟩
      | error e =>
        obtain ⟨k1, k2, k3⟩ := hkeep _ rfl
        exact ⟨k1, fun hf _ => k2 hf, k3, .inl rfl⟩
    · have e : Ivf.search env B nd q k f s = (.error .index, f, s) := by
        simp [Ivf.search, hi, hnd]
      have hr : r = (.raised, f, s) := by simp only [r, Ivf.call, e]
      rw [hr]
      simp only [Live.next]
      exact ⟨h, fun hf _ => hf, fun ht => ⟨ht, trivial, fun _ _ _ hx => hx⟩, .inl trivial⟩

/-- No insert or update of the history raised. -/
def Clean [LinearOrder D] (env : IvfEnv V D) (B : Backend σ V M) (t : Ivf V × σ)
    (h : List (IxCall V M)) : Prop :=
  ∀ p ∈ h.zip (Ivf.run env B t h).1, ¬ badCall p.1 p.2

theorem Inv.run [LinearOrder D] {env : IvfEnv V D} (hk : KMeansOk env) (cs : List (IxCall V M)) :
    ∀ {live : List (Item V M)} {t : Ivf V × σ}, Inv L live t → Live.HistOk okId okM live cs →
    Inv L (Live.after live cs) (Ivf.run env B t cs).2 ∧
    (Full live t.1 → Clean env B t cs → Full (Live.after live cs) (Ivf.run env B t cs).2.1) ∧
    (t.1.trained = true → (Ivf.run env B t cs).2.1.trained = true ∧
      (Ivf.run env B t cs).2.1.cents = t.1.cents ∧
      ∀ x p, (∀ c ∈ cs, ¬ touches x c) → x ∈ clu t.1.clusters p →
        x ∈ clu (Ivf.run env B t cs).2.1.clusters p) ∧
    List.Forall₂ (fun r e => r = .raised ∨ r = e) (Ivf.run env B t cs).1
      (Live.replies (fun _ _ => false) live cs) := by
  induction cs with
  | nil =>
    intro live t h _
    exact ⟨h, fun hf _ => hf, fun ht => ⟨ht, rfl, fun _ _ _ hx => hx⟩, .nil⟩
  | cons c cs ih =>
    intro live t h hc
    obtain ⟨h1, h2, h3, h4⟩ := h.call hk c hc.1
    obtain ⟨g1, g2, g3, g4⟩ := ih h1 hc.2
    refine ⟨g1, ?_, ?_, .cons h4 g4⟩
    · intro hf hcl
      refine g2 (h2 hf (hcl (c, (Ivf.call env B t c).1) (by simp [Ivf.run]))) ?_
      intro p hp
      exact hcl p (by simp only [Ivf.run, List.zip_cons_cons, List.mem_cons]; exact .inr hp)
    · intro ht
      obtain ⟨a1, a2, a3⟩ := h3 ht
      obtain ⟨b1, b2, b3⟩ := g3 a1
      exact ⟨b1, b2.trans a2, fun x p hx hxc => b3 x p (fun c' hc' => hx c' (by simp [hc']))
        (a3 x p (hx c (by simp)) hxc)⟩

/-- Initialising a new index on a storage that holds `live`. -/
theorem init_inv [LinearOrder D] {env : IvfEnv V D} (hk : KMeansOk env) {s : σ}
    (h : Flat.Inv L live ((Flat.init B Flat.new s).2)) :
    Inv L live ((Ivf.init env B Ivf.new s).2) ∧ Full live ((Ivf.init env B Ivf.new s).2.1) := by
  simp only [Flat.init] at h
  simp only [Ivf.init]
  cases hl : B.list s none with
  | mk q s' =>
  rw [hl] at h
  cases q with
  | error e =>
    simp only at h ⊢
    have hids : ([] : List Id) = Live.idsOf live := h.ids
    refine ⟨⟨⟨rfl, h.ids, h.nd, h.cache, h.st, h.cont⟩, ⟨?_, ?_, ?_, ?_⟩, h.cnt⟩, ?_⟩ <;>
      simp [Ivf.new, members, Full]
  | ok l =>
    simp only at h ⊢
    have hf : Full live ({ (Ivf.new : Ivf V) with ids := l, count := l.length, inited := true }) := by
      simp [Full, Ivf.new]
    have hinv : Inv L live
        ({ (Ivf.new : Ivf V) with ids := l, count := l.length, inited := true }, s') := by
      refine ⟨⟨rfl, h.ids, h.nd, h.cache, h.st, h.cont⟩, ⟨?_, ?_, ?_, ?_⟩, h.cnt⟩ <;>
        simp [Ivf.new, members]
    split
    · exact hinv.train hk hf
    · exact ⟨hinv, hf⟩

end Ivf
end Valori
