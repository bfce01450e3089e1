import Verif.Props.Oblivious
import Verif.Props.Reinit

/-!
# Property C227: an IVF database that probes all its clusters is an exact database
-/

namespace Valori.Props
open Valori Valori.Spec

variable {σ τ V M D : Type} {B : Backend σ V M} {C : Backend τ V M} {okId okId' : Id → Prop}
  {okM okM' : M → Prop}

/-- While trained, there are no more centroids than probes. -/
def ProbesAll (env : IvfEnv V D) (f : Ivf V) : Prop :=
  f.trained = true → ∀ cs, f.cents = some cs → (cs.length : Int) ≤ env.nProbes

/-- The state of an IVF index that probes all its clusters. -/
def IvfWhole [LinearOrder D] (L : Lawful B okId okM) (env : IvfEnv V D) (live : List (Item V M))
    (t : Ivf V × σ) : Prop :=
  Ivf.Inv L live t ∧ Ivf.Full live t.1 ∧ ProbesAll env t.1

theorem sliceTo_wanted {α : Type} (l : List α) (k : Int) :
    sliceTo l k = l.take (Db.wanted k l.length) := by
  simp only [sliceTo, Db.wanted]
  split
  · rfl
  · congr 1; omega

section
variable [LinearOrder D] {L : Lawful B okId okM} {env : IvfEnv V D} {live : List (Item V M)}

theorem scanTop_exact {d : V → V → D} (hd : ∀ a b, env.dist a b = .ok (d a b)) {f : Ivf V} {s : σ}
    (h : Ivf.Inv L live (f, s)) (q : V) (k : Int) (l : List (Item V M)) (hp : l.Perm live) :
    ∃ hits, (Ivf.scanTop env B q k (Live.idsOf l) f s).1 = .ok hits ∧
      IsTopK (d q) live (Db.wanted k live.length) hits := by
  obtain ⟨c, s', e⟩ := Ivf.scanTop_form env h q k l (fun x hx => hp.mem_iff.1 hx)
  obtain ⟨ds, hds⟩ := scanRes_total (dist := env.dist q) (l := l) (fun x _ => ⟨_, hd q x.vec⟩)
  obtain ⟨-, h2⟩ := scanRes_ok hds
  have h3 := h2 (d q) (fun v x hv => by rw [hd] at hv; cases hv; rfl)
  rw [e, hds]
  refine ⟨_, rfl, ?_⟩
  have hperm := pySortBy_perm Prod.snd ds
  rw [h3] at hperm
  have hlen : (pySortBy Prod.snd ds).length = live.length := by
    rw [(pySortBy_perm Prod.snd ds).length_eq, h3, List.length_map, hp.length_eq]
  rw [sliceTo_wanted, hlen]
  rw [h3] at hlen ⊢
  exact isTopK_perm hp (isTopK_sub h.core.nd ((hp.map Item.id).nodup_iff.2 h.core.nd)
    (fun x hx => hp.mem_iff.1 hx) (d q) hperm (pySortBy_sorted _ _) _)

theorem search_exact {d : V → V → D} (hd : ∀ a b, env.dist a b = .ok (d a b)) (hp : 0 ≤ env.nProbes)
    {f : Ivf V} {s : σ} (h : IvfWhole L env live (f, s)) (q : V) (k : Int) :
    ∃ hits, (Ivf.search env B 1 q k f s).1 = .ok hits ∧
      IsTopK (d q) live (Db.wanted k live.length) hits := by
  obtain ⟨h, hfull, hb⟩ := h
  have hi : f.inited = true := h.core.inited
  have hids : f.ids = Live.idsOf live := h.core.ids
  have hs0 : Ivf.search env B 1 q k f s =
      if f.ids.isEmpty then (.ok [], f, s)
      else if !f.trained then Ivf.scanTop env B q k f.ids f s
      else
        match f.cents with
        | none => (.error .index, f, s)
        | some cents =>
          match Ivf.probes env q cents with
          | .error _ => (.error .index, f, s)
          | .ok ps => Ivf.scanTop env B q k (ps.flatMap (Ivf.clu f.clusters)) f s := by
    unfold Ivf.search
    rw [if_neg (by simp [hi]), if_neg (by simp)]
    rfl
  by_cases hl : live = []
  · subst hl
    exact ⟨[], by rw [hs0, if_pos (by rw [hids]; rfl)], by simp, by simp, by simp, by simp, by simp⟩
  · have hne : f.ids.isEmpty = false := by
      rw [hids]; cases live with
      | nil => exact absurd rfl hl
      | cons => rfl
    rw [if_neg (by simp [hne])] at hs0
    by_cases ht : f.trained = true
    · rw [if_neg (by simp [ht])] at hs0
      obtain ⟨cs, hcs, hcne, hlt⟩ := h.cl.tr ht
      simp only at hcs
      simp only [hcs] at hs0
      obtain ⟨ds, hds⟩ := Ivf.numberedDists_total (dist := env.dist q) (fun v => ⟨_, hd q v⟩) cs 0
      obtain ⟨ps, hps⟩ : ∃ ps, Ivf.probes env q cs = .ok ps := ⟨_, by simp only [Ivf.probes, hds]; rfl⟩
      rw [hps] at hs0
      simp only at hs0
      obtain ⟨hn, -⟩ := Ivf.probes_spec hp hps
      have hall : ∀ i, i < cs.length → i ∈ ps := by
        have hlen : ps.length = cs.length := by
          have := hn.length
          have := hb ht cs hcs
          omega
        have hsub : ps.Subperm (List.range cs.length) :=
          List.subperm_of_subset hn.nodup (fun i hi => List.mem_range.2 (hn.lt i hi))
        have := hsub.perm_of_length_le (by simp [hlen])
        intro i hi
        exact this.mem_iff.2 (List.mem_range.2 hi)
      have hsubset : ∀ i ∈ ps.flatMap (Ivf.clu f.clusters), i ∈ Live.idsOf live := by
        intro i hi'
        obtain ⟨c, _, hc⟩ := List.mem_flatMap.1 hi'
        exact h.cl.sub i ((Ivf.mem_members h.cl.keys).2 ⟨c, hc⟩)
      obtain ⟨l, hl1, hl2⟩ := items_of_ids (live := live) _ hsubset
      have hlnd : (Live.idsOf l).Nodup := by
        rw [hl1]; exact Ivf.cand_spec h.cl.nd hn.nodup
      have hperm : l.Perm live := by
        rw [List.perm_ext_iff_of_nodup (List.Nodup.of_map _ hlnd) (List.Nodup.of_map _ h.core.nd)]
        intro x
        refine ⟨hl2 x, fun hx => ?_⟩
        obtain ⟨c, hc⟩ := (Ivf.mem_members h.cl.keys).1 (hfull ht x.id (List.mem_map.2 ⟨x, hx, rfl⟩))
        have : x.id ∈ Live.idsOf l := by
          rw [hl1, List.mem_flatMap]
          exact ⟨c, hall c (hlt c (Ivf.clu_key hc)), hc⟩
        obtain ⟨y, hy, he⟩ := List.mem_map.1 this
        rw [← Live.eq_of_id h.core.nd (hl2 y hy) hx he]; exact hy
      have := scanTop_exact hd h q k l hperm
      rw [hl1] at this
      rw [hs0]
      exact this
    · have ht : f.trained = false := by simpa using ht
      rw [if_pos (by simp [ht]), hids] at hs0
      rw [hs0]
      exact scanTop_exact hd h q k live (List.Perm.refl _)

omit [LinearOrder D] in
theorem train_probes (hc : ∀ vs cs ls, env.kmeans vs = .ok (cs, ls) → (cs.length : Int) ≤ env.nProbes)
    {f : Ivf V} {s : σ} (h : ProbesAll env f) : ProbesAll env (Ivf.train env B f s).2.1 := by
  simp only [Ivf.train]
  split
  · exact h
  · split
    · exact h
    · split
      · exact h
      · split
        · exact h
        · rename_i cs ls e
          intro _ cs' hcs'
          cases hcs'
          exact hc _ _ _ e

theorem call_probes (hk : Ivf.KMeansOk env)
    (hc : ∀ vs cs ls, env.kmeans vs = .ok (cs, ls) → (cs.length : Int) ≤ env.nProbes) {t : Ivf V × σ}
    (h : Ivf.Inv L live t) (c : IxCall V M) (hok : Live.CallOk okId okM live c)
    (hb : ProbesAll env t.1) : ProbesAll env (Ivf.call env B t c).2.1 := by
  obtain ⟨f, s⟩ := t
  have hi : f.inited = true := h.core.inited
  by_cases ht : f.trained = true
  · obtain ⟨-, -, h3, -⟩ := h.call (env := env) hk c hok
    obtain ⟨-, k2, -⟩ := h3 ht
    intro _ cs hcs
    exact hb ht cs (by rw [← k2]; exact hcs)
  · have ht : f.trained = false := by simpa using ht
    have hun : ∀ g : Ivf V, g.trained = false → ProbesAll env g := by
      intro g hg h; rw [hg] at h; cases h
    cases c with
    | insert nd rows mds =>
      by_cases hnd : nd = 2
      · subst hnd
        obtain ⟨s1, e⟩ := Ivf.insertLoop_form L mds hok.2.2 rows 0 f s h.core.st
          (fun r hr => ⟨(hok.2.1 r hr).1, (hok.2.1 r hr).2.1⟩)
        simp only [Ivf.call, Ivf.insert_eq hi, e]
        split
        · rename_i l t he
          split at he
          · split at he
            · rename_i t' e2
              cases he
              have := train_probes (B := B) hc (s := s1) (hun _ (show ({ f with
                ids := f.ids ++ rows.map Prod.fst, cache := Ivf.putCache rows f.cache,
                count := (f.ids ++ rows.map Prod.fst).length } : Ivf V).trained = false from ht))
              rw [e2] at this
              exact this
            · cases he
          · cases he; exact hun _ ht
        · rename_i l t he
          split at he
          · split at he
            · cases he
            · rename_i t' e2
              cases he
              have := train_probes (B := B) hc (s := s1) (hun _ (show ({ f with
                ids := f.ids ++ rows.map Prod.fst, cache := Ivf.putCache rows f.cache,
                count := (f.ids ++ rows.map Prod.fst).length } : Ivf V).trained = false from ht))
              rw [e2] at this
              exact this
          · cases he
      · have e : Ivf.insert env B nd rows mds f s = (.error .index, f, s) := by
          simp [Ivf.insert, hi, hnd]
        simp only [Ivf.call, e]
        exact hb
    | delete ids =>
      obtain ⟨f', s', e, -, -, r3, -⟩ := Ivf.deleteLoop_spec ids true live f s h.core h.cl hok
      have e2 : Ivf.delete B ids f s =
          (.ok (Live.removeAll live ids).1, { f' with count := f'.ids.length }, s') := by
        simp [Ivf.delete, hi, e]
      simp only [Ivf.call, e2]
      exact hun _ (r3.trans ht)
    | update id v m =>
      obtain ⟨s', e, -, -⟩ := L.update (v := v) (m := m) h.core.st hok.1 hok.2
      simp only at e
      cases hx : (L.content s id).isSome <;> rw [hx] at e
      · have e2 : Ivf.update env B id v m f s = (.ok false, f, s') := by simp [Ivf.update, hi, e]
        simp only [Ivf.call, e2]
        exact hb
      · have e2 := Ivf.update_eq (env := env) hi e
        rw [if_neg (by simp [ht])] at e2
        simp only [Ivf.call, e2]
        exact hun _ ht
    | search nd q k =>
      by_cases hnd : nd = 1
      · subst hnd
        obtain ⟨r, c, s', e, -⟩ := h.search (env := env) q k
        simp only [Ivf.call, e]
        cases r <;> exact hun _ ht
      · have e : Ivf.search env B nd q k f s = (.error .index, f, s) := by
          simp [Ivf.search, hi, hnd]
        simp only [Ivf.call, e]
        exact hb

end

/-- What an exact answer is. -/
def Exact [LinearOrder D] (d : V → V → D) (live : List (Item V M)) (q : V) (k : Int)
    (l : List (Hit D M)) : Prop := IsTopK (d q) live (Db.wanted k live.length) l

theorem ivfWhole_serves [LinearOrder D] (L : Lawful B okId okM) (env : IvfEnv V D) (hk : Ivf.KMeansOk env)
    (hK : ∀ vs, vs ≠ [] → ∃ r, env.kmeans vs = .ok r) (hp : 0 ≤ env.nProbes)
    (hc : ∀ vs cs ls, env.kmeans vs = .ok (cs, ls) → (cs.length : Int) ≤ env.nProbes) {d : V → V → D}
    (hd : ∀ a b, env.dist a b = .ok (d a b)) :
    Serves L (ivfParts env B) (· = Ivf.new) (IvfWhole L env) (fun _ _ => False) (Exact d) where
  sInit := rfl
  qInit := rfl
  pInit := rfl
  pClose := rfl
  qClose := rfl
  sClose := rfl
  opens := by
    rintro x s rfl hs
    obtain ⟨t, live, e, hi, hf⟩ := Ivf.opens (L := L) (env := env) hk hK hs
    obtain ⟨g, s', live2, e2, hinv, -⟩ := Flat.init_inv (L := L) (f := Flat.new) hs
      (fun id v v' m _ h => by simp [Flat.new] at h)
    obtain ⟨h1, h2⟩ := Ivf.init_inv (env := env) (live := live2) hk (s := s) (by rw [e2]; exact hinv)
    rw [e] at h1 h2
    refine ⟨t, live, e, ⟨hi, ?_, ?_⟩, hf⟩
    · intro ht id hid
      refine h2 ht id ?_
      have a1 : t.1.ids = Live.idsOf live := hi.core.ids
      have a2 : t.1.ids = Live.idsOf live2 := h1.core.ids
      rw [← a2, a1]; exact hid
    · have : ProbesAll env (Ivf.init env B Ivf.new s).2.1 := by
        simp only [Ivf.init]
        split
        · intro h; cases h
        · split
          · exact train_probes hc (by intro h; cases h)
          · intro h; cases h
      rw [e] at this
      exact this
  closes w := ⟨_, rfl, rfl⟩
  nd h := h.1.core.nd
  st h := h.1.core.st
  cont h := h.1.core.cont
  mayPerm _ _ h := h
  goodPerm h q k a ha := by
    simp only [Exact] at ha ⊢
    rw [← h.length_eq]
    exact isTopK_perm h ha
  request := by
    intro live t h c hok
    obtain ⟨r1, r2⟩ := (ivf_serves L env hk hK hp).request h.1 c hok
    have hstate : ((ivfParts env B).request c t).2 = (Ivf.call env B t c).2 := by
      cases c with
      | insert nd rows mds =>
        simp only [ivfParts, Ivf.call]
        rcases Ivf.insert env B nd rows mds t.1 t.2 with ⟨_ | _, _⟩ <;> rfl
      | delete ids =>
        simp only [ivfParts, Ivf.call]
        rcases Ivf.delete B ids t.1 t.2 with ⟨_ | _, _⟩ <;> rfl
      | update id v m =>
        simp only [ivfParts, Ivf.call]
        rcases Ivf.update env B id v m t.1 t.2 with ⟨_ | _, _⟩ <;> rfl
      | search nd q k =>
        simp only [ivfParts, Ivf.call]
        rcases Ivf.search env B nd q k t.1 t.2 with ⟨_ | _, _⟩ <;> rfl
    have hno : ¬ ∃ a b e, env.dist a b = .error e := by
      rintro ⟨a, b, e, he⟩; rw [hd] at he; cases he
    have htot : Ivf.Total env := ⟨fun a b => ⟨_, hd a b⟩, hK⟩
    refine ⟨?_, r2, ?_, ?_⟩
    · simp only [Db.RightBy, if_neg (show ¬ (true = false) by decide)] at r1 ⊢
      cases c with
      | insert nd rows mds =>
        simp only at r1 ⊢
        split
        · rename_i hnd
          rw [if_pos hnd] at r1
          exact .inl (r1.resolve_right fun x => hno x.1)
        · rename_i hnd
          rw [if_neg hnd] at r1
          exact r1
      | delete ids => exact r1
      | update id v m => exact .inl (r1.resolve_right fun x => hno x.1)
      | search nd q k =>
        simp only at r1 ⊢
        split
        · rename_i hnd
          subst hnd
          obtain ⟨hits, e1, e2⟩ := search_exact hd hp (s := t.2) (f := t.1) h q k
          refine .inl ⟨hits, ?_, e2⟩
          simp only [ivfParts]
          revert e1
          rcases Ivf.search env B 1 q k t.1 t.2 with ⟨_ | x, _⟩
          · intro e1; cases e1
          · intro e1; cases e1; rfl
        · rename_i hnd
          rw [if_neg hnd] at r1
          exact r1
    · rw [hstate]
      obtain ⟨-, k2, -, -⟩ := h.1.call (env := env) hk c hok
      by_cases hbad : Ivf.badCall c (Ivf.call env B t c).1
      · obtain ⟨f, s⟩ := t
        have hi : f.inited = true := h.1.core.inited
        cases c with
        | insert nd rows mds =>
          by_cases hnd : nd = 2
          · subst hnd
            obtain ⟨l, t2, e2⟩ := h.1.insert_total htot hok
            simp only [Ivf.call, e2, Ivf.badCall] at hbad
          · have e : Ivf.insert env B nd rows mds f s = (.error .index, f, s) := by
              simp [Ivf.insert, hi, hnd]
            simp only [Ivf.call, e, Live.next, hnd, if_false]
            exact h.2.1
        | update id v m =>
          obtain ⟨l, t2, e2⟩ := h.1.update_total htot v hok.1 hok.2
          simp only [Ivf.call, e2, Ivf.badCall] at hbad
        | delete ids => simp only [Ivf.badCall] at hbad
        | search nd q k => simp only [Ivf.badCall] at hbad
      · exact k2 h.2.1 hbad
    · rw [hstate]
      exact call_probes hk hc h.1 c hok h.2.2

theorem allRight_of_by [LinearOrder D] {vol : Bool} {d : V → V → D} (h : List (ClCall (IxCall V M))) :
    ∀ (db : Db V M) (as : List (DbAns D M)),
    Db.AllRightBy vol (fun _ _ => False) (Exact d) db h as →
    Db.AllRight vol d (fun _ _ => false) db h as := by
  induction h with
  | nil => intro db as ha; cases as <;> exact ha
  | cons x h ih =>
    intro db as ha
    cases as with
    | nil => exact ha
    | cons a as =>
      refine ⟨?_, ih _ _ ha.2⟩
      have := ha.1
      cases x with
      | init => exact this
      | close => exact this
      | request c =>
        simp only [Db.RightBy, Db.Right] at this ⊢
        by_cases ho : db.isOpen = false
        · rw [if_pos ho] at this ⊢; exact this
        · rw [if_neg ho] at this ⊢
          cases c with
          | insert nd rows mds =>
            simp only at this ⊢
            split
            · rename_i hnd
              rw [if_pos hnd] at this
              exact this.resolve_right fun x => x.1
            · rename_i hnd
              rw [if_neg hnd] at this
              exact this
          | delete ids => exact this
          | update id v m => exact this.resolve_right fun x => x.1
          | search nd q k =>
            simp only [and_true] at this ⊢
            split
            · rename_i hnd
              rw [if_pos hnd] at this
              exact this.resolve_right fun x => x.1
            · rename_i hnd
              rw [if_neg hnd] at this
              exact this

/-- **C227** A client over an IVF index with at least as many probes as k-means gives centroids is an
exact search database, over every storage that behaves as a map and for every history in which
`initialize` is called on a closed client only: the specification is the one of the flat index (C194),
with no search that raises. -/
theorem C227_ivf_exact [LinearOrder D] (L : Lawful B okId okM) (vol : Bool) (hR : Reopens L vol)
    (env : IvfEnv V D) (hk : Ivf.KMeansOk env) (hK : ∀ vs, vs ≠ [] → ∃ r, env.kmeans vs = .ok r)
    (hp : 0 ≤ env.nProbes)
    (hc : ∀ vs cs ls, env.kmeans vs = .ok (cs, ls) → (cs.length : Int) ≤ env.nProbes) (d : V → V → D)
    (hd : ∀ a b, env.dist a b = .ok (d a b)) (s : σ) (live : List (Item V M))
    (hn : (live.map Item.id).Nodup) (hs : L.inv (B.init s))
    (hl : ∀ id, L.content (B.init s) id = Live.find live id) (h : List (ClCall (IxCall V M)))
    (hok : Db.HistOk okId okM vol ⟨false, live⟩ h) (hop : Db.OpensClosed vol ⟨false, live⟩ h) :
    Db.AllRight vol d (fun _ _ => false) ⟨false, live⟩ h
      ((Client.converse (ivfParts env B) ⟨(Ivf.new, s), false⟩ h).1.map seen) :=
  allRight_of_by h _ _ (follows_all (ivfWhole_serves L env hk hK hp hc hd) hR h ⟨false, live⟩
    ⟨(Ivf.new, s), false⟩ ⟨rfl, (fun h => by cases h), fun _ => ⟨rfl, hn, hs, hl⟩⟩ hok hop)

theorem ivfWhole_again [LinearOrder D] {L : Lawful B okId okM} {env : IvfEnv V D} (hk : Ivf.KMeansOk env)
    (hK : ∀ vs, vs ≠ [] → ∃ r, env.kmeans vs = .ok r)
    (hc : ∀ vs cs ls, env.kmeans vs = .ok (cs, ls) → (cs.length : Int) ≤ env.nProbes) :
    InitsAgain L (ivfParts env B) (IvfWhole L env) := by
  intro live f s₀ s h hs hcont
  obtain ⟨t, live', e, hi, hf⟩ := ivf_again hk hK live f s₀ s h.1 hs hcont
  have hp : live.Perm live' := find_perm_of_eq h.1.core.nd hi.core.nd fun id => by rw [hf, hcont]
  refine ⟨t, live', e, ⟨hi, ?_⟩, hf⟩
  have hfull : Ivf.Full live' f := by
    intro ht id hid
    exact h.2.1 ht id ((hp.map Item.id).mem_iff.2 hid)
  have h0 : f.inited = true := h.1.core.inited
  simp only [ivfParts, Ivf.init] at e
  rcases hl : B.list s none with ⟨_ | l, s1⟩
  · rw [hl] at e; simp at e
  rw [hl] at e
  simp only at e
  obtain ⟨g, s', live2, e2, hinv, hf2⟩ := Flat.init_inv (L := L) (f := Ivf.toFlat f) hs (by
    intro id v v' m h1 h2
    rw [hcont] at h1
    have hm : id ∈ Live.idsOf live := by rw [← Live.has_iff, ← Live.find_isSome, h1]; rfl
    obtain ⟨y, hy, rfl⟩ := List.mem_map.1 hm
    rw [Live.find_mem h.1.core.nd hy] at h1
    cases h1
    exact h.1.core.cache y hy v' h2)
  simp only [Flat.init, hl, Prod.mk.injEq, true_and] at e2
  obtain ⟨rfl, rfl⟩ := e2
  have hp2 : live.Perm live2 := find_perm_of_eq h.1.core.nd hinv.nd fun id => by rw [hf2, hcont]
  have hI : Ivf.Inv L live2 ({ f with ids := l, count := l.length, inited := true }, s1) :=
    ⟨⟨rfl, hinv.ids, hinv.nd, hinv.cache, hinv.st, hinv.cont⟩,
      ⟨h.1.cl.keys, h.1.cl.nd, fun id hid => (hp2.map Item.id).mem_iff.1 (h.1.cl.sub id hid), h.1.cl.tr⟩,
      hinv.cnt⟩
  have hids : ∀ id, id ∈ Live.idsOf live' → id ∈ Live.idsOf live2 := fun id hid =>
    ((hp.symm.trans hp2).map Item.id).mem_iff.1 hid
  have hfull2 : Ivf.Full live2 ({ f with ids := l, count := l.length, inited := true } : Ivf V) := by
    intro ht id hid
    exact h.2.1 ht id ((hp2.map Item.id).mem_iff.2 hid)
  split at e
  · have k1 := (hI.train_inv hk).2 hfull2
    have k2 := train_probes (B := B) (s := s1) hc
      (show ProbesAll env ({ f with ids := l, count := l.length, inited := true } : Ivf V) from h.2.2)
    rw [e] at k1 k2
    exact ⟨fun ht id hid => k1 ht id (hids id hid), k2⟩
  · simp only [Prod.mk.injEq, true_and] at e
    rw [← e]
    exact ⟨fun ht id hid => hfull2 ht id (hids id hid), h.2.2⟩

/-- **C227** On storage that keeps its content, for every history. -/
theorem C227_ivf_persistent [LinearOrder D] (L : Lawful B okId okM) (hR : Reopens L false)
    (env : IvfEnv V D) (hk : Ivf.KMeansOk env) (hK : ∀ vs, vs ≠ [] → ∃ r, env.kmeans vs = .ok r)
    (hp : 0 ≤ env.nProbes)
    (hc : ∀ vs cs ls, env.kmeans vs = .ok (cs, ls) → (cs.length : Int) ≤ env.nProbes) (d : V → V → D)
    (hd : ∀ a b, env.dist a b = .ok (d a b)) (s : σ) (live : List (Item V M))
    (hn : (live.map Item.id).Nodup) (hs : L.inv (B.init s))
    (hl : ∀ id, L.content (B.init s) id = Live.find live id) (h : List (ClCall (IxCall V M)))
    (hok : Db.HistOk okId okM false ⟨false, live⟩ h) :
    Db.AllRight false d (fun _ _ => false) ⟨false, live⟩ h
      ((Client.converse (ivfParts env B) ⟨(Ivf.new, s), false⟩ h).1.map seen) :=
  allRight_of_by h _ _ (again_all (ivfWhole_serves L env hk hK hp hc hd) (ivfWhole_again hk hK hc) hR h
    ⟨false, live⟩ ⟨(Ivf.new, s), false⟩ ⟨rfl, (fun h => by cases h), fun _ => ⟨rfl, hn, hs, hl⟩⟩ hok).1

/-- Two right answers of the same exact database agree. -/
theorem exact_agree [LinearOrder D] {d : V → V → D} {db : Db V M} (hn : (Live.idsOf db.live).Nodup)
    {x : ClCall (IxCall V M)} {a b : DbAns D M} (ha : Db.Right d (fun _ _ => false) db x a)
    (hb : Db.Right d (fun _ _ => false) db x b) : DbAns.Agree a b := by
  have refl : ∀ a b : DbAns D M, a = b → (∀ l, a ≠ .hits l) → DbAns.Agree a b := by
    rintro a b rfl h
    cases a with
    | hits l => exact absurd rfl (h l)
    | _ => rfl
  cases x with
  | init => exact refl a b (ha.trans hb.symm) (fun l e => by cases ha.symm.trans e)
  | close => exact refl a b (ha.trans hb.symm) (fun l e => by cases ha.symm.trans e)
  | request c =>
    simp only [Db.Right] at ha hb
    by_cases hop : db.isOpen = false
    · rw [if_pos hop] at ha hb
      exact refl a b (ha.trans hb.symm) (fun l e => by cases ha.symm.trans e)
    · rw [if_neg hop] at ha hb
      cases c with
      | insert nd rows mds =>
        simp only at ha hb
        refine refl a b (ha.trans hb.symm) (fun l e => ?_)
        rw [ha] at e; split at e <;> cases e
      | delete ids => exact refl a b (ha.trans hb.symm) (fun l e => by cases ha.symm.trans e)
      | update id v m => exact refl a b (ha.trans hb.symm) (fun l e => by cases ha.symm.trans e)
      | search nd q k =>
        simp only [and_true] at ha hb
        split at ha
        · rename_i hnd
          rw [if_pos hnd] at hb
          obtain ⟨l, rfl, ha⟩ := ha
          obtain ⟨l', rfl, hb⟩ := hb
          have hp := List.Perm.refl db.live
          refine ⟨IsTopK.dists_unique hn hp ha hb, ?_, ?_⟩
          · rintro x hx ⟨y, hy, hlt⟩; exact IsTopK.mem_of_lt hn hp ha hb hx hy hlt
          · rintro x hx ⟨y, hy, hlt⟩; exact IsTopK.mem_of_lt hn hp hb ha hx hy hlt
        · rename_i hnd
          rw [if_neg hnd] at hb
          exact refl a b (ha.trans hb.symm) (fun l e => by cases ha.symm.trans e)

theorem allRight_agree [LinearOrder D] {vol : Bool} {d : V → V → D} (h : List (ClCall (IxCall V M))) :
    ∀ (db : Db V M) (as bs : List (DbAns D M)), (∀ n, (Live.idsOf (Db.after vol db (h.take n)).live).Nodup) →
    Db.AllRight vol d (fun _ _ => false) db h as → Db.AllRight vol d (fun _ _ => false) db h bs →
    List.Forall₂ DbAns.Agree as bs := by
  induction h with
  | nil =>
    intro db as bs _ ha hb
    cases as <;> cases bs <;> first | exact .nil | exact ha.elim | exact hb.elim
  | cons x h ih =>
    intro db as bs hn ha hb
    cases as with
    | nil => exact ha.elim
    | cons a as =>
      cases bs with
      | nil => exact hb.elim
      | cons b bs =>
        exact .cons (exact_agree (hn 0) ha.1 hb.1) (ih _ as bs (fun n => hn (n + 1)) ha.2 hb.2)

/-- **C227** Such an IVF client and a flat client with the same metric, on any two storages of the same
kind that hold the same items, give the same answers to every history. -/
theorem C227_like_flat [LinearOrder D] (L : Lawful B okId okM) (K : Lawful C okId' okM') (vol : Bool)
    (hR : Reopens L vol) (hQ : Reopens K vol)
    (env : IvfEnv V D) (hk : Ivf.KMeansOk env) (hK : ∀ vs, vs ≠ [] → ∃ r, env.kmeans vs = .ok r)
    (hp : 0 ≤ env.nProbes)
    (hc : ∀ vs cs ls, env.kmeans vs = .ok (cs, ls) → (cs.length : Int) ≤ env.nProbes)
    (fenv : FlatEnv V D) (ha : IsArgsort fenv.argsort)
    (hf : ∀ (l : List (Item V M)) q, flatFails fenv l q = false)
    (hd : ∀ a b, env.dist a b = .ok (fenv.dist a b)) (s : σ) (t : τ) (live : List (Item V M))
    (hn : (live.map Item.id).Nodup) (hs : L.inv (B.init s)) (ht : K.inv (C.init t))
    (hl : ∀ id, L.content (B.init s) id = Live.find live id)
    (hl' : ∀ id, K.content (C.init t) id = Live.find live id) (h : List (ClCall (IxCall V M)))
    (hok : Db.HistOk okId okM vol ⟨false, live⟩ h) (hok' : Db.HistOk okId' okM' vol ⟨false, live⟩ h)
    (hop : Db.OpensClosed vol ⟨false, live⟩ h) :
    List.Forall₂ DbAns.Agree
      ((Client.converse (ivfParts env B) ⟨(Ivf.new, s), false⟩ h).1.map seen)
      ((Client.converse (flatParts fenv C) ⟨(Flat.new, t), false⟩ h).1.map seen) := by
  have sim0 : Sim K ⟨false, live⟩ ⟨(Flat.new, t), false⟩ :=
    ⟨rfl, (fun h => by cases h), fun _ => ⟨rfl, hn, ht, hl'⟩⟩
  refine allRight_agree h ⟨false, live⟩ _ _ ?_
    (C227_ivf_exact L vol hR env hk hK hp hc fenv.dist hd s live hn hs hl h hok hop) ?_
  · intro n
    have : Db.HistOk okId' okM' vol ⟨false, live⟩ (h.take n) := by
      have := hok'
      rw [← List.take_append_drop n h] at this
      exact (histOk_append _ _ _ this).1
    exact sim_nodup (sim_after_any hQ fenv ha (h.take n) _ _ sim0 this)
  · have := sim_history hQ fenv ha h _ _ sim0 hok'
    rw [show (flatFails fenv : List (Item V M) → V → Bool) = fun _ _ => false from
      funext fun l => funext fun q => hf l q] at this
    exact this

/-- Natural numbers; k-means with two centroids, two probes. -/
def exIvfTwo : IvfEnv Nat Nat := { exIvfAll with nProbes := 2 }

/-- A flat index on the same data. -/
def exFlatAll : FlatEnv Nat Nat where
  metricOk := true
  dim _ := 1
  finite _ := true
  dist a b := (a - b) + (b - a)
  argsort := exArgsort

/-- The hypotheses hold, and the answers to a history: with two probes everything is found. -/
example : Ivf.KMeansOk exIvfTwo ∧ (∀ vs, vs ≠ [] → ∃ r, exIvfTwo.kmeans vs = .ok r) ∧
    0 ≤ exIvfTwo.nProbes ∧
    (∀ vs cs ls, exIvfTwo.kmeans vs = .ok (cs, ls) → (cs.length : Int) ≤ exIvfTwo.nProbes) ∧
    (∀ (l : List (Item Nat Nat)) q, flatFails exFlatAll l q = false) ∧
    (∀ a b, exIvfTwo.dist a b = .ok (exFlatAll.dist a b)) ∧
    Db.HistOk (fun _ => True) (fun _ => True) true (⟨false, []⟩ : Db Nat Nat) exApproxHist ∧
    Db.OpensClosed true (⟨false, []⟩ : Db Nat Nat) exApproxHist ∧
    (Client.converse (ivfParts exIvfTwo (memBackend Nat Nat)) ⟨(Ivf.new, Mem.new), false⟩
      exApproxHist).1.map seen =
      [.done, .ids ["a", "b", "c"], .hits [⟨"a", 2, some 1⟩, ⟨"b", 3, none⟩, ⟨"c", 26, none⟩],
       .flag true, .flag true, .hits [⟨"b", 4, none⟩, ⟨"c", 26, none⟩], .done, .refused, .done,
       .hits []] := by
  refine ⟨?_, fun vs _ => ⟨_, rfl⟩, by decide, ?_, ?_, fun a b => rfl, ?_, ?_, by decide⟩
  · intro vs cs ls h
    simp only [exIvfTwo, exIvfAll, Except.ok.injEq, Prod.mk.injEq] at h
    obtain ⟨rfl, rfl⟩ := h
    refine ⟨by simp, ?_⟩
    intro l hl
    obtain ⟨v, _, rfl⟩ := List.mem_map.1 hl
    split <;> simp
  · intro vs cs ls h
    simp only [exIvfTwo, exIvfAll, Except.ok.injEq, Prod.mk.injEq] at h
    obtain ⟨rfl, rfl⟩ := h
    decide
  · intro l q
    simp [flatFails, exFlatAll]
  · simp [exApproxHist, Db.HistOk, Db.next, Live.CallOk, Live.next, Live.items, Live.has,
      Live.removeAll, Live.remove]
  · simp [exApproxHist, Db.OpensClosed, Db.next]

end Valori.Props
