import Verif.Lemmas.IvfTotal
import Verif.Lemmas.Hnsw

/-! What IVF and HNSW indices do depends on the storage only through its content, and IVF does not
depend on its cache. -/

namespace Valori
open Spec

variable {σ τ V M D : Type} {B : Backend σ V M} {C : Backend τ V M} {okId okId' : Id → Prop}
  {okM okM' : M → Prop}

theorem rowMeta_ok {mds : Option (List (Option M))}
    (hm : ∀ x : List (Option M), mds = some x → ∀ m, some m ∈ x → okM m) (i : Nat) :
    ∀ x, rowMeta mds i = some x → okM x := by
  intro x hx
  cases mds with
  | none => simp [rowMeta] at hx
  | some l =>
    refine hm l rfl x ?_
    rw [Live.mdAt_eq_rowMeta] at hx
    simp only [Live.mdAt] at hx
    rcases hl : l[i]? with _ | o
    · simp [hl] at hx
    · rw [hl] at hx
      simp at hx
      exact hx ▸ List.mem_of_getElem? hl

namespace Hnsw

/-- Inserting rows into the graph. -/
def putRows (env : HnswEnv V D) (rows : List (Id × V)) (f : Hnsw V) : Hnsw V :=
  rows.foldl (fun g r => insertInternal env r.1 r.2 g) f

theorem insertLoop_form (L : Lawful B okId okM) (env : HnswEnv V D) (mds : Option (List (Option M)))
    (hm : ∀ x : List (Option M), mds = some x → ∀ m, some m ∈ x → okM m) (rows : List (Id × V)) :
    ∀ (i : Nat) (f : Hnsw V) (s : σ), L.inv s → (∀ r ∈ rows, r.1 ≠ "" ∧ okId r.1) →
    ∃ s', insertLoop env B mds i rows f s = (.ok (rows.map Prod.fst), putRows env rows f, s') := by
  induction rows with
  | nil => intro i f s _ _; exact ⟨s, rfl⟩
  | cons r rows ih =>
    obtain ⟨id, v⟩ := r
    intro i f s hs hr
    obtain ⟨s1, e1, i1, -⟩ := L.store (v := v) hs (hr (id, v) (by simp)).2 (hr (id, v) (by simp)).1
      (rowMeta_ok hm i)
    obtain ⟨s2, e2⟩ := ih (i + 1) (insertInternal env id v f) s1 i1 (fun r h => hr r (by simp [h]))
    exact ⟨s2, by simp only [insertLoop, e1, e2]; rfl⟩

theorem deleteLoop_form (L : Lawful B okId okM) (dels : List Id) :
    ∀ (ok : Bool) (f : Hnsw V) (s : σ), L.inv s → (∀ id ∈ dels, okId id) →
    ∃ b s', deleteLoop B dels ok f s = (.ok b, dels.foldl (fun g id => removeInternal id g) f, s') := by
  induction dels with
  | nil => intro ok f s _ _; exact ⟨ok, s, rfl⟩
  | cons id dels ih =>
    intro ok f s hs hd
    obtain ⟨s1, e1, i1, -⟩ := L.delete hs (hd id (by simp))
    obtain ⟨b, s2, e2⟩ := ih (if (L.content s id).isSome then ok else false) (removeInternal id f) s1 i1
      (fun x h => hd x (by simp [h]))
    exact ⟨b, s2, by simp only [deleteLoop, e1]; exact e2⟩

/-- The reply to a request and the new index do not depend on the storage behind it. -/
theorem call_oblivious [LinearOrder D] {L : Lawful B okId okM} {K : Lawful C okId' okM'}
    (env : HnswEnv V D) {live : List (Item V M)} {f : Hnsw V} {s : σ} {t : τ}
    (h : Inv L live (f, s)) (h' : Inv K live (f, t)) :
    (∀ nd rows mds, Live.CallOk okId okM live (.insert nd rows mds) →
      Live.CallOk okId' okM' live (.insert nd rows mds) →
      ∃ r g s' t', insert env B nd rows mds f s = (r, g, s') ∧ insert env C nd rows mds f t = (r, g, t')) ∧
    (∀ ids, Live.CallOk okId okM live (.delete ids) → Live.CallOk okId' okM' live (.delete ids) →
      ∃ r g s' t', delete B ids f s = (r, g, s') ∧ delete C ids f t = (r, g, t')) ∧
    (∀ id v m, Live.CallOk okId okM live (.update id v m) →
      Live.CallOk okId' okM' live (.update id v m) →
      ∃ r g s' t', update B id v m f s = (r, g, s') ∧ update C id v m f t = (r, g, t')) ∧
    ∀ nd q k, ∃ r s' t', search env B nd q k f s = (r, f, s') ∧ search env C nd q k f t = (r, f, t') := by
  have hi : f.inited = true := h.gr.inited
  refine ⟨?_, ?_, ?_, ?_⟩
  · intro nd rows mds hc hc'
    by_cases hnd : nd = 2
    · subst hnd
      obtain ⟨s', e⟩ := insertLoop_form L env mds hc.2.2 rows 0 f s h.st
        (fun r hr => ⟨(hc.2.1 r hr).1, (hc.2.1 r hr).2.1⟩)
      obtain ⟨t', e'⟩ := insertLoop_form K env mds hc'.2.2 rows 0 f t h'.st
        (fun r hr => ⟨(hc'.2.1 r hr).1, (hc'.2.1 r hr).2.1⟩)
      exact ⟨_, _, s', t', by simp only [insert, hi, e]; rfl, by simp only [insert, hi, e']; rfl⟩
    · exact ⟨.error .index, f, s, t, by simp [insert, hi, hnd], by simp [insert, hi, hnd]⟩
  · intro ids hc hc'
    obtain ⟨b, s', e⟩ := deleteLoop_form L ids true f s h.st hc
    obtain ⟨b', t', e'⟩ := deleteLoop_form K ids true f t h'.st hc'
    obtain ⟨_, _, k, -⟩ := deleteLoop_spec ids true live f s h hc
    obtain ⟨_, _, k', -⟩ := deleteLoop_spec ids true live f t h' hc'
    rw [e] at k; rw [e'] at k'
    simp only [Prod.mk.injEq, Except.ok.injEq] at k k'
    obtain rfl : b = b' := by rw [k.1, k'.1]
    exact ⟨_, _, s', t', by simp only [delete, hi, e]; rfl, by simp only [delete, hi, e']; rfl⟩
  · intro id v m hc hc'
    obtain ⟨s', e, -⟩ := L.update (v := v) (m := m) h.st hc.1 hc.2
    obtain ⟨t', e', -⟩ := K.update (v := v) (m := m) h'.st hc'.1 hc'.2
    simp only at e e'
    have hcc : L.content s = K.content t := (show L.content s = _ from h.cont).trans h'.cont.symm
    rw [hcc] at e
    cases hb : (K.content t id).isSome <;> rw [hb] at e e'
    · exact ⟨_, _, s', t', by simp only [update, hi, e]; rfl, by simp only [update, hi, e']; rfl⟩
    · exact ⟨_, _, s', t', by simp only [update, hi, e]; rfl, by simp only [update, hi, e']; rfl⟩
  · intro nd q k
    by_cases hnd : nd = 1
    · subst hnd
      obtain ⟨r, s', e, -, a1, a2, a3, a4⟩ := h.search (env := env) q k
      obtain ⟨r', t', e', -, b1, b2, b3, b4⟩ := h'.search (env := env) q k
      have : r = r' := by
        by_cases hl : live = []
        · rw [a2 hl, b2 hl]
        · cases hc : candidates env q f with
          | error er => rw [a3 hl er hc, b3 hl er hc]
          | ok c =>
            obtain ⟨x, rfl⟩ := a4 c hc
            obtain ⟨y, rfl⟩ := b4 c hc
            obtain ⟨c1, d1, rfl⟩ := a1 x rfl hl
            obtain ⟨c2, d2, rfl⟩ := b1 y rfl hl
            rw [d1] at d2
            cases d2
            rfl
      subst this
      exact ⟨r, s', t', e, e'⟩
    · exact ⟨.error .index, s, t, by simp [search, hi, hnd], by simp [search, hi, hnd]⟩

end Hnsw

namespace Ivf

/-- The index without its cache. -/
def bare (f : Ivf V) : Ivf V := { f with cache := [] }

theorem bare_eq {f g : Ivf V} (h : bare f = bare g) : ∃ c, g = { f with cache := c } := by
  obtain ⟨a, b, c, d, e, i, j⟩ := f
  obtain ⟨a', b', c', d', e', i', j'⟩ := g
  simp only [bare, Ivf.mk.injEq] at h
  obtain ⟨rfl, rfl, rfl, -, rfl, rfl, rfl⟩ := h
  exact ⟨d', rfl⟩

variable [LinearOrder D]

theorem addToCluster_cache (env : IvfEnv V D) (id : Id) (v : V) (f : Ivf V) (c : Dict Id V) :
    addToCluster env id v { f with cache := c } =
      (addToCluster env id v f).map (fun g => { g with cache := c }) ∧
    ∀ g, addToCluster env id v f = .ok g → g.cache = f.cache := by
  obtain ⟨cs, cl, ids, ca, n, tr, ini⟩ := f
  simp only [addToCluster]
  cases tr with
  | false => exact ⟨rfl, by rintro g h; cases h; rfl⟩
  | true =>
    cases cs with
    | none => exact ⟨rfl, by rintro g h; cases h; rfl⟩
    | some cs =>
      simp only
      cases closest (env.dist v) 0 cs none with
      | error e => exact ⟨rfl, by rintro g h; cases h⟩
      | ok j => exact ⟨rfl, by rintro g h; cases h; rfl⟩

theorem addLoop_cache (env : IvfEnv V D) (l : List Id) : ∀ (f : Ivf V) (c : Dict Id V),
    (∀ id ∈ l, c.get? id = f.cache.get? id) →
    addLoop env l { f with cache := c } = ((addLoop env l f).1, { (addLoop env l f).2 with cache := c }) := by
  induction l with
  | nil => intro f c _; rfl
  | cons id l ih =>
    intro f c h
    simp only [addLoop]
    rw [h id (by simp)]
    cases hg : f.cache.get? id with
    | none => rfl
    | some v =>
      obtain ⟨h1, h2⟩ := addToCluster_cache env id v f c
      simp only
      rw [h1]
      cases hadd : addToCluster env id v f with
      | error e => rfl
      | ok g =>
        simp only [Except.map]
        exact ih g c (fun x hx => by rw [h2 g hadd]; exact h x (by simp [hx]))

theorem reassign_cache (env : IvfEnv V D) (id : Id) (v : V) (f : Ivf V) (c : Dict Id V) :
    reassign env id v { f with cache := c } =
      ((reassign env id v f).1, { (reassign env id v f).2 with cache := c }) := by
  obtain ⟨cs, cl, ids, ca, n, tr, ini⟩ := f
  simp only [reassign]
  cases tr with
  | false => rfl
  | true =>
    cases cs with
    | none => rfl
    | some cs =>
      simp only
      rw [(addToCluster_cache env id v ⟨some cs, dropFirst id cl, ids, ca, n, true, ini⟩ c).1]
      cases addToCluster env id v ⟨some cs, dropFirst id cl, ids, ca, n, true, ini⟩ <;> rfl

/-- The cache after inserting rows. -/
def putCache (rows : List (Id × V)) (c : Dict Id V) : Dict Id V :=
  rows.foldl (fun c r => c.set r.1 r.2) c

theorem putCache_other (rows : List (Id × V)) : ∀ (c : Dict Id V) (id : Id), id ∉ rows.map Prod.fst →
    (putCache rows c).get? id = c.get? id := by
  induction rows with
  | nil => intro c id _; rfl
  | cons r rows ih =>
    intro c id h
    simp only [List.map_cons, List.mem_cons, not_or] at h
    show (putCache rows (c.set r.1 r.2)).get? id = _
    rw [ih _ _ h.2, Dict.get?_set, if_neg h.1]

theorem putCache_same (rows : List (Id × V)) : ∀ (c c' : Dict Id V) (id : Id), id ∈ rows.map Prod.fst →
    (putCache rows c).get? id = (putCache rows c').get? id := by
  induction rows with
  | nil => intro c c' id h; simp at h
  | cons r rows ih =>
    intro c c' id h
    show (putCache rows (c.set r.1 r.2)).get? id = (putCache rows (c'.set r.1 r.2)).get? id
    by_cases hr : id ∈ rows.map Prod.fst
    · exact ih _ _ id hr
    · obtain rfl : id = r.1 := by
        simp only [List.map_cons, List.mem_cons] at h
        exact h.resolve_right hr
      rw [putCache_other rows _ _ hr, putCache_other rows _ _ hr]
      simp

omit [LinearOrder D] in
theorem insertLoop_form (L : Lawful B okId okM) (mds : Option (List (Option M)))
    (hm : ∀ x : List (Option M), mds = some x → ∀ m, some m ∈ x → okM m) (rows : List (Id × V)) :
    ∀ (i : Nat) (f : Ivf V) (s : σ), L.inv s → (∀ r ∈ rows, r.1 ≠ "" ∧ okId r.1) →
    ∃ s', insertLoop B mds i rows f s = (.ok (rows.map Prod.fst),
      { f with ids := f.ids ++ rows.map Prod.fst, cache := putCache rows f.cache }, s') := by
  induction rows with
  | nil => intro i f s _ _; exact ⟨s, by simp [insertLoop, putCache]⟩
  | cons r rows ih =>
    obtain ⟨id, v⟩ := r
    intro i f s hs hr
    obtain ⟨s1, e1, i1, -⟩ := L.store (v := v) hs (hr (id, v) (by simp)).2 (hr (id, v) (by simp)).1
      (rowMeta_ok hm i)
    obtain ⟨s2, e2⟩ := ih (i + 1) { f with ids := f.ids ++ [id], cache := f.cache.set id v } s1 i1
      (fun r h => hr r (by simp [h]))
    exact ⟨s2, by simp only [insertLoop, e1, e2, List.append_assoc]; rfl⟩

theorem deleteLoop_form (L : Lawful B okId okM) (dels : List Id) :
    ∀ (ok : Bool) (f : Ivf V) (s : σ), L.inv s → (∀ id ∈ dels, okId id) →
    ∃ b s', deleteLoop B dels ok f s = (.ok b, { dels.foldl (fun g id => (
      { g with ids := if id ∈ g.ids then removeFirst g.ids id else g.ids,
               cache := g.cache.pop id, clusters := dropAll id g.clusters } : Ivf V)) f with
      cache := dels.foldl (fun c id => c.pop id) f.cache }, s') := by
  induction dels with
  | nil => intro ok f s _ _; exact ⟨ok, s, rfl⟩
  | cons id dels ih =>
    intro ok f s hs hd
    obtain ⟨s1, e1, i1, -⟩ := L.delete hs (hd id (by simp))
    obtain ⟨b, s2, e2⟩ := ih (if (L.content s id).isSome then ok else false)
      { f with ids := if id ∈ f.ids then removeFirst f.ids id else f.ids,
               cache := f.cache.pop id, clusters := dropAll id f.clusters } s1 i1
      (fun x h => hd x (by simp [h]))
    exact ⟨b, s2, by simp only [deleteLoop, e1]; exact e2⟩

omit [LinearOrder D] in
theorem drops_bare (dels : List Id) : ∀ (f g : Ivf V), bare f = bare g →
    bare (dels.foldl (fun g id => ({ g with
      ids := if id ∈ g.ids then removeFirst g.ids id else g.ids, cache := g.cache.pop id,
      clusters := dropAll id g.clusters } : Ivf V)) f) =
    bare (dels.foldl (fun g id => ({ g with
      ids := if id ∈ g.ids then removeFirst g.ids id else g.ids, cache := g.cache.pop id,
      clusters := dropAll id g.clusters } : Ivf V)) g) := by
  induction dels with
  | nil => intro f g h; exact h
  | cons id dels ih =>
    intro f g h
    refine ih _ _ ?_
    obtain ⟨c, rfl⟩ := bare_eq h
    rfl

theorem insertLoop_core {L : Lawful B okId okM} {live : List (Item V M)} {f : Ivf V} {s : σ}
    (h : Inv L live (f, s)) {rows : List (Id × V)} {mds : Option (List (Option M))}
    (hc : Live.CallOk okId okM live (.insert 2 rows mds)) :
    Inv L (live ++ Live.items mds 0 rows)
      ({ (insertLoop B mds 0 rows f s).2.1 with
          count := (insertLoop B mds 0 rows f s).2.1.ids.length }, (insertLoop B mds 0 rows f s).2.2) := by
  obtain ⟨h1, h2, h3⟩ := hc
  obtain ⟨g, s1, e, c⟩ := Flat.insertLoop_spec mds h3 rows 0 live (toFlat f) s h.core h1 h2
  have hsim : insertLoop B mds 0 rows f s =
      (.ok (rows.map Prod.fst), { f with ids := g.ids, cache := g.cache }, s1) := by
    rw [insertLoop_sim, e]
  rw [hsim]
  have hgids : g.ids = Live.idsOf (live ++ Live.items mds 0 rows) := c.ids
  refine ⟨⟨h.core.inited, c.ids, c.nd, c.cache, c.st, c.cont⟩, ⟨h.cl.keys, h.cl.nd, ?_, h.cl.tr⟩, ?_⟩
  · intro x hx; simp only [Live.idsOf, List.map_append, List.mem_append]
    exact .inl (h.cl.sub x hx)
  · show g.ids.length = _
    rw [hgids]; simp [Live.idsOf]

theorem train_oblivious {L : Lawful B okId okM} {K : Lawful C okId' okM'} (env : IvfEnv V D)
    {live : List (Item V M)} {f g : Ivf V} {s : σ} {t : τ} (h : Inv L live (f, s)) (h' : Inv K live (g, t))
    (hb : bare f = bare g) :
    (train env B f s).1 = (train env C g t).1 ∧
      bare (train env B f s).2.1 = bare (train env C g t).2.1 := by
  obtain ⟨c, rfl⟩ := bare_eq hb
  simp only [train]
  split
  · exact ⟨rfl, rfl⟩
  · obtain ⟨c1, s1, e1, -⟩ := loadVecs_spec L h.core.nd live (fun x hx => hx)
      h.core.cache h.core.st h.core.cont
    obtain ⟨c2, t1, e2, -⟩ := loadVecs_spec K h'.core.nd live (fun x hx => hx)
      h'.core.cache h'.core.st h'.core.cont
    have hids : f.ids = Live.idsOf live := h.core.ids
    simp only [toFlat] at e1 e2
    rw [← hids] at e1 e2
    rw [e1, e2]
    simp only
    split
    · exact ⟨rfl, rfl⟩
    · cases env.kmeans ((live.map fun x => (x.id, x.vec)).map Prod.snd) with
      | error e => exact ⟨rfl, rfl⟩
      | ok r => exact ⟨rfl, rfl⟩

theorem scanTop_form {L : Lawful B okId okM} (env : IvfEnv V D) {live : List (Item V M)} {f : Ivf V}
    {s : σ} (h : Inv L live (f, s)) (q : V) (k : Int) (l : List (Item V M)) (hsub : ∀ x ∈ l, x ∈ live) :
    ∃ c s', scanTop env B q k (Live.idsOf l) f s =
      (match scanRes (env.dist q) l with
        | .error _ => .error .index
        | .ok ds => .ok (attachMd (Live.find live) (sliceTo (pySortBy Prod.snd ds) k)),
       { f with cache := c }, s') := by
  obtain ⟨c, s1, e1, hc, i1, c1⟩ := scanVecs_spec L h.core.nd (env.dist q) l hsub h.core.cache
    h.core.st h.core.cont
  simp only [toFlat] at e1 c1
  simp only [scanTop, e1]
  cases hr : scanRes (env.dist q) l with
  | error e => exact ⟨c, s1, rfl⟩
  | ok ds =>
    obtain ⟨hall, hds⟩ := scanRes_ok hr
    have hmem : ∀ x ∈ sliceTo (pySortBy Prod.snd ds) k, (L.content s1 x.1).isSome = true := by
      intro x hx
      have hx2 := (pySortBy_perm Prod.snd ds).mem_iff.1 ((sliceTo_sublist _ _).subset hx)
      obtain ⟨dq, hq⟩ : ∃ dq, Extends (env.dist q) dq :=
        ⟨fun v => match env.dist q v with | .ok d => d | .error _ => x.2, by
          intro v d hv; simp [hv]⟩
      rw [hds dq hq] at hx2
      obtain ⟨y, hy, rfl⟩ := List.mem_map.1 hx2
      rw [c1, show L.content s = Live.find live from h.core.cont]
      show (Live.find live y.id).isSome = true
      rw [Live.find_mem h.core.nd (hsub y hy)]; rfl
    obtain ⟨s2, e2, -, -⟩ := fetchMeta_spec L _ i1 hmem
    refine ⟨c, s2, ?_⟩
    simp only [e2]
    rw [c1, show L.content s = Live.find live from h.core.cont]

/-- The reply to a request and the new index, up to its cache, depend neither on the storage behind it
nor on the cache. -/
theorem call_oblivious {L : Lawful B okId okM} {K : Lawful C okId' okM'}
    (env : IvfEnv V D) {live : List (Item V M)} {f g : Ivf V} {s : σ} {t : τ}
    (h : Inv L live (f, s)) (h' : Inv K live (g, t)) (hb : bare f = bare g) :
    (∀ nd rows mds, Live.CallOk okId okM live (.insert nd rows mds) →
      Live.CallOk okId' okM' live (.insert nd rows mds) →
      (insert env B nd rows mds f s).1 = (insert env C nd rows mds g t).1 ∧
      bare (insert env B nd rows mds f s).2.1 = bare (insert env C nd rows mds g t).2.1) ∧
    (∀ ids, Live.CallOk okId okM live (.delete ids) → Live.CallOk okId' okM' live (.delete ids) →
      (delete B ids f s).1 = (delete C ids g t).1 ∧
      bare (delete B ids f s).2.1 = bare (delete C ids g t).2.1) ∧
    (∀ id v m, Live.CallOk okId okM live (.update id v m) →
      Live.CallOk okId' okM' live (.update id v m) →
      (update env B id v m f s).1 = (update env C id v m g t).1 ∧
      bare (update env B id v m f s).2.1 = bare (update env C id v m g t).2.1) ∧
    ∀ nd q k, (search env B nd q k f s).1 = (search env C nd q k g t).1 ∧
      bare (search env B nd q k f s).2.1 = bare f ∧ bare (search env C nd q k g t).2.1 = bare f := by
  have hi : f.inited = true := h.core.inited
  have hi' : g.inited = true := h'.core.inited
  refine ⟨?_, ?_, ?_, ?_⟩
  · intro nd rows mds hc hc'
    by_cases hnd : nd = 2
    · subst hnd
      obtain ⟨s1, e⟩ := insertLoop_form L mds hc.2.2 rows 0 f s h.core.st
        (fun r hr => ⟨(hc.2.1 r hr).1, (hc.2.1 r hr).2.1⟩)
      obtain ⟨t1, e'⟩ := insertLoop_form K mds hc'.2.2 rows 0 g t h'.core.st
        (fun r hr => ⟨(hc'.2.1 r hr).1, (hc'.2.1 r hr).2.1⟩)
      have i1 := insertLoop_core h hc
      have i2 := insertLoop_core h' hc'
      rw [e] at i1
      rw [e'] at i2
      rw [insert_eq hi, insert_eq hi', e, e']
      obtain ⟨c, rfl⟩ := bare_eq hb
      simp only at i1 i2 ⊢
      split
      · obtain ⟨a1, a2⟩ := train_oblivious env i1 i2 rfl
        revert a1 a2
        rcases train env B _ s1 with ⟨_ | _, f1, s2⟩ <;> rcases train env C _ t1 with ⟨_ | _, g1, t2⟩ <;>
          intro a1 a2
        · exact ⟨rfl, a2⟩
        · cases a1
        · cases a1
        · exact ⟨rfl, a2⟩
      · split
        · have := addLoop_cache env (rows.map Prod.fst)
            { f with ids := f.ids ++ rows.map Prod.fst, cache := putCache rows f.cache,
                     count := (f.ids ++ rows.map Prod.fst).length } (putCache rows c)
            (fun id hid => putCache_same rows _ _ id hid)
          simp only at this
          rw [this]
          rcases addLoop env (rows.map Prod.fst) _ with ⟨_ | _, f1⟩ <;> exact ⟨rfl, rfl⟩
        · exact ⟨rfl, rfl⟩
    · have e1 : insert env B nd rows mds f s = (.error .index, f, s) := by simp [insert, hi, hnd]
      have e2 : insert env C nd rows mds g t = (.error .index, g, t) := by simp [insert, hi', hnd]
      rw [e1, e2]
      exact ⟨rfl, hb⟩
  · intro ids hc hc'
    obtain ⟨b, s', e⟩ := deleteLoop_form L ids true f s h.core.st hc
    obtain ⟨b', t', e'⟩ := deleteLoop_form K ids true g t h'.core.st hc'
    obtain ⟨_, _, k, -⟩ := deleteLoop_spec ids true live f s h.core h.cl hc
    obtain ⟨_, _, k', -⟩ := deleteLoop_spec ids true live g t h'.core h'.cl hc'
    rw [e] at k; rw [e'] at k'
    simp only [Prod.mk.injEq, Except.ok.injEq] at k k'
    obtain rfl : b = b' := by rw [k.1, k'.1]
    have hd := drops_bare ids f g hb
    obtain ⟨c, hc2⟩ := bare_eq hd
    simp only [delete, hi, hi', e, e']
    rw [hc2]
    exact ⟨rfl, rfl⟩
  · intro id v m hc hc'
    obtain ⟨s', e, -⟩ := L.update (v := v) (m := m) h.core.st hc.1 hc.2
    obtain ⟨t', e', -⟩ := K.update (v := v) (m := m) h'.core.st hc'.1 hc'.2
    simp only at e e'
    have hcc : L.content s = K.content t :=
      (show L.content s = _ from h.core.cont).trans h'.core.cont.symm
    rw [hcc] at e
    cases hx : (K.content t id).isSome <;> rw [hx] at e e'
    · simp only [update, hi, hi', e, e']
      exact ⟨rfl, hb⟩
    · rw [update_eq hi e, update_eq hi' e']
      obtain ⟨c, rfl⟩ := bare_eq hb
      simp only
      split
      · have := reassign_cache env id v { f with cache := f.cache.set id v } (c.set id v)
        simp only at this
        rw [this]
        rcases reassign env id v _ with ⟨_ | _, f1⟩ <;> exact ⟨rfl, rfl⟩
      · exact ⟨rfl, rfl⟩
  · intro nd q k
    by_cases hnd : nd = 1
    · subst hnd
      obtain ⟨c, rfl⟩ := bare_eq hb
      have hids : f.ids = Live.idsOf live := h.core.ids
      have key : ∀ l : List (Item V M), (∀ x ∈ l, x ∈ live) →
          (scanTop env B q k (Live.idsOf l) f s).1 =
            (scanTop env C q k (Live.idsOf l) { f with cache := c } t).1 ∧
          bare (scanTop env B q k (Live.idsOf l) f s).2.1 = bare f ∧
          bare (scanTop env C q k (Live.idsOf l) { f with cache := c } t).2.1 = bare f := by
        intro l hl
        obtain ⟨c1, s1, e1⟩ := scanTop_form env h q k l hl
        obtain ⟨c2, t1, e2⟩ := scanTop_form env h' q k l hl
        rw [e1, e2]
        exact ⟨rfl, rfl, rfl⟩
      simp only [search]
      split
      · exact ⟨rfl, rfl, rfl⟩
      split
      · exact ⟨rfl, rfl, rfl⟩
      split
      · exact ⟨rfl, rfl, rfl⟩
      split
      · have k1 := key live (fun x hx => hx)
        rw [← hids] at k1
        exact k1
      · split
        · exact ⟨rfl, rfl, rfl⟩
        · rename_i cs hcs
          cases hp : probes env q cs with
          | error e => exact ⟨rfl, rfl, rfl⟩
          | ok ps =>
            have hsubset : ∀ i ∈ ps.flatMap (clu f.clusters), i ∈ Live.idsOf live := by
              intro i hi'
              obtain ⟨c, _, hc⟩ := List.mem_flatMap.1 hi'
              exact h.cl.sub i ((mem_members h.cl.keys).2 ⟨c, hc⟩)
            obtain ⟨l, hl1, hl2⟩ := items_of_ids (live := live) _ hsubset
            have := key l hl2
            rw [hl1] at this
            exact this
    · have e1 : search env B nd q k f s = (.error .index, f, s) := by simp [search, hi, hnd]
      have e2 : search env C nd q k g t = (.error .index, g, t) := by simp [search, hi', hnd]
      rw [e1, e2]
      exact ⟨rfl, rfl, hb.symm⟩

end Ivf
end Valori
