import Verif.Lemmas.Index

/-! Invariant of the flat index and its preservation. -/

namespace Valori
open Spec (Item Hit IxCall IxReply IsTopK put)
open Spec

variable {σ V M D : Type} {B : Backend σ V M} {okId : Id → Prop} {okM : M → Prop}

namespace Flat

/-- Index and storage represent the live list (reported count aside). -/
structure Core (L : Lawful B okId okM) (live : List (Item V M)) (t : Flat V × σ) : Prop where
  inited : t.1.inited = true
  ids : t.1.ids = Live.idsOf live
  nd : (Live.idsOf live).Nodup
  cache : CacheOk live t.1.cache
  st : L.inv t.2
  cont : L.content t.2 = Live.find live

/-- ... and the reported count is right. -/
structure Inv (L : Lawful B okId okM) (live : List (Item V M)) (t : Flat V × σ) : Prop
    extends Core L live t where
  cnt : t.1.count = live.length

variable {L : Lawful B okId okM} {live : List (Item V M)}

theorem Core.insertOne {f : Flat V} {s : σ} (h : Core L live (f, s)) {id : Id} (v : V)
    {m : Option M} (hid : okId id) (hne : id ≠ "") (hfresh : Live.has live id = false)
    (hm : ∀ x, m = some x → okM x) :
    ∃ s', B.store s id v m = (.ok true, s') ∧
      Core L (live ++ [⟨id, v, m⟩])
        ({ f with ids := f.ids ++ [id], cache := f.cache.set id v }, s') := by
  obtain ⟨s', e, i', c'⟩ := L.store (v := v) (m := m) h.st hid hne hm
  rw [Live.has_false_iff] at hfresh
  refine ⟨s', e, h.inited, ?_, ?_, ?_, i', ?_⟩
  · simp only [show f.ids = Live.idsOf live from h.ids]; simp
  · simp only [Live.idsOf, List.map_append, List.map_cons, List.map_nil]
    rw [List.nodup_append]
    refine ⟨h.nd, by simp, ?_⟩
    intro a ha b hb
    simp only [List.mem_singleton] at hb
    subst hb
    rintro rfl; exact hfresh ha
  · intro x hx w hw
    simp only [Dict.get?_set] at hw
    rcases List.mem_append.1 hx with hx | hx
    · have : x.id ≠ id := fun e => hfresh (e ▸ List.mem_map.2 ⟨x, hx, rfl⟩)
      rw [if_neg this] at hw
      exact h.cache x hx w hw
    · simp only [List.mem_singleton] at hx
      subst hx
      simp at hw; exact hw.symm
  · rw [c', show L.content s = Live.find live from h.cont, Live.find_append_single hfresh]

theorem mdAt_ok {mds : Option (List (Option M))}
    (hm : ∀ x : List (Option M), mds = some x → ∀ m, some m ∈ x → okM m) (i : Nat) (x : M)
    (hx : Live.mdAt mds i = some x) : okM x := by
  cases mds with
  | none => simp [Live.mdAt] at hx
  | some l =>
    refine hm l rfl x ?_
    simp only [Live.mdAt] at hx
    cases h : l[i]? with
    | none => simp [h] at hx
    | some y => simp only [h, Option.join_some] at hx; subst hx; exact List.mem_of_getElem? h

theorem insertLoop_spec (mds : Option (List (Option M)))
    (hm : ∀ x : List (Option M), mds = some x → ∀ m, some m ∈ x → okM m)
    (rows : List (Id × V)) : ∀ (i : Nat) (live : List (Item V M)) (f : Flat V) (s : σ),
    Core L live (f, s) → (rows.map Prod.fst).Nodup →
    (∀ r ∈ rows, r.1 ≠ "" ∧ okId r.1 ∧ Live.has live r.1 = false) →
    ∃ f' s', insertLoop B mds i rows f s = (.ok (rows.map Prod.fst), f', s') ∧
      Core L (live ++ Live.items mds i rows) (f', s') := by
  induction rows with
  | nil => intro i live f s h _ _; exact ⟨f, s, rfl, by simpa [Live.items] using h⟩
  | cons r rows ih =>
    obtain ⟨id, v⟩ := r
    intro i live f s h hnd hr
    obtain ⟨h1, h2, h3⟩ := hr (id, v) (by simp)
    simp only [List.map_cons, List.nodup_cons] at hnd
    obtain ⟨s1, e1, c1⟩ := h.insertOne v h2 h1 h3 (m := Live.mdAt mds i)
      (fun x hx => mdAt_ok hm i x hx)
    obtain ⟨f', s', e, c⟩ := ih (i + 1) _ _ s1 c1 hnd.2 (by
      intro r hr'
      obtain ⟨g1, g2, g3⟩ := hr r (by simp [hr'])
      refine ⟨g1, g2, ?_⟩
      rw [Live.has_false_iff] at g3 ⊢
      simp only [Live.idsOf, List.map_append, List.map_cons, List.map_nil, List.mem_append,
        List.mem_singleton, not_or]
      exact ⟨g3, fun e => hnd.1 (e ▸ List.mem_map.2 ⟨r, hr', rfl⟩)⟩)
    refine ⟨f', s', ?_, ?_⟩
    · simp only [insertLoop, Live.mdAt_eq_rowMeta, e1, e, List.map_cons]
    · simpa [Live.items] using c

theorem items_length (mds : Option (List (Option M))) (i : Nat) (rows : List (Id × V)) :
    (Live.items mds i rows).length = rows.length := by
  induction rows generalizing i with
  | nil => rfl
  | cons r rows ih => simp [Live.items, ih]

theorem Core.deleteOne {f : Flat V} {s : σ} (h : Core L live (f, s)) {id : Id} (hid : okId id) :
    ∃ s', B.delete s id = (.ok (Live.has live id), s') ∧
      Core L (Live.remove live id)
        ({ f with ids := if id ∈ f.ids then removeFirst f.ids id else f.ids,
                  cache := f.cache.pop id }, s') := by
  obtain ⟨s', e, i', c'⟩ := L.delete h.st hid
  refine ⟨s', ?_, h.inited, ?_, Live.remove_nodup h.nd id, ?_, i', ?_⟩
  · rw [e, show L.content s = Live.find live from h.cont, Live.find_isSome]
  · rw [Live.idsOf_remove _ h.nd]
    simp only [removeFirst]
    rw [show f.ids = Live.idsOf live from h.ids]
    split
    · rfl
    · rename_i hn; rw [List.erase_of_not_mem hn]
  · intro x hx w hw
    simp only [Live.remove, List.mem_filter, decide_eq_true_eq] at hx
    rw [Dict.get?_pop_ne _ hx.2] at hw
    exact h.cache x hx.1 w hw
  · rw [c', show L.content s = Live.find live from h.cont, Live.find_remove]

theorem deleteLoop_spec (dels : List Id) : ∀ (ok : Bool) (live : List (Item V M)) (f : Flat V)
    (s : σ), Core L live (f, s) → (∀ id ∈ dels, okId id) →
    ∃ f' s', deleteLoop B dels ok f s = (.ok (ok && (Live.removeAll live dels).1), f', s') ∧
      Core L (Live.removeAll live dels).2 (f', s') := by
  induction dels with
  | nil => intro ok live f s h _; exact ⟨f, s, by simp [deleteLoop, Live.removeAll], h⟩
  | cons id dels ih =>
    intro ok live f s h hd
    obtain ⟨s1, e1, c1⟩ := h.deleteOne (hd id (by simp))
    obtain ⟨f', s', e, c⟩ := ih (if Live.has live id then ok else false) _ _ s1 c1
      (fun x hx => hd x (by simp [hx]))
    refine ⟨f', s', ?_, c⟩
    simp only [deleteLoop, e1, e, Live.removeAll]
    cases Live.has live id <;> cases ok <;> simp

theorem Inv.update {f : Flat V} {s : σ} (h : Inv L live (f, s)) {id : Id} (v : V)
    {m : Option M} (hid : okId id) (hm : ∀ x, m = some x → okM x) :
    ∃ f' s', Flat.update B id v m f s = (.ok (Live.has live id), f', s') ∧
      Inv L (Live.replace live id v m) (f', s') := by
  obtain ⟨s', e, i', c'⟩ := L.update (v := v) (m := m) h.st hid hm
  have hh : (L.content s id).isSome = Live.has live id := by
    rw [show L.content s = Live.find live from h.cont, Live.find_isSome]
  rw [hh] at e
  have hi : f.inited = true := h.inited
  have hlen : (Live.replace live id v m).length = live.length := by simp [Live.replace]
  cases hb : Live.has live id
  · rw [hb] at e
    refine ⟨f, s', by simp [Flat.update, hi, e], ?_⟩
    rw [Live.replace_absent hb]
    refine ⟨⟨h.inited, h.ids, h.nd, h.cache, i', ?_⟩, h.cnt⟩
    simp only at c' ⊢
    rw [c', hh, hb]; exact h.cont
  · rw [hb] at e
    refine ⟨{ f with cache := f.cache.set id v }, s', by simp [Flat.update, hi, e], ?_⟩
    refine ⟨⟨h.inited, ?_, ?_, ?_, i', ?_⟩, ?_⟩
    · rw [Live.idsOf_replace]; exact h.ids
    · rw [Live.idsOf_replace]; exact h.nd
    · intro x hx w hw
      simp only [Live.replace, List.mem_map] at hx
      obtain ⟨y, hy, rfl⟩ := hx
      simp only [Dict.get?_set] at hw
      by_cases e : y.id = id
      · simp only [e, if_true, Option.some.injEq] at hw ⊢; exact hw.symm
      · simp only [e, if_false] at hw ⊢; exact h.cache y hy w hw
    · simp only at c' ⊢
      rw [c', Live.find_replace, show L.content s = Live.find live from h.cont]
    · rw [hlen]; exact h.cnt

/-- Search: answer, and the invariant is kept. -/
theorem Inv.search [LinearOrder D] {env : FlatEnv V D} (ha : IsArgsort env.argsort) {f : Flat V}
    {s : σ} (h : Inv L live (f, s)) (q : V) (k : Int) :
    ∃ r f' s', Flat.search env B 1 q k f s = (r, f', s') ∧ Inv L live (f', s') ∧
      (if live = [] then r = .ok []
       else if checkOk env q (live.map Item.vec) = true then
         ∃ full : List (Id × D), full.Perm (live.map fun x => (x.id, env.dist q x.vec)) ∧
           full.Pairwise (fun a b => a.2 ≤ b.2) ∧
           r = .ok (attachMd (Live.find live) (sliceTo full (min k (live.length : Int))))
       else r = .error .index) := by
  have hi : f.inited = true := h.inited
  have hids : f.ids = Live.idsOf live := h.ids
  by_cases hl : live = []
  · refine ⟨.ok [], f, s, ?_, h, by simp [hl]⟩
    simp [Flat.search, hi, hids, hl, Live.idsOf]
  · obtain ⟨c', s1, e1, hc, i1, c1⟩ := loadVecs_spec L h.nd live (fun x hx => hx) h.cache h.st h.cont
    have hne : (f.ids.isEmpty) = false := by
      rw [hids]; cases live with
      | nil => exact absurd rfl hl
      | cons => rfl
    have hne2 : (live.map fun x => (x.id, x.vec)).isEmpty = false := by
      cases live with
      | nil => exact absurd rfl hl
      | cons => rfl
    have hlen : f.ids.length = live.length := by rw [hids]; simp [Live.idsOf]
    have hmap : (live.map fun x => (x.id, x.vec)).map Prod.snd = live.map Item.vec := by
      simp [List.map_map, Function.comp_def]
    have hinv' : ∀ s2, L.inv s2 → L.content s2 = L.content s →
        Inv L live ({ f with cache := c' }, s2) := by
      intro s2 h2 h3
      exact ⟨⟨h.inited, h.ids, h.nd, hc, h2, by simp only; rw [h3]; exact h.cont⟩, h.cnt⟩
    simp only at e1
    rw [← hids] at e1
    cases hck : checkOk env q (live.map Item.vec)
    · refine ⟨.error .index, _, s1, ?_, hinv' s1 i1 c1, by simp [hl]⟩
      simp [Flat.search, hi, hne, e1, hne2, hmap, hck]
    · obtain ⟨full, hp, hsd, hrk⟩ := ranked_spec ha q (min k (f.ids.length : Int))
        (live.map fun x => (x.id, x.vec))
      rw [List.map_map] at hp
      have hmem : ∀ x ∈ ranked env q (min k (f.ids.length : Int))
          (live.map fun x => (x.id, x.vec)), (L.content s1 x.1).isSome = true := by
        intro x hx
        rw [hrk] at hx
        have := hp.mem_iff.1 ((sliceTo_sublist _ _).subset hx)
        obtain ⟨y, hy, rfl⟩ := List.mem_map.1 this
        rw [c1, show L.content s = Live.find live from h.cont]
        show (Live.find live y.id).isSome = true
        rw [Live.find_mem h.nd hy]; rfl
      obtain ⟨s2, e2, i2, c2⟩ := fetchMeta_spec L _ i1 hmem
      refine ⟨.ok (attachMd (L.content s1) (ranked env q (min k (f.ids.length : Int))
          (live.map fun x => (x.id, x.vec)))), { f with cache := c' }, s2, ?_,
        hinv' s2 i2 (by rw [c2, c1]), ?_⟩
      · simp only [Flat.search, hi, hne, e1, hne2, hmap, hck, e2]
        rfl
      · rw [if_neg hl, if_pos rfl]
        refine ⟨full, hp, hsd, ?_⟩
        rw [hrk, c1, show L.content s = Live.find live from h.cont, hlen]

/-- When a search raises, for a given live list. -/
def failsB (env : FlatEnv V D) (l : List (Item V M)) (q : V) : Bool :=
  !l.isEmpty && !checkOk env q (l.map Item.vec)

theorem Inv.call [LinearOrder D] {env : FlatEnv V D} (ha : IsArgsort env.argsort)
    {t : Flat V × σ} (h : Inv L live t) (c : IxCall V M) (hc : Live.CallOk okId okM live c) :
    (Flat.call env B t c).1 = Live.reply (failsB env) live c ∧
      Inv L (Live.next live c) (Flat.call env B t c).2 := by
  obtain ⟨f, s⟩ := t
  have hi : f.inited = true := h.inited
  cases c with
  | insert nd rows mds =>
    by_cases hnd : nd = 2
    · obtain ⟨h1, h2, h3⟩ := hc
      obtain ⟨f', s', e, c⟩ := insertLoop_spec mds h3 rows 0 live f s h.toCore h1 h2
      simp only [Flat.call, Flat.insert, hi, hnd, e, Live.reply, Live.next]
      refine ⟨by simp, ⟨c.inited, c.ids, c.nd, c.cache, c.st, c.cont⟩, ?_⟩
      have := c.ids
      simp only at this ⊢
      simp [this, Live.idsOf]
    · have e : Flat.insert B nd rows mds f s = (.error .index, f, s) := by
        simp [Flat.insert, hi, hnd]
      simp only [Flat.call, e, Live.reply, Live.next, hnd]
      exact ⟨by simp, by simpa using h⟩
  | delete ids =>
    obtain ⟨f', s', e, c⟩ := deleteLoop_spec ids true live f s h.toCore hc
    simp only [Flat.call, Flat.delete, hi, e, Live.reply, Live.next]
    refine ⟨by simp, ⟨c.inited, c.ids, c.nd, c.cache, c.st, c.cont⟩, ?_⟩
    have := c.ids
    simp only at this ⊢
    simp [this, Live.idsOf]
  | update id v m =>
    obtain ⟨f', s', e, c⟩ := h.update v hc.1 hc.2
    simp only [Flat.call, e, Live.reply, Live.next]
    exact ⟨trivial, c⟩
  | search nd q k =>
    by_cases hnd : nd = 1
    · subst hnd
      obtain ⟨r, f', s', e, hinv, hr⟩ := h.search ha q k
      simp only [Flat.call, e, Live.reply, Live.next]
      cases r with
      | ok l =>
        refine ⟨?_, hinv⟩
        have : failsB env live q = false := by
          simp only [failsB]
          by_cases hl : live = []
          · simp [hl]
          · rw [if_neg hl] at hr
            split at hr
            · rename_i hck; simp [hck]
            · cases hr
        simp [this]
      | error e =>
        refine ⟨?_, hinv⟩
        have : failsB env live q = true := by
          simp only [failsB]
          by_cases hl : live = []
          · rw [if_pos hl] at hr; cases hr
          · rw [if_neg hl] at hr
            split at hr
            · obtain ⟨_, _, _, h⟩ := hr; cases h
            · rename_i hck
              cases live with
              | nil => exact absurd rfl hl
              | cons => simpa using hck
        simp [this]
    · have e : Flat.search env B nd q k f s = (.error .index, f, s) := by
        simp [Flat.search, hi, hnd]
      simp only [Flat.call, e, Live.reply, Live.next, hnd]
      exact ⟨by simp, by simpa using h⟩

theorem Inv.run [LinearOrder D] {env : FlatEnv V D} (ha : IsArgsort env.argsort)
    {t : Flat V × σ} (h : Inv L live t) (cs : List (IxCall V M))
    (hc : Live.HistOk okId okM live cs) :
    (Flat.run env B t cs).1 = Live.replies (failsB env) live cs ∧
      Inv L (Live.after live cs) (Flat.run env B t cs).2 := by
  induction cs generalizing live t with
  | nil => exact ⟨rfl, h⟩
  | cons c cs ih =>
    have h1 := h.call ha c hc.1
    have h2 := ih h1.2 hc.2
    exact ⟨by simp only [Flat.run, Live.replies, h1.1, h2.1], h2.2⟩

/-- Initialising on an open storage establishes the invariant. -/
theorem init_inv {f : Flat V} {s : σ} (hs : L.inv s)
    (hcache : ∀ id v v' m, L.content s id = some (v, m) → f.cache.get? id = some v' → v' = v) :
    ∃ f' s' live, Flat.init B f s = (.ok (), f', s') ∧ Inv L live (f', s') ∧
      (∀ id, Live.find live id = L.content s id) := by
  obtain ⟨l, s', e, i', c', hnd, hmem⟩ := L.list hs
  let live : List (Item V M) := l.filterMap fun id =>
    (L.content s id).map fun x => ⟨id, x.1, x.2⟩
  have hids : Live.idsOf live = l := by
    simp only [live, Live.idsOf, List.map_filterMap]
    rw [filterMap_eq_map (g := fun x => x)]
    · simp
    · intro id hid
      obtain ⟨x, hx⟩ := Option.isSome_iff_exists.1 ((hmem id).1 hid)
      simp [hx]
  have hitem : ∀ x ∈ live, L.content s x.id = some (x.vec, x.md) := by
    intro x hx
    simp only [live, List.mem_filterMap, Option.map_eq_some_iff] at hx
    obtain ⟨id, _, y, hy, rfl⟩ := hx
    exact hy
  have hnd' : (Live.idsOf live).Nodup := by rw [hids]; exact hnd
  have hfind : ∀ id, Live.find live id = L.content s id := by
    intro id
    cases hc : L.content s id with
    | none =>
      rw [Live.find_eq_none, hids, hmem, hc]; simp
    | some x =>
      have : id ∈ Live.idsOf live := by rw [hids, hmem, hc]; rfl
      obtain ⟨y, hy, rfl⟩ := List.mem_map.1 this
      rw [Live.find_mem hnd' hy, ← hitem y hy, hc]
  refine ⟨{ f with ids := l, count := l.length, inited := true }, s', live, ?_, ?_, hfind⟩
  · simp [Flat.init, e]
  · refine ⟨⟨rfl, hids.symm, hnd', ?_, i', ?_⟩, ?_⟩
    · intro x hx w hw
      exact hcache x.id x.vec w x.md (hitem x hx) hw
    · simp only; rw [c']; funext id; exact (hfind id).symm
    · show l.length = live.length
      rw [← hids]; simp [Live.idsOf]

end Flat
end Valori
