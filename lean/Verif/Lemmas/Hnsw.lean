import Verif.Model.Hnsw
import Verif.Lemmas.IvfSearch

/-! Graph invariant of the HNSW index and its preservation. -/

namespace Valori
open Spec (Item Hit IxCall IxReply IsTopK put)
open Spec

variable {σ V M D : Type} {B : Backend σ V M} {okId : Id → Prop} {okM : M → Prop}

namespace Hnsw

/-! ## One level -/

/-- Links are symmetric, never to oneself, never twice. -/
structure GraphOk (d : Level) : Prop where
  keys : d.keys.Nodup
  sym : ∀ a b, a ∈ nbrs d b → b ∈ nbrs d a
  irr : ∀ a, a ∉ nbrs d a
  nd : ∀ a, (nbrs d a).Nodup

theorem nbrs_set (d : Level) (k : Id) (l : List Id) (n : Id) :
    nbrs (d.set k l) n = if n = k then l else nbrs d n := by
  simp only [nbrs, Dict.get?_set]; split <;> rfl

theorem nbrs_absent {d : Level} {n : Id} (h : n ∉ d.keys) : nbrs d n = [] := by
  simp only [nbrs, (Dict.get?_eq_none d n).2 h]; rfl

theorem key_of_nbrs {d : Level} {n x : Id} (h : x ∈ nbrs d n) : n ∈ d.keys := by
  by_contra hn; rw [nbrs_absent hn] at h; simp at h

theorem GraphOk.nbr_key {d : Level} (h : GraphOk d) {n x : Id} (hx : x ∈ nbrs d n) :
    x ∈ d.keys := key_of_nbrs (h.sym _ _ hx)

theorem GraphOk.empty : GraphOk [] :=
  ⟨by simp [Dict.keys], by simp [nbrs], by simp [nbrs], by simp [nbrs]⟩

theorem addNode_keys (d : Level) (id : Id) :
    (addNode d id).keys = if id ∈ d.keys then d.keys else d.keys ++ [id] := by
  simp only [addNode]
  by_cases h : id ∈ d.keys
  · have : d.mem id = true := (Dict.mem_keys d id).1 h
    simp [this, h]
  · have : d.mem id = false := by rw [Dict.mem_eq, (Dict.get?_eq_none d id).2 h]; rfl
    rw [if_neg (by simp [this]), Dict.keys_set]

theorem nbrs_addNode (d : Level) (id n : Id) : nbrs (addNode d id) n = nbrs d n := by
  simp only [addNode]
  by_cases h : id ∈ d.keys
  · have : d.mem id = true := (Dict.mem_keys d id).1 h
    simp [this]
  · have : d.mem id = false := by rw [Dict.mem_eq, (Dict.get?_eq_none d id).2 h]; rfl
    rw [if_neg (by simp [this]), nbrs_set]
    split
    · rename_i e; rw [e, nbrs_absent h]
    · rfl

theorem GraphOk.addNode {d : Level} (h : GraphOk d) (id : Id) : GraphOk (addNode d id) := by
  refine ⟨?_, ?_, ?_, ?_⟩
  · rw [addNode_keys]
    split
    · exact h.keys
    · rename_i hn
      rw [List.nodup_append]
      refine ⟨h.keys, by simp, ?_⟩
      intro a ha b hb
      simp only [List.mem_singleton] at hb
      subst hb
      rintro rfl
      exact hn ha
  · simpa only [nbrs_addNode] using h.sym
  · simpa only [nbrs_addNode] using h.irr
  · simpa only [nbrs_addNode] using h.nd

theorem mem_addLink (d : Level) (a b n x : Id) :
    x ∈ nbrs (addLink d a b) n ↔ x ∈ nbrs d n ∨ (n = a ∧ x = b) := by
  simp only [addLink]
  by_cases hb : b ∈ nbrs d a
  · rw [if_pos hb]
    constructor
    · exact Or.inl
    · rintro (h | ⟨rfl, rfl⟩)
      · exact h
      · exact hb
  · rw [if_neg hb, nbrs_set]
    by_cases hn : n = a
    · subst hn; simp
    · simp [hn]

theorem addLink_nd {d : Level} (h : ∀ n, (nbrs d n).Nodup) (a b n : Id) :
    (nbrs (addLink d a b) n).Nodup := by
  simp only [addLink]
  split
  · exact h n
  · rename_i hb
    rw [nbrs_set]
    split
    · rw [List.nodup_append]
      refine ⟨h a, by simp, ?_⟩
      intro x hx y hy
      simp only [List.mem_singleton] at hy
      subst hy
      rintro rfl
      exact hb hx
    · exact h n

theorem addLink_keys {d : Level} {a : Id} (h : a ∈ d.keys) (b : Id) :
    (addLink d a b).keys = d.keys := by
  simp only [addLink]
  split
  · rfl
  · rw [Dict.keys_set, if_pos h]

theorem GraphOk.connect (id : Id) (ns : List Id) {d : Level} (h : GraphOk d) (hid : id ∈ d.keys)
    (hns : ∀ n ∈ ns, n ∈ d.keys) :
    GraphOk (connect id ns d) ∧ (Hnsw.connect id ns d).keys = d.keys := by
  induction ns generalizing d with
  | nil => exact ⟨h, rfl⟩
  | cons nb ns ih =>
    simp only [Hnsw.connect]
    have hns' : ∀ n ∈ ns, n ∈ d.keys := fun n hn => hns n (by simp [hn])
    by_cases hne : nb = id
    · rw [if_neg (by simp [hne])]
      exact ih h hid hns'
    · rw [if_pos hne]
      have k1 : (addLink d nb id).keys = d.keys := addLink_keys (hns nb (by simp)) _
      have k2 : (addLink (addLink d nb id) id nb).keys = d.keys := by
        rw [addLink_keys (by rw [k1]; exact hid), k1]
      have hok : GraphOk (addLink (addLink d nb id) id nb) := by
        refine ⟨by rw [k2]; exact h.keys, ?_, ?_, addLink_nd (addLink_nd h.nd nb id) id nb⟩
        · intro a b
          simp only [mem_addLink]
          rintro ((hh | ⟨rfl, rfl⟩) | ⟨rfl, rfl⟩)
          · exact Or.inl (Or.inl (h.sym _ _ hh))
          · exact Or.inr ⟨rfl, rfl⟩
          · exact Or.inl (Or.inr ⟨rfl, rfl⟩)
        · intro a
          simp only [mem_addLink]
          rintro ((hh | ⟨rfl, e⟩) | ⟨rfl, e⟩)
          · exact h.irr a hh
          · exact hne e
          · exact hne e.symm
      obtain ⟨g1, g2⟩ := ih hok (by rw [k2]; exact hid) (by rw [k2]; exact hns')
      exact ⟨g1, by rw [g2, k2]⟩

theorem mem_connect (id : Id) (ns : List Id) (d : Level) (n x : Id) :
    x ∈ nbrs (connect id ns d) n ↔ x ∈ nbrs d n ∨ (n = id ∧ x ≠ id ∧ x ∈ ns) ∨
      (x = id ∧ n ≠ id ∧ n ∈ ns) := by
  induction ns generalizing d with
  | nil => simp [connect]
  | cons nb ns ih =>
    simp only [connect]
    by_cases hne : nb = id
    · rw [if_neg (by simp [hne]), ih]; grind
    · rw [if_pos hne, ih, mem_addLink, mem_addLink]; grind

/-- Any two of `ids` are linked. -/
def Clique (ids : List Id) (d : Level) : Prop := ∀ a ∈ ids, ∀ b ∈ ids, a ≠ b → a ∈ nbrs d b

theorem Clique.insertLevel {ids : List Id} {d : Level} (h : Clique ids d) (hk : d.keys = ids)
    (hnd : ids.Nodup) {id : Id} (hid : id ∉ ids) {pick : List Id → List Id} {m : Nat}
    (hp : ∀ nodes : List Id, nodes.Nodup → nodes.length ≤ m → ∀ n ∈ nodes, n ∈ pick nodes)
    (hm : ids.length + 1 ≤ m) : Clique (ids ++ [id]) (insertLevel id pick d) := by
  have hk' : (Hnsw.addNode d id).keys = ids ++ [id] := by rw [addNode_keys, hk, if_neg hid]
  have hpick := hp (ids ++ [id]) (by rw [List.nodup_append]; grind) (by simpa using hm)
  intro a ha b hb hab
  simp only [Hnsw.insertLevel, hk', mem_connect, nbrs_addNode, List.mem_filter]
  have pa := hpick a ha
  have pb := hpick b hb
  have : a ∈ ids → b ∈ ids → a ∈ nbrs d b := fun h1 h2 => h a h1 b h2 hab
  simp only [decide_eq_true_eq]
  grind

theorem GraphOk.insertLevel {d : Level} (h : GraphOk d) (id : Id) (pick : List Id → List Id) :
    GraphOk (insertLevel id pick d) ∧
      (Hnsw.insertLevel id pick d).keys = if id ∈ d.keys then d.keys else d.keys ++ [id] := by
  simp only [Hnsw.insertLevel]
  have hid : id ∈ (Hnsw.addNode d id).keys := by rw [addNode_keys]; split <;> simp_all
  obtain ⟨g1, g2⟩ := (h.addNode id).connect id
    ((pick (Hnsw.addNode d id).keys).filter (· ∈ (Hnsw.addNode d id).keys)) hid (by
      intro n hn; simpa using (List.mem_filter.1 hn).2)
  exact ⟨g1, by rw [g2, addNode_keys]⟩

theorem mem_unlink (id : Id) (ns : List Id) {d : Level} (hnd : ∀ n, (nbrs d n).Nodup) :
    (∀ n, (nbrs (unlink id ns d) n).Nodup) ∧ (unlink id ns d).keys = d.keys ∧
    ∀ n x, x ∈ nbrs (unlink id ns d) n ↔ x ∈ nbrs d n ∧ ¬ (x = id ∧ n ∈ ns) := by
  induction ns generalizing d with
  | nil => exact ⟨hnd, rfl, by simp [unlink]⟩
  | cons nb ns ih =>
    simp only [unlink]
    by_cases hc : d.mem nb = true ∧ id ∈ nbrs d nb
    · rw [if_pos hc]
      have hnb : ∀ n, nbrs (d.set nb (removeFirst (nbrs d nb) id)) n =
          if n = nb then (nbrs d nb).erase id else nbrs d n := by
        intro n; rw [nbrs_set]; rfl
      obtain ⟨g1, g2, g3⟩ := ih (d := d.set nb (removeFirst (nbrs d nb) id)) (by
        intro n; rw [hnb]; split
        · exact (hnd nb).erase id
        · exact hnd n)
      refine ⟨g1, ?_, ?_⟩
      · rw [g2, Dict.keys_set, if_pos (key_of_nbrs hc.2)]
      · intro n x
        rw [g3, hnb]
        by_cases e : n = nb
        · subst e
          rw [if_pos rfl, (hnd n).mem_erase_iff]
          simp only [List.mem_cons, true_or, and_true]
          constructor
          · rintro ⟨⟨h1, h2⟩, -⟩; exact ⟨h2, h1⟩
          · rintro ⟨h1, h2⟩; exact ⟨⟨h2, h1⟩, fun h => h2 h.1⟩
        · rw [if_neg e]
          simp [e]
    · rw [if_neg hc]
      obtain ⟨g1, g2, g3⟩ := ih hnd
      refine ⟨g1, g2, ?_⟩
      intro n x
      rw [g3]
      simp only [List.mem_cons]
      constructor
      · rintro ⟨h1, h2⟩
        refine ⟨h1, ?_⟩
        rintro ⟨rfl, rfl | h3⟩
        · refine hc ⟨?_, h1⟩
          rw [Dict.mem_eq]
          exact (Dict.mem_keys _ _).1 (key_of_nbrs h1)
        · exact h2 ⟨rfl, h3⟩
      · rintro ⟨h1, h2⟩
        exact ⟨h1, fun h => h2 ⟨h.1, Or.inr h.2⟩⟩

theorem GraphOk.removeLevel {d : Level} (h : GraphOk d) (id : Id) :
    GraphOk (removeLevel id d) ∧ (Hnsw.removeLevel id d).keys = d.keys.erase id ∧
      ∀ n x, n ≠ id → x ≠ id → x ∈ nbrs d n → x ∈ nbrs (Hnsw.removeLevel id d) n := by
  simp only [Hnsw.removeLevel]
  by_cases hm : id ∈ d.keys
  · have hm' : d.mem id = true := by rw [Dict.mem_eq]; exact (Dict.mem_keys _ _).1 hm
    rw [if_pos hm']
    obtain ⟨g1, g2, g3⟩ := mem_unlink id (nbrs d id) h.nd
    have hk : (unlink id (nbrs d id) d).keys.Nodup := by rw [g2]; exact h.keys
    have hnb : ∀ n, nbrs ((unlink id (nbrs d id) d).pop id) n =
        if n = id then [] else nbrs (unlink id (nbrs d id) d) n := by
      intro n
      show (Dict.get? ((unlink id (nbrs d id) d).pop id) n).getD [] = _
      rw [Dict.get?_pop hk]; split <;> rfl
    have key : ∀ n x, x ∈ nbrs ((unlink id (nbrs d id) d).pop id) n ↔
        n ≠ id ∧ x ≠ id ∧ x ∈ nbrs d n := by
      intro n x
      rw [hnb]
      by_cases e : n = id
      · simp [e]
      · rw [if_neg e, g3]
        constructor
        · rintro ⟨h1, h2⟩
          refine ⟨e, ?_, h1⟩
          rintro rfl
          exact h2 ⟨rfl, h.sym _ _ h1⟩
        · rintro ⟨-, h2, h3⟩
          exact ⟨h3, fun hh => h2 hh.1⟩
    refine ⟨⟨?_, ?_, ?_, ?_⟩, ?_, fun n x h1 h2 h3 => (key n x).2 ⟨h1, h2, h3⟩⟩
    · rw [Dict.keys_pop, g2]; exact h.keys.erase id
    · intro a b hab
      rw [key] at hab ⊢
      exact ⟨hab.2.1, hab.1, h.sym _ _ hab.2.2⟩
    · intro a ha
      rw [key] at ha
      exact h.irr a ha.2.2
    · intro a
      rw [hnb]; split
      · simp
      · exact g1 a
    · rw [Dict.keys_pop, g2]
  · have hm' : ¬ (d.mem id = true) := by
      rw [Dict.mem_eq, ← Dict.mem_keys]; exact hm
    rw [if_neg hm', List.erase_of_not_mem hm]
    exact ⟨h, rfl, fun n x _ _ h3 => h3⟩

/-! ## All levels -/

/-- Every level is a graph over `ids`; level 0 has all of them. -/
structure Levels (ids : List Id) (levels : List Level) : Prop where
  all : ∀ d ∈ levels, GraphOk d ∧ ∀ n ∈ d.keys, n ∈ ids
  zero : (levels[0]?).map Dict.keys = some ids

theorem onLevels_mem {f : Nat → Level → Level} {level : Nat} (ds : List Level) :
    ∀ {l : Nat} {d : Level}, d ∈ onLevels f level l ds → ∃ d0 ∈ ds, d = d0 ∨ ∃ j, d = f j d0 := by
  induction ds with
  | nil => intro l d h; simp [onLevels] at h
  | cons a ds ih =>
    intro l d h
    simp only [onLevels, List.mem_cons] at h
    rcases h with h | h
    · refine ⟨a, by simp, ?_⟩
      split at h
      · exact Or.inr ⟨l, h⟩
      · exact Or.inl h
    · obtain ⟨d0, h1, h2⟩ := ih h
      exact ⟨d0, by simp [h1], h2⟩

theorem Levels.insert {ids : List Id} {levels : List Level} (h : Levels ids levels) (id : Id)
    (hid : id ∉ ids) (pick : Nat → List Id → List Id) (level : Nat) :
    Levels (ids ++ [id])
      (onLevels (fun l => insertLevel id (pick l)) level 0 (pad levels level)) := by
  have hpad : ∀ d ∈ pad levels level, GraphOk d ∧ ∀ n ∈ d.keys, n ∈ ids := by
    intro d hd
    simp only [pad, List.mem_append, List.mem_replicate] at hd
    rcases hd with hd | ⟨-, rfl⟩
    · exact h.all d hd
    · exact ⟨GraphOk.empty, by simp [Dict.keys]⟩
  refine ⟨?_, ?_⟩
  · intro d hd
    obtain ⟨d0, hd0, rfl | ⟨j, rfl⟩⟩ := onLevels_mem _ hd
    · exact ⟨(hpad d hd0).1, fun n hn => by simp [(hpad d hd0).2 n hn]⟩
    · obtain ⟨g1, g2⟩ := (hpad d0 hd0).1.insertLevel id (pick j)
      refine ⟨g1, ?_⟩
      intro n hn
      rw [g2] at hn
      split at hn
      · simp [(hpad d0 hd0).2 n hn]
      · simp only [List.mem_append, List.mem_singleton] at hn ⊢
        exact hn.imp_left ((hpad d0 hd0).2 n)
  · have hz := h.zero
    cases levels with
    | nil => simp at hz
    | cons d ds =>
      simp only [List.getElem?_cons_zero, Option.map_some, Option.some.injEq] at hz
      obtain ⟨-, g2⟩ := (h.all d (by simp)).1.insertLevel id (pick 0)
      simp only [pad, List.cons_append, onLevels, Nat.zero_le, if_true, List.getElem?_cons_zero,
        Option.map_some, g2, hz]
      rw [if_neg hid]

theorem Levels.remove {ids : List Id} {levels : List Level} (h : Levels ids levels) (id : Id) :
    Levels (ids.erase id) (levels.map (removeLevel id)) := by
  refine ⟨?_, ?_⟩
  · intro d hd
    obtain ⟨d0, hd0, rfl⟩ := List.mem_map.1 hd
    obtain ⟨g1, g2, -⟩ := (h.all d0 hd0).1.removeLevel id
    refine ⟨g1, ?_⟩
    intro n hn
    rw [g2] at hn
    have hk := (h.all d0 hd0).1.keys
    have hn' := hk.mem_erase_iff.1 hn
    exact (List.mem_erase_of_ne hn'.1).2 ((h.all d0 hd0).2 n hn'.2)
  · have hz := h.zero
    cases levels with
    | nil => simp at hz
    | cons d ds =>
      simp only [List.getElem?_cons_zero, Option.map_some, Option.some.injEq] at hz
      obtain ⟨-, g2, -⟩ := (h.all d (by simp)).1.removeLevel id
      simp [g2, hz]

/-! ## Vectors -/

/-- Live ids with their vectors. -/
def vecs (live : List (Item V M)) : Dict Id V := live.map fun x => (x.id, x.vec)

theorem vecs_keys (live : List (Item V M)) : (vecs live).keys = Live.idsOf live := by
  simp [vecs, Dict.keys, Live.idsOf]

theorem vecs_get? (live : List (Item V M)) (id : Id) :
    (vecs live).get? id = (Live.find live id).map Prod.fst := by
  induction live with
  | nil => rfl
  | cons x l ih =>
    simp only [vecs, List.map_cons, Dict.get?, Live.find, List.find?_cons] at ih ⊢
    by_cases e : x.id = id
    · simp [e]
    · simp only [e, if_false, decide_false]; exact ih

theorem vecs_set_fresh {live : List (Item V M)} {id : Id} (h : id ∉ Live.idsOf live) (v : V)
    (m : Option M) : (vecs live).set id v = vecs (live ++ [⟨id, v, m⟩]) := by
  induction live with
  | nil => rfl
  | cons x l ih =>
    simp only [Live.idsOf, List.map_cons, List.mem_cons, not_or] at h
    have := ih h.2
    simp only [vecs, List.map_cons, List.cons_append] at this ⊢
    simp only [Dict.set]
    rw [if_neg (Ne.symm h.1), this]

theorem vecs_set_live {live : List (Item V M)} (hn : (Live.idsOf live).Nodup) {id : Id}
    (h : id ∈ Live.idsOf live) (v : V) (m : Option M) :
    (vecs live).set id v = vecs (Live.replace live id v m) := by
  induction live with
  | nil => simp at h
  | cons x l ih =>
    simp only [Live.idsOf, List.map_cons, List.nodup_cons] at hn
    by_cases e : x.id = id
    · subst e
      have hr : Live.replace l x.id v m = l := Live.replace_absent (Live.has_false_iff.2 hn.1) v m
      simp only [Live.replace] at hr
      simp only [vecs, List.map_cons, Dict.set, Live.replace, if_true, hr]
    · simp only [Live.idsOf, List.map_cons, List.mem_cons] at h
      have := ih hn.2 (h.resolve_left (Ne.symm e))
      simp only [vecs, Live.replace, List.map_cons, Dict.set, e, if_false] at this ⊢
      rw [this]

theorem vecs_pop {live : List (Item V M)} (hn : (Live.idsOf live).Nodup) (id : Id) :
    (vecs live).pop id = vecs (Live.remove live id) := by
  induction live with
  | nil => rfl
  | cons x l ih =>
    simp only [Live.idsOf, List.map_cons, List.nodup_cons] at hn
    by_cases e : x.id = id
    · subst e
      have : Live.remove l x.id = l := by
        simp only [Live.remove, List.filter_eq_self]
        intro a ha
        simp only [decide_eq_true_eq]
        rintro e; exact hn.1 (e ▸ List.mem_map.2 ⟨a, ha, rfl⟩)
      simp only [Live.remove] at this
      simp only [vecs, Dict.pop, Live.remove, List.map_cons, if_true]
      rw [List.filter_cons_of_neg (by simp), this]
    · have := ih hn.2
      simp only [vecs, Live.remove, List.map_cons, Dict.pop, e, if_false] at this ⊢
      rw [List.filter_cons_of_pos (by simpa using e), List.map_cons, this]

/-! ## The whole index -/

/-- Memory side of the invariant. -/
structure Gr (live : List (Item V M)) (f : Hnsw V) : Prop where
  inited : f.inited = true
  nd : (Live.idsOf live).Nodup
  vec : f.vectors = vecs live
  cnt : f.count = live.length
  lev : Levels (Live.idsOf live) f.levels

/-- Index and storage represent the live list. -/
structure Inv (L : Lawful B okId okM) (live : List (Item V M)) (t : Hnsw V × σ) : Prop where
  gr : Gr live t.1
  st : L.inv t.2
  cont : L.content t.2 = Live.find live

variable {L : Lawful B okId okM} {live : List (Item V M)}

theorem nodup_append_single {live : List (Item V M)} (hn : (Live.idsOf live).Nodup) {id : Id}
    (h : id ∉ Live.idsOf live) (v : V) (m : Option M) :
    (Live.idsOf (live ++ [⟨id, v, m⟩])).Nodup := by
  simp only [Live.idsOf, List.map_append, List.map_cons, List.map_nil]
  rw [List.nodup_append]
  refine ⟨hn, by simp, ?_⟩
  intro a ha b hb
  simp only [List.mem_singleton] at hb
  subst hb
  rintro rfl; exact h ha

theorem Gr.insertInternal {f : Hnsw V} (h : Gr live f) (env : HnswEnv V D) {id : Id}
    (hid : id ∉ Live.idsOf live) (v : V) (m : Option M) :
    Gr (live ++ [⟨id, v, m⟩]) (insertInternal env id v f) := by
  refine ⟨h.inited, nodup_append_single h.nd hid v m, ?_, ?_, ?_⟩
  · show f.vectors.set id v = _
    rw [h.vec, vecs_set_fresh hid v m]
  · show (f.vectors.set id v).length = _
    rw [h.vec, vecs_set_fresh hid v m]; simp [vecs]
  · have := h.lev.insert id hid (env.rnd f.draws).pick (min (env.rnd f.draws).level 10)
    simpa [Live.idsOf, Hnsw.insertInternal] using this

theorem Gr.removeInternal {f : Hnsw V} (h : Gr live f) (id : Id) :
    Gr (Live.remove live id) (removeInternal id f) := by
  have hlev := h.lev.remove id
  rw [← Live.idsOf_remove _ h.nd] at hlev
  have hnd := Live.remove_nodup h.nd id
  by_cases hm : id ∈ Live.idsOf live
  · have hm' : f.vectors.mem id = true := by
      rw [Dict.mem_eq, h.vec]; apply (Dict.mem_keys _ _).1; rw [vecs_keys]; exact hm
    refine ⟨?_, hnd, ?_, ?_, ?_⟩
    · simp [Hnsw.removeInternal, hm', h.inited]
    · simp only [Hnsw.removeInternal, hm', if_true]
      rw [h.vec, vecs_pop h.nd]
    · simp only [Hnsw.removeInternal, hm', if_true]
      rw [h.vec, vecs_pop h.nd]; simp [vecs]
    · simp only [Hnsw.removeInternal, hm', if_true]
      exact hlev
  · have hm' : ¬ f.vectors.mem id = true := by
      rw [Dict.mem_eq, h.vec, ← Dict.mem_keys, vecs_keys]; exact hm
    have hr : Live.remove live id = live := by
      simp only [Live.remove, List.filter_eq_self]
      intro a ha
      simp only [decide_eq_true_eq]
      rintro e; exact hm (e ▸ List.mem_map.2 ⟨a, ha, rfl⟩)
    refine ⟨?_, hnd, ?_, ?_, ?_⟩
    · simp [Hnsw.removeInternal, hm', h.inited]
    · simp only [Hnsw.removeInternal, if_neg hm']
      rw [hr, h.vec]
    · simp only [Hnsw.removeInternal, if_neg hm']
      rw [hr, h.cnt]
    · simp only [Hnsw.removeInternal, if_neg hm']
      exact hlev

/-- Level 0. -/
def base (f : Hnsw V) : Level := (f.levels[0]?).getD []

theorem Gr.base_keys {f : Hnsw V} (h : Gr live f) :
    (base f).keys = Live.idsOf live ∧ GraphOk (base f) := by
  have := h.lev.zero
  simp only [base]
  cases hg : f.levels[0]? with
  | none => rw [hg] at this; simp at this
  | some d => rw [hg] at this; exact ⟨by simpa using this, (h.lev.all d (List.mem_of_getElem? hg)).1⟩

/-- The contract of `random.sample` on at most `m` nodes: all of them. -/
def SampleAll (env : HnswEnv V D) (m : Nat) : Prop :=
  ∀ i l, ∀ nodes : List Id, nodes.Nodup → nodes.length ≤ m → ∀ n ∈ nodes,
    n ∈ (env.rnd i).pick l nodes

theorem Gr.base_insert {f : Hnsw V} (h : Gr live f) (env : HnswEnv V D) (id : Id) (v : V) :
    base (Hnsw.insertInternal env id v f) =
      insertLevel id ((env.rnd f.draws).pick 0) (base f) := by
  have := h.lev.zero
  simp only [base, Hnsw.insertInternal]
  cases hl : f.levels with
  | nil => rw [hl] at this; simp at this
  | cons d ds => simp [pad, onLevels]

theorem base_remove (f : Hnsw V) (h : f.levels ≠ []) (id : Id) :
    base (Hnsw.removeInternal id f) = removeLevel id (base f) := by
  have : (Hnsw.removeInternal id f).levels = f.levels.map (removeLevel id) := by
    simp only [Hnsw.removeInternal]; split <;> rfl
  simp only [base, this]
  cases hl : f.levels with
  | nil => exact absurd hl h
  | cons d ds => simp

theorem Gr.levels_ne {f : Hnsw V} (h : Gr live f) : f.levels ≠ [] := by
  intro e; have := h.lev.zero; rw [e] at this; simp at this

theorem Gr.clique_insert {f : Hnsw V} (h : Gr live f) {env : HnswEnv V D} {m : Nat}
    (hp : SampleAll env m) (hm : live.length + 1 ≤ m) {id : Id} (hid : id ∉ Live.idsOf live)
    (v : V) (md : Option M) (hc : Clique (Live.idsOf live) (base f)) :
    Clique (Live.idsOf (live ++ [⟨id, v, md⟩])) (base (Hnsw.insertInternal env id v f)) := by
  rw [h.base_insert]
  have := hc.insertLevel (id := id) h.base_keys.1 h.nd hid (hp f.draws 0) (by simpa using hm)
  simpa using this

theorem Gr.clique_remove {f : Hnsw V} (h : Gr live f) (id : Id)
    (hc : Clique (Live.idsOf live) (base f)) :
    Clique (Live.idsOf (Live.remove live id)) (base (Hnsw.removeInternal id f)) := by
  rw [base_remove f h.levels_ne]
  intro a ha b hb hab
  rw [Live.idsOf_remove _ h.nd, h.nd.mem_erase_iff] at ha hb
  exact (h.base_keys.2.removeLevel id).2.2 b a hb.1 ha.1 (hc a ha.2 b hb.2 hab)

theorem insertLoop_spec (env : HnswEnv V D) (mds : Option (List (Option M)))
    (hm : ∀ x : List (Option M), mds = some x → ∀ m, some m ∈ x → okM m)
    (rows : List (Id × V)) : ∀ (i : Nat) (live : List (Item V M)) (f : Hnsw V) (s : σ),
    Inv L live (f, s) → (rows.map Prod.fst).Nodup →
    (∀ r ∈ rows, r.1 ≠ "" ∧ okId r.1 ∧ Live.has live r.1 = false) →
    ∃ f' s', insertLoop env B mds i rows f s = (.ok (rows.map Prod.fst), f', s') ∧
      Inv L (live ++ Live.items mds i rows) (f', s') ∧
      ∀ n, SampleAll env n → live.length + rows.length ≤ n → Clique (Live.idsOf live) (base f) →
        Clique (Live.idsOf (live ++ Live.items mds i rows)) (base f') := by
  induction rows with
  | nil =>
    intro i live f s h _ _
    exact ⟨f, s, rfl, by simpa [Live.items] using h, fun n _ _ hc => by simpa [Live.items] using hc⟩
  | cons r rows ih =>
    obtain ⟨id, v⟩ := r
    intro i live f s h hnd hr
    obtain ⟨h1, h2, h3⟩ := hr (id, v) (by simp)
    simp only [List.map_cons, List.nodup_cons] at hnd
    obtain ⟨s1, e1, i1, c1⟩ := L.store (v := v) (m := Live.mdAt mds i) h.st h2 h1
      (fun x hx => Flat.mdAt_ok hm i x hx)
    have h3' := Live.has_false_iff.1 h3
    have hI : Inv L (live ++ [⟨id, v, Live.mdAt mds i⟩]) (insertInternal env id v f, s1) :=
      ⟨h.gr.insertInternal env h3' v _, i1, by
        simp only at c1 ⊢
        rw [c1, Live.find_append_single h3', show L.content s = Live.find live from h.cont]⟩
    obtain ⟨f', s', e, c, cl⟩ := ih (i + 1) _ _ s1 hI hnd.2 (by
      intro r hr'
      obtain ⟨g1, g2, g3⟩ := hr r (by simp [hr'])
      refine ⟨g1, g2, ?_⟩
      rw [Live.has_false_iff] at g3 ⊢
      simp only [Live.idsOf, List.map_append, List.map_cons, List.map_nil, List.mem_append,
        List.mem_singleton, not_or]
      exact ⟨g3, fun e => hnd.1 (e ▸ List.mem_map.2 ⟨r, hr', rfl⟩)⟩)
    refine ⟨f', s', ?_, ?_, ?_⟩
    · simp only [insertLoop, Live.mdAt_eq_rowMeta, e1, e, List.map_cons]
    · simpa [Live.items] using c
    · intro n hp hn hc
      simp only [List.length_cons] at hn
      have := cl n hp (by simp; omega) (h.gr.clique_insert hp (by omega) h3' v _ hc)
      simpa [Live.items] using this

theorem deleteLoop_spec (dels : List Id) : ∀ (ok : Bool) (live : List (Item V M)) (f : Hnsw V)
    (s : σ), Inv L live (f, s) → (∀ id ∈ dels, okId id) →
    ∃ f' s', deleteLoop B dels ok f s = (.ok (ok && (Live.removeAll live dels).1), f', s') ∧
      Inv L (Live.removeAll live dels).2 (f', s') ∧
      (Clique (Live.idsOf live) (base f) →
        Clique (Live.idsOf (Live.removeAll live dels).2) (base f')) := by
  induction dels with
  | nil => intro ok live f s h _; exact ⟨f, s, by simp [deleteLoop, Live.removeAll], h, id⟩
  | cons id dels ih =>
    intro ok live f s h hd
    obtain ⟨s1, e1, i1, c1⟩ := L.delete h.st (hd id (by simp))
    rw [show L.content (f, s).2 = Live.find live from h.cont] at e1 c1
    rw [Live.find_isSome] at e1
    have hI : Inv L (Live.remove live id) (removeInternal id f, s1) :=
      ⟨h.gr.removeInternal id, i1, by rw [Live.find_remove]; exact c1⟩
    obtain ⟨f', s', e, c, cl⟩ := ih (if Live.has live id then ok else false) _ _ s1 hI
      (fun x hx => hd x (by simp [hx]))
    refine ⟨f', s', ?_, c, fun hc => cl (h.gr.clique_remove id hc)⟩
    simp only at e1
    simp only [deleteLoop, e1, e, Live.removeAll]
    cases Live.has live id <;> cases ok <;> simp

theorem Inv.update {f : Hnsw V} {s : σ} (h : Inv L live (f, s)) {id : Id} (v : V)
    {m : Option M} (hid : okId id) (hm : ∀ x, m = some x → okM x) :
    ∃ f' s', Hnsw.update B id v m f s = (.ok (Live.has live id), f', s') ∧
      Inv L (Live.replace live id v m) (f', s') ∧ base f' = base f := by
  obtain ⟨s', e, i', c'⟩ := L.update (v := v) (m := m) h.st hid hm
  have hh : (L.content s id).isSome = Live.has live id := by
    rw [show L.content s = Live.find live from h.cont, Live.find_isSome]
  simp only at e c'
  rw [hh] at e
  have hi : f.inited = true := h.gr.inited
  cases hb : Live.has live id
  · rw [hb] at e
    refine ⟨f, s', by simp [Hnsw.update, hi, e], ?_, rfl⟩
    rw [Live.replace_absent hb]
    refine ⟨h.gr, i', ?_⟩
    simp only
    rw [c', hh, hb]; exact h.cont
  · rw [hb] at e
    have hm := Live.has_iff.1 hb
    have hm' : f.vectors.mem id = true := by
      rw [Dict.mem_eq, show f.vectors = vecs live from h.gr.vec]
      apply (Dict.mem_keys _ _).1; rw [vecs_keys]; exact hm
    refine ⟨{ f with vectors := f.vectors.set id v }, s', by simp [Hnsw.update, hi, e, hm'],
      ?_, rfl⟩
    refine ⟨⟨hi, ?_, ?_, ?_, ?_⟩, i', ?_⟩
    · rw [Live.idsOf_replace]; exact h.gr.nd
    · show f.vectors.set id v = _
      rw [show f.vectors = vecs live from h.gr.vec, vecs_set_live h.gr.nd hm v m]
    · show f.count = _
      rw [show f.count = _ from h.gr.cnt]; simp [Live.replace]
    · rw [Live.idsOf_replace]; exact h.gr.lev
    · simp only
      rw [c', Live.find_replace, show L.content s = Live.find live from h.cont]

/-! ## Search -/

/-- A candidate is a live vector with its distance. -/
def CandOk (dist : V → Except Err D) (live : List (Item V M)) (c : Id × D) : Prop :=
  ∃ x ∈ live, x.id = c.1 ∧ dist x.vec = .ok c.2

theorem vecs_item {live : List (Item V M)} {id : Id} {v : V} (h : (vecs live).get? id = some v) :
    ∃ x ∈ live, x.id = id ∧ x.vec = v := by
  rw [vecs_get?, Option.map_eq_some_iff] at h
  obtain ⟨⟨w, m⟩, h1, h2⟩ := h
  subst h2
  exact ⟨_, Live.mem_of_find h1, rfl, rfl⟩

theorem scanNbrs_spec {dist : V → Except Err D} {ns : List Id} {c : List (Id × D)}
    (h : scanNbrs dist (vecs live) ns = .ok c) :
    (∀ x ∈ c, CandOk dist live x) ∧
      c.map Prod.fst = ns.filter (· ∈ Live.idsOf live) := by
  induction ns generalizing c with
  | nil => simp only [scanNbrs, Except.ok.injEq] at h; subst h; simp
  | cons n ns ih =>
    simp only [scanNbrs] at h
    cases hg : (vecs live).get? n with
    | none =>
      rw [hg] at h
      have hn : n ∉ Live.idsOf live := by rw [← vecs_keys]; exact (Dict.get?_eq_none _ _).1 hg
      obtain ⟨g1, g2⟩ := ih h
      exact ⟨g1, by rw [g2, List.filter_cons_of_neg (by simpa using hn)]⟩
    | some v =>
      rw [hg] at h
      simp only at h
      have hn : n ∈ Live.idsOf live := by
        rw [← vecs_keys]; exact (Dict.mem_keys _ _).2 (by rw [hg]; rfl)
      cases hd : dist v with
      | error e => rw [hd] at h; simp at h
      | ok d =>
        rw [hd] at h
        simp only at h
        cases hr : scanNbrs dist (vecs live) ns with
        | error e => rw [hr] at h; simp at h
        | ok l =>
          rw [hr] at h
          simp only [Except.ok.injEq] at h
          subst h
          obtain ⟨g1, g2⟩ := ih hr
          refine ⟨?_, ?_⟩
          · intro x hx
            rcases List.mem_cons.1 hx with rfl | hx
            · obtain ⟨y, h1, h2, h3⟩ := vecs_item hg
              exact ⟨y, h1, h2, by rw [h3]; exact hd⟩
            · exact g1 x hx
          · rw [List.map_cons, g2, List.filter_cons_of_pos (by simpa using hn)]

theorem scanNbrs_total {dist : V → Except Err D} (hd : ∀ x ∈ live, ∃ d, dist x.vec = .ok d)
    (ns : List Id) : ∃ c, scanNbrs dist (vecs live) ns = .ok c := by
  induction ns with
  | nil => exact ⟨[], rfl⟩
  | cons n ns ih =>
    obtain ⟨c, hc⟩ := ih
    simp only [scanNbrs]
    cases hg : (vecs live).get? n with
    | none => exact ⟨c, hc⟩
    | some v =>
      obtain ⟨x, h1, h2, rfl⟩ := vecs_item hg
      obtain ⟨d, hd'⟩ := hd x h1
      exact ⟨_, by simp only [hd', hc]; rfl⟩

theorem expand_spec {dist : V → Except Err D} {lvl : Level} {cs c : List (Id × D)}
    (h : expand dist (vecs live) lvl cs = .ok c) :
    (∀ x ∈ c, CandOk dist live x) ∧
      c.map Prod.fst = (cs.flatMap fun x => nbrs lvl x.1).filter (· ∈ Live.idsOf live) := by
  induction cs generalizing c with
  | nil => simp only [expand, Except.ok.injEq] at h; subst h; simp
  | cons n cs ih =>
    obtain ⟨n, d⟩ := n
    simp only [expand] at h
    cases h1 : scanNbrs dist (vecs live) (nbrs lvl n) with
    | error e => rw [h1] at h; simp at h
    | ok l =>
      rw [h1] at h
      simp only at h
      cases h2 : expand dist (vecs live) lvl cs with
      | error e => rw [h2] at h; simp at h
      | ok l' =>
        rw [h2] at h
        simp only [Except.ok.injEq] at h
        subst h
        obtain ⟨a1, a2⟩ := scanNbrs_spec h1
        obtain ⟨b1, b2⟩ := ih h2
        refine ⟨?_, ?_⟩
        · intro x hx
          rcases List.mem_append.1 hx with hx | hx
          · exact a1 x hx
          · exact b1 x hx
        · rw [List.map_append, a2, b2, List.flatMap_cons, List.filter_append]

theorem expand_total {dist : V → Except Err D} (hd : ∀ x ∈ live, ∃ d, dist x.vec = .ok d)
    (lvl : Level) (cs : List (Id × D)) : ∃ c, expand dist (vecs live) lvl cs = .ok c := by
  induction cs with
  | nil => exact ⟨[], rfl⟩
  | cons n cs ih =>
    obtain ⟨n, d⟩ := n
    obtain ⟨c, hc⟩ := ih
    obtain ⟨c', hc'⟩ := scanNbrs_total hd (nbrs lvl n)
    exact ⟨_, by simp only [expand, hc, hc']; rfl⟩

variable [LinearOrder D]

theorem descend_spec {env : HnswEnv V D} {q : V} {f : Hnsw V} (hv : f.vectors = vecs live) :
    ∀ (l : Nat) {cs c : List (Id × D)}, descend env q f l cs = .ok c →
    (∀ x ∈ cs, CandOk (env.dist q) live x) → ∀ x ∈ c, CandOk (env.dist q) live x := by
  intro l
  induction l with
  | zero => intro cs c h hc; simp only [descend, Except.ok.injEq] at h; subst h; exact hc
  | succ l ih =>
    intro cs c h hc
    simp only [descend] at h
    split at h
    · simp at h
    · rename_i new he
      refine ih h ?_
      intro x hx
      have := (sliceTo_sublist _ _).subset hx
      rw [(pySortBy_perm _ _).mem_iff] at this
      rw [hv] at he
      exact (expand_spec he).1 x this

theorem descend_total {env : HnswEnv V D} {q : V} {f : Hnsw V} (hv : f.vectors = vecs live)
    (hd : ∀ x ∈ live, ∃ d, env.dist q x.vec = .ok d) :
    ∀ (l : Nat) (cs : List (Id × D)), ∃ c, descend env q f l cs = .ok c := by
  intro l
  induction l with
  | zero => intro cs; exact ⟨cs, rfl⟩
  | succ l ih =>
    intro cs
    obtain ⟨c, hc⟩ := expand_total hd ((f.levels[l + 1]?).getD []) cs
    obtain ⟨c', hc'⟩ := ih (sliceTo (pySortBy Prod.snd c) env.efSearch)
    exact ⟨c', by simp only [descend, hv, hc]; exact hc'⟩

omit [LinearOrder D] in
theorem entry_spec {env : HnswEnv V D} {q : V} {f : Hnsw V} (hv : f.vectors = vecs live)
    {top : Level} {c : List (Id × D)} (h : entry env q f top = .ok c) :
    (∀ x ∈ c, CandOk (env.dist q) live x) ∧ c.map Prod.fst = top.keys.take 1 := by
  cases top with
  | nil => simp only [entry, Except.ok.injEq] at h; subst h; simp [Dict.keys]
  | cons n top =>
    obtain ⟨n, ns⟩ := n
    simp only [entry] at h
    split at h
    · simp at h
    · rename_i v hg
      split at h
      · simp at h
      · rename_i d hd
        simp only [Except.ok.injEq] at h
        subst h
        rw [hv] at hg
        obtain ⟨y, h1, h2, h3⟩ := vecs_item hg
        refine ⟨?_, by simp [Dict.keys]⟩
        intro x hx
        simp only [List.mem_singleton] at hx
        subst hx
        exact ⟨y, h1, h2, by rw [h3]; exact hd⟩

omit [LinearOrder D] in
theorem entry_total {env : HnswEnv V D} {q : V} {f : Hnsw V} (hv : f.vectors = vecs live)
    (hd : ∀ x ∈ live, ∃ d, env.dist q x.vec = .ok d) {top : Level}
    (ht : ∀ n ∈ top.keys, n ∈ Live.idsOf live) : ∃ c, entry env q f top = .ok c := by
  cases top with
  | nil => exact ⟨[], rfl⟩
  | cons n top =>
    obtain ⟨n, ns⟩ := n
    have hn := ht n (by simp [Dict.keys])
    rw [← vecs_keys, Dict.mem_keys] at hn
    obtain ⟨v, hg⟩ := Option.isSome_iff_exists.1 hn
    obtain ⟨x, h1, h2, rfl⟩ := vecs_item hg
    obtain ⟨d, hd'⟩ := hd x h1
    exact ⟨_, by simp only [entry, hv, hg, hd']; rfl⟩

theorem candidates_spec {env : HnswEnv V D} {q : V} {f : Hnsw V} (hv : f.vectors = vecs live)
    {c : List (Id × D)} (h : candidates env q f = .ok c) :
    ∀ x ∈ c, CandOk (env.dist q) live x := by
  simp only [candidates] at h
  split at h
  · simp at h
  · rename_i c0 h0
    split at h
    · simp at h
    · rename_i c1 h1
      have hc1 := descend_spec hv _ h1 (entry_spec hv h0).1
      split at h
      · simp only [Except.ok.injEq] at h; subst h; simp
      · split at h
        · simp at h
        · rename_i fin hf
          simp only [Except.ok.injEq] at h
          subst h
          intro x hx
          rw [hv] at hf
          rcases List.mem_append.1 hx with hx | hx
          · exact hc1 x hx
          · exact (expand_spec hf).1 x hx

theorem Gr.level_keys {f : Hnsw V} (h : Gr live f) (i : Nat) :
    GraphOk ((f.levels[i]?).getD []) ∧
      ∀ n ∈ Dict.keys ((f.levels[i]?).getD []), n ∈ Live.idsOf live := by
  cases hg : f.levels[i]? with
  | none => exact ⟨GraphOk.empty, by simp [Dict.keys]⟩
  | some d => exact h.lev.all d (List.mem_of_getElem? hg)

theorem candidates_total_raw {env : HnswEnv V D} {q : V} {f : Hnsw V} (hv : f.vectors = vecs live)
    (hl : ∀ i : Nat, ∀ n ∈ Dict.keys ((f.levels[i]?).getD []), n ∈ Live.idsOf live)
    (hd : ∀ x ∈ live, ∃ d, env.dist q x.vec = .ok d) : ∃ c, candidates env q f = .ok c := by
  simp only [candidates]
  obtain ⟨c0, h0⟩ := entry_total hv hd (hl (min f.maxLevel (f.levels.length - 1)))
  obtain ⟨c1, h1⟩ := descend_total hv hd (min f.maxLevel (f.levels.length - 1)) c0
  rw [h0]
  simp only [h1]
  split
  · exact ⟨_, rfl⟩
  · obtain ⟨c2, h2⟩ := expand_total hd ((f.levels[0]?).getD []) c1
    rw [hv, h2]
    exact ⟨_, rfl⟩

theorem candidates_total {env : HnswEnv V D} {q : V} {f : Hnsw V} (h : Gr live f)
    (hd : ∀ x ∈ live, ∃ d, env.dist q x.vec = .ok d) : ∃ c, candidates env q f = .ok c :=
  candidates_total_raw h.vec (fun i => (h.level_keys i).2) hd

/-- With `max_level = 0` the candidates are the first live vector and its neighbours. -/
theorem candidates_flat {env : HnswEnv V D} {q : V} {f : Hnsw V} (h : Gr live f)
    (hm : f.maxLevel = 0) {c : List (Id × D)} (hc : candidates env q f = .ok c)
    {x : Item V M} {rest : List (Item V M)} (hl : live = x :: rest) :
    c.map Prod.fst = x.id :: nbrs ((f.levels[0]?).getD []) x.id := by
  simp only [candidates, hm, Nat.zero_min, descend] at hc
  split at hc
  · simp at hc
  · rename_i c0 h0
    have hk : Dict.keys ((f.levels[0]?).getD []) = Live.idsOf live := by
      have := h.lev.zero
      cases hg : f.levels[0]? with
      | none => rw [hg] at this; simp at this
      | some d => rw [hg] at this; simpa using this
    obtain ⟨e1, e2⟩ := entry_spec h.vec h0
    rw [hk, hl] at e2
    simp only [Live.idsOf, List.map_cons, List.take_succ_cons, List.take_zero] at e2
    cases c0 with
    | nil => simp at e2
    | cons a c0 =>
      simp only [List.map_cons, List.cons.injEq, List.map_eq_nil_iff] at e2
      obtain ⟨e2, rfl⟩ := e2
      simp only [List.isEmpty_cons] at hc
      split at hc
      · rename_i hf; cases hf
      · split at hc
        · simp at hc
        · rename_i fin hf
          simp only [Except.ok.injEq] at hc
          subst hc
          rw [h.vec] at hf
          have h2 := (expand_spec hf).2
          simp only [List.flatMap_cons, List.flatMap_nil, List.append_nil] at h2
          rw [List.map_append, h2, List.filter_eq_self.2]
          · simp [e2]
          · intro n hn
            have := (h.level_keys 0).1.nbr_key hn
            simpa using (h.level_keys 0).2 n this

/-- Search: what comes back.  Nothing is needed of the graph. -/
theorem search_raw {env : HnswEnv V D} {f : Hnsw V} {s : σ} (hi : f.inited = true)
    (hv : f.vectors = vecs live) (hnd : (Live.idsOf live).Nodup) (hst : L.inv s)
    (hcont : L.content s = Live.find live) (q : V)
    (k : Int) : ∃ r s', Hnsw.search env B 1 q k f s = (r, f, s') ∧
      (L.inv s' ∧ L.content s' = Live.find live) ∧
      (∀ hits, r = .ok hits → live ≠ [] → ∃ c, candidates env q f = .ok c ∧
        hits = attachMd (Live.find live)
          (sliceTo (pySortBy Prod.snd c) (min k (live.length : Int)))) ∧
      (live = [] → r = .ok []) ∧
      (live ≠ [] → ∀ e, candidates env q f = .error e → r = .error .index) ∧
      (∀ c, candidates env q f = .ok c → ∃ hits, r = .ok hits) := by
  by_cases hl : live = []
  · subst hl
    have : f.vectors.isEmpty = true := by rw [hv]; rfl
    exact ⟨.ok [], s, by simp [Hnsw.search, hi, this], ⟨hst, hcont⟩, by simp, by simp, by simp,
      fun _ _ => ⟨[], rfl⟩⟩
  · have hne : f.vectors.isEmpty = false := by
      rw [hv]; cases live with
      | nil => exact absurd rfl hl
      | cons => rfl
    cases hc : candidates env q f with
    | error e =>
      exact ⟨.error .index, s, by simp [Hnsw.search, hi, hne, hc], ⟨hst, hcont⟩, by simp, by simp [hl],
        by simp, by simp⟩
    | ok c =>
      have hlen : f.vectors.length = live.length := by rw [hv]; simp [vecs]
      obtain ⟨s', e, i', c'⟩ := fetchMeta_spec L
        (sliceTo (pySortBy Prod.snd c) (min k (f.vectors.length : Int))) hst (by
          intro x hx
          have := (sliceTo_sublist _ _).subset hx
          rw [(pySortBy_perm _ _).mem_iff] at this
          obtain ⟨y, h1, h2, -⟩ := candidates_spec hv hc x this
          rw [hcont, ← h2,
            Live.find_mem hnd h1]
          rfl)
      refine ⟨.ok (attachMd (L.content s) (sliceTo (pySortBy Prod.snd c)
        (min k (f.vectors.length : Int)))), s', ?_, ⟨i', by rw [c']; exact hcont⟩,
        ?_, by simp [hl], by simp, fun _ _ => ⟨_, rfl⟩⟩
      · simp [Hnsw.search, hi, hne, hc, e]
      · intro hits hh _
        cases hh
        exact ⟨c, rfl, by rw [hcont, hlen]⟩

/-- Search: what comes back, and the invariant is kept. -/
theorem Inv.search {env : HnswEnv V D} {f : Hnsw V} {s : σ} (h : Inv L live (f, s)) (q : V)
    (k : Int) : ∃ r s', Hnsw.search env B 1 q k f s = (r, f, s') ∧ Inv L live (f, s') ∧
      (∀ hits, r = .ok hits → live ≠ [] → ∃ c, candidates env q f = .ok c ∧
        hits = attachMd (Live.find live)
          (sliceTo (pySortBy Prod.snd c) (min k (live.length : Int)))) ∧
      (live = [] → r = .ok []) ∧
      (live ≠ [] → ∀ e, candidates env q f = .error e → r = .error .index) ∧
      (∀ c, candidates env q f = .ok c → ∃ hits, r = .ok hits) := by
  obtain ⟨r, s', e, hs, h1⟩ := search_raw (L := L) (env := env) h.gr.inited h.gr.vec h.gr.nd h.st h.cont q k
  exact ⟨r, s', e, ⟨h.gr, hs.1, hs.2⟩, h1⟩

/-! ## Histories -/

theorem Inv.call {env : HnswEnv V D} {t : Hnsw V × σ} (h : Inv L live t) (c : IxCall V M)
    (hc : Live.CallOk okId okM live c) : Inv L (Live.next live c) (Hnsw.call env B t c).2 ∧
      ((∀ q n k, c ≠ .search n q k) →
        (Hnsw.call env B t c).1 = Live.reply (fun _ _ => false) live c) ∧
      ∀ n, SampleAll env n → (Live.next live c).length ≤ n →
        Clique (Live.idsOf live) (base t.1) →
        Clique (Live.idsOf (Live.next live c)) (base (Hnsw.call env B t c).2.1) := by
  obtain ⟨f, s⟩ := t
  have hi : f.inited = true := h.gr.inited
  cases c with
  | insert nd rows mds =>
    by_cases hnd : nd = 2
    · subst hnd
      obtain ⟨h1, h2, h3⟩ := hc
      obtain ⟨f', s', e, c, cl⟩ := insertLoop_spec env mds h3 rows 0 live f s h h1 h2
      have e' : Hnsw.insert env B 2 rows mds f s = (.ok (rows.map Prod.fst), f', s') := by
        simp [Hnsw.insert, hi, e]
      simp only [Hnsw.call, e', Live.reply, Live.next, if_true]
      refine ⟨c, by simp, fun n hp hn => cl n hp ?_⟩
      simpa [Flat.items_length] using hn
    · have e : Hnsw.insert env B nd rows mds f s = (.error .index, f, s) := by
        simp [Hnsw.insert, hi, hnd]
      simp only [Hnsw.call, e, Live.reply, Live.next, hnd, if_false]
      exact ⟨h, by simp, fun _ _ _ hc => hc⟩
  | delete ids =>
    obtain ⟨f', s', e, c, cl⟩ := deleteLoop_spec ids true live f s h hc
    have e' : Hnsw.delete B ids f s = (.ok (Live.removeAll live ids).1, f', s') := by
      simp [Hnsw.delete, hi, e]
    simp only [Hnsw.call, e', Live.reply, Live.next]
    exact ⟨c, by simp, fun _ _ _ => cl⟩
  | update id v m =>
    obtain ⟨f', s', e, c, cl⟩ := h.update v hc.1 hc.2
    simp only [Hnsw.call, e, Live.reply, Live.next]
    exact ⟨c, by simp, fun _ _ _ hc => by rw [Live.idsOf_replace, cl]; exact hc⟩
  | search nd q k =>
    refine ⟨?_, fun hh => absurd rfl (hh q nd k), ?_⟩
    · by_cases hnd : nd = 1
      · subst hnd
        obtain ⟨r, s', e, hinv, -⟩ := h.search (env := env) q k
        simp only [Hnsw.call, e, Live.next]
        cases r <;> exact hinv
      · have e : Hnsw.search env B nd q k f s = (.error .index, f, s) := by
          simp [Hnsw.search, hi, hnd]
        simp only [Hnsw.call, e, Live.next]
        exact h
    · intro n _ _ hcl
      have hf : (Hnsw.call env B (f, s) (.search nd q k)).2.1 = f := by
        by_cases hnd : nd = 1
        · subst hnd
          obtain ⟨r, s', e, -⟩ := h.search (env := env) q k
          simp only [Hnsw.call, e]
          cases r <;> rfl
        · have e : Hnsw.search env B nd q k f s = (.error .index, f, s) := by
            simp [Hnsw.search, hi, hnd]
          simp only [Hnsw.call, e]
      rw [hf]
      exact hcl

theorem Inv.run {env : HnswEnv V D} {t : Hnsw V × σ} (h : Inv L live t) (cs : List (IxCall V M))
    (hc : Live.HistOk okId okM live cs) : Inv L (Live.after live cs) (Hnsw.run env B t cs).2 := by
  induction cs generalizing live t with
  | nil => exact h
  | cons c cs ih => exact ih (h.call (env := env) c hc.1).1 hc.2

theorem Inv.run_clique {env : HnswEnv V D} {n : Nat} (hp : SampleAll env n) {t : Hnsw V × σ}
    (h : Inv L live t) (cs : List (IxCall V M)) (hc : Live.HistOk okId okM live cs)
    (hn : ∀ p, p <+: cs → (Live.after live p).length ≤ n)
    (hcl : Clique (Live.idsOf live) (base t.1)) :
    Clique (Live.idsOf (Live.after live cs)) (base (Hnsw.run env B t cs).2.1) := by
  induction cs generalizing live t with
  | nil => exact hcl
  | cons c cs ih =>
    have hcall := h.call (env := env) c hc.1
    refine ih hcall.1 hc.2 ?_ (hcall.2.2 n hp (hn [c] (by simp)) hcl)
    intro p hp'
    exact hn (c :: p) (by simpa using hp')

omit [LinearOrder D] in
theorem loadAll_spec (env : HnswEnv V D) {all : List (Item V M)} (hn : (Live.idsOf all).Nodup)
    (todo : List (Item V M)) : ∀ (done : List (Item V M)) (f : Hnsw V) (s : σ),
    all = done ++ todo → Gr done f → L.inv s → L.content s = Live.find all →
    ∃ f' s', loadAll env B (Live.idsOf todo) f s = (.ok (), f', s') ∧ Inv L all (f', s') ∧
      ∀ n, SampleAll env n → all.length ≤ n → Clique (Live.idsOf done) (base f) →
        Clique (Live.idsOf all) (base f') := by
  induction todo with
  | nil =>
    intro done f s ha h hs hc
    simp only [List.append_nil] at ha
    subst ha
    exact ⟨f, s, rfl, ⟨h, hs, hc⟩, fun _ _ _ hc => hc⟩
  | cons x todo ih =>
    intro done f s ha h hs hc
    have hx : x ∈ all := by rw [ha]; simp
    have hf : L.content s x.id = some (x.vec, x.md) := by rw [hc]; exact Live.find_mem hn hx
    obtain ⟨s1, e1, i1, c1⟩ := L.retrieve hs (L.dom hs (by rw [hf]; rfl))
    have hfresh : x.id ∉ Live.idsOf done := by
      rw [ha, Live.idsOf, List.map_append, List.map_cons, List.nodup_append] at hn
      intro hm
      exact hn.2.2 _ hm _ (by simp) rfl
    obtain ⟨f', s', e, g, cl⟩ := ih (done ++ [x]) _ s1 (by simp [ha])
      (h.insertInternal env hfresh x.vec x.md) i1 (by rw [c1, hc])
    refine ⟨f', s', ?_, g, fun n hp hn hcl => cl n hp hn (h.clique_insert hp ?_ hfresh _ _ hcl)⟩
    rotate_left
    · rw [ha, List.length_append, List.length_cons] at hn; omega
    simp only [Live.idsOf, List.map_cons, loadAll, e1, hf] at e ⊢
    exact e

omit [LinearOrder D] in
/-- Initialising a new index on an open storage establishes the invariant. -/
theorem init_inv (env : HnswEnv V D) {s s' : σ} (hn : (Live.idsOf live).Nodup)
    (hl : B.list s none = (.ok (Live.idsOf live), s')) (hs : L.inv s')
    (hc : L.content s' = Live.find live) :
    ∃ t, Hnsw.init env B Hnsw.new s = (.ok (), t) ∧ Inv L live t ∧
      ∀ n, SampleAll env n → live.length ≤ n → Clique (Live.idsOf live) (base t.1) := by
  obtain ⟨f', s2, e, g, cl⟩ := loadAll_spec env hn live [] { (Hnsw.new : Hnsw V) with
    inited := true, levels := [[]] } s' rfl
    ⟨rfl, by simp, rfl, rfl, ⟨by simp [GraphOk.empty, Dict.keys], by simp [Dict.keys]⟩⟩ hs hc
  refine ⟨(f', s2), ?_, g, fun n hp hn => cl n hp hn (by intro a ha; simp at ha)⟩
  simp only [Hnsw.init, hl, e]

end Hnsw
end Valori
