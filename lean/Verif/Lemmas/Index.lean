import Verif.Model.Flat
import Verif.Lemmas.Lawful

/-! Live lists, top-k answers, and the loading loops shared by the indices. -/

namespace Valori
open Spec (Item Hit IxCall IxReply IsTopK put)
open Spec

variable {σ V M D : Type}

namespace Spec.Live

/-- ids of the live items -/
abbrev idsOf (l : List (Item V M)) : List String := l.map Item.id

theorem has_iff {l : List (Item V M)} {id : String} : has l id = true ↔ id ∈ idsOf l := by
  simp [has, List.any_eq_true]

theorem has_false_iff {l : List (Item V M)} {id : String} : has l id = false ↔ id ∉ idsOf l := by
  rw [← has_iff]; simp

theorem find_isSome (l : List (Item V M)) (id : String) : (find l id).isSome = has l id := by
  induction l with
  | nil => rfl
  | cons x l ih =>
    simp only [find, has, List.find?_cons, List.any_cons] at ih ⊢
    by_cases h : x.id = id
    · simp [h]
    · simp only [h, decide_false, Bool.false_or]; exact ih

theorem find_eq_none {l : List (Item V M)} {id : String} : find l id = none ↔ id ∉ idsOf l := by
  rw [← has_false_iff, ← find_isSome]; cases find l id <;> simp

theorem find_mem {l : List (Item V M)} (hn : (idsOf l).Nodup) {x : Item V M} (hx : x ∈ l) :
    find l x.id = some (x.vec, x.md) := by
  induction l with
  | nil => simp at hx
  | cons y l ih =>
    simp only [idsOf, List.map_cons, List.nodup_cons] at hn
    rcases List.mem_cons.1 hx with rfl | hx
    · simp [find]
    · have hne : y.id ≠ x.id := fun e => hn.1 (e ▸ List.mem_map.2 ⟨x, hx, rfl⟩)
      have := ih hn.2 hx
      simpa [find, List.find?_cons, hne] using this

theorem eq_of_id {l : List (Item V M)} (hn : (idsOf l).Nodup) {x y : Item V M} (hx : x ∈ l)
    (hy : y ∈ l) (h : x.id = y.id) : x = y := by
  have h1 := find_mem hn hx
  have h2 := find_mem hn hy
  rw [h, h2] at h1
  cases x; cases y; simp_all

theorem mem_of_find {l : List (Item V M)} {id : String} {v : V} {m : Option M}
    (h : find l id = some (v, m)) : ⟨id, v, m⟩ ∈ l := by
  simp only [find, Option.map_eq_some_iff] at h
  obtain ⟨x, hx, he⟩ := h
  have := List.mem_of_find?_eq_some hx
  have hid := List.find?_some hx
  cases x; simp_all

theorem find_append (l l' : List (Item V M)) (id : String) :
    find (l ++ l') id = (find l id).or (find l' id) := by
  simp only [find, List.find?_append]
  cases List.find? (fun x => decide (x.id = id)) l <;> simp

theorem find_append_single {l : List (Item V M)} {x : Item V M} (hx : x.id ∉ idsOf l) :
    find (l ++ [x]) = put (find l) x.id (some (x.vec, x.md)) := by
  funext y
  rw [find_append]
  simp only [put]
  split
  · rename_i h; subst h; rw [find_eq_none.2 hx]; simp [find]
  · rename_i h
    have : find [x] y = none := by simp [find, Ne.symm h]
    rw [this]; simp

theorem idsOf_remove (l : List (Item V M)) (hn : (idsOf l).Nodup) (id : String) :
    idsOf (remove l id) = (idsOf l).erase id := by
  induction l with
  | nil => rfl
  | cons x l ih =>
    simp only [idsOf, List.map_cons, List.nodup_cons] at hn
    by_cases h : x.id = id
    · subst h
      have : remove l x.id = l := by
        simp only [remove, List.filter_eq_self]
        intro a ha
        simp only [decide_eq_true_eq]
        rintro e; exact hn.1 (e ▸ List.mem_map.2 ⟨a, ha, rfl⟩)
      simp only [idsOf, List.map_cons, List.erase_cons_head]
      rw [← this]
      simp only [remove, List.filter_cons]
      simp [List.filter_filter]
    · have := ih hn.2
      simp only [idsOf, remove] at this ⊢
      rw [List.filter_cons_of_pos (by simpa using h), List.map_cons, List.map_cons, this]
      rw [List.erase_cons_tail (by simpa using h)]

theorem find_remove (l : List (Item V M)) (id : String) : find (remove l id) = put (find l) id none := by
  funext y
  simp only [put]
  split
  · rename_i h; subst h
    rw [find_eq_none]
    simp [remove]
  · rename_i h
    simp only [find, remove, List.find?_filter]
    congr 2
    funext a
    by_cases e : a.id = y
    · subst e; simp [h]
    · simp [e]

theorem remove_nodup {l : List (Item V M)} (hn : (idsOf l).Nodup) (id : String) :
    (idsOf (remove l id)).Nodup := by
  rw [idsOf_remove l hn]; exact hn.erase id

theorem idsOf_replace (l : List (Item V M)) (id : String) (v : V) (m : Option M) :
    idsOf (replace l id v m) = idsOf l := by
  simp only [idsOf, replace, List.map_map]
  apply List.map_congr_left
  intro x _
  simp only [Function.comp]
  split <;> simp_all

theorem find_replace (l : List (Item V M)) (id : String) (v : V) (m : Option M) :
    find (replace l id v m) =
      if (find l id).isSome then put (find l) id (some (v, m)) else find l := by
  funext y
  have key : find (replace l id v m) y =
      if y = id then (if (find l id).isSome then some (v, m) else none) else find l y := by
    induction l with
    | nil => simp [find, replace]
    | cons x l ih =>
      simp only [find, replace, List.map_cons, List.find?_cons] at ih ⊢
      by_cases h : x.id = id
      · by_cases hy : y = id
        · simp [h, hy]
        · have hxy : ¬ id = y := fun e => hy e.symm
          have hxy' : ¬ x.id = y := fun e => hy (e ▸ h)
          simp only [h, hxy, hxy', if_true, decide_false, hy, if_false] at ih ⊢
          exact ih
      · by_cases hy : y = id
        · subst hy; simp only [h, if_false, decide_false, if_true] at ih ⊢; exact ih
        · simp only [h, if_false, hy] at ih ⊢
          by_cases e : x.id = y
          · simp [e]
          · simp only [e, decide_false]; exact ih
  rw [key]
  by_cases h : y = id
  · subst h
    cases hs : (find l y).isSome
    · simp only [Option.isSome_eq_false_iff, Option.isNone_iff_eq_none] at hs; simp [hs]
    · simp [put]
  · cases hs : (find l id).isSome <;> simp [h, put]

theorem replace_absent {l : List (Item V M)} {id : String} (h : has l id = false) (v : V)
    (m : Option M) : replace l id v m = l := by
  rw [has_false_iff] at h
  simp only [replace]
  rw [List.map_congr_left (g := fun x => x)]
  · simp
  · intro x hx
    have : x.id ≠ id := fun e => h (e ▸ List.mem_map.2 ⟨x, hx, rfl⟩)
    simp [this]

theorem mdAt_eq_rowMeta (mds : Option (List (Option M))) (i : Nat) : rowMeta mds i = mdAt mds i := by
  cases mds with
  | none => rfl
  | some l =>
    cases l with
    | nil => rfl
    | cons a l =>
      simp only [rowMeta, mdAt, List.isEmpty_cons]
      cases h : (a :: l)[i]? <;> simp [Option.join]

end Spec.Live

/-! ## Sorting and slicing -/

theorem sliceTo_map {α β : Type} (f : α → β) (l : List α) (k : Int) :
    sliceTo (l.map f) k = (sliceTo l k).map f := by
  simp only [sliceTo]; split <;> simp [List.map_take]

theorem sliceTo_sublist {α : Type} (l : List α) (k : Int) : (sliceTo l k).Sublist l := by
  simp only [sliceTo]; split <;> exact List.take_sublist _ _

theorem sliceTo_nonneg {α : Type} (l : List α) {k : Int} (hk : 0 ≤ k) :
    sliceTo l k = l.take k.toNat := by simp [sliceTo, hk]

theorem filterMap_eq_map {α β : Type} {f : α → Option β} {g : α → β} {l : List α}
    (h : ∀ a ∈ l, f a = some (g a)) : l.filterMap f = l.map g := by
  induction l with
  | nil => rfl
  | cons a l ih =>
    rw [List.filterMap_cons, h a (by simp), ih (fun b hb => h b (by simp [hb]))]; rfl

/-- The numpy contract: a permutation of the positions along which values do not decrease. -/
def IsArgsort [LinearOrder D] (argsort : List D → List Nat) : Prop :=
  ∀ l, (argsort l).Perm (List.range l.length) ∧
    (argsort l).Pairwise (fun i j => ∀ a b, l[i]? = some a → l[j]? = some b → a ≤ b)

theorem range_filterMap_getElem? {α β : Type} (l : List α) (f : α → β) :
    (List.range l.length).filterMap (fun i => (l[i]?).map f) = l.map f := by
  induction l with
  | nil => rfl
  | cons a l ih =>
    rw [List.length_cons, List.range_succ_eq_map, List.filterMap_cons, List.filterMap_map]
    simp only [List.getElem?_cons_zero, Option.map_some, List.map_cons, List.cons.injEq, true_and]
    rw [← ih]
    rfl

theorem Flat.ranked_spec [LinearOrder D] {env : FlatEnv V D} (ha : IsArgsort env.argsort) (q : V)
    (k : Int) (vs : List (Id × V)) :
    ∃ full : List (Id × D), full.Perm (vs.map fun x => (x.1, env.dist q x.2)) ∧
      full.Pairwise (fun a b => a.2 ≤ b.2) ∧ Flat.ranked env q k vs = sliceTo full k := by
  obtain ⟨hp, hs⟩ := ha (vs.map fun x => env.dist q x.2)
  set a := env.argsort (vs.map fun x => env.dist q x.2) with hadef
  let f : Nat → Option (Id × D) := fun i => (vs[i]?).map fun x => (x.1, env.dist q x.2)
  refine ⟨a.filterMap f, ?_, ?_, ?_⟩
  · have := hp.filterMap f
    rw [List.length_map] at this
    have e := range_filterMap_getElem? vs (fun x => (x.1, env.dist q x.2))
    exact this.trans (by rw [e])
  · rw [List.pairwise_filterMap]
    refine hs.imp ?_
    intro i j h x hx y hy
    simp only [f, Option.map_eq_some_iff] at hx hy
    obtain ⟨x', hx', rfl⟩ := hx
    obtain ⟨y', hy', rfl⟩ := hy
    exact h _ _ (by simp [hx']) (by simp [hy'])
  · have hsome : ∀ i ∈ a, ∃ y, f i = some y := by
      intro i hi
      have := hp.mem_iff.1 hi
      rw [List.length_map, List.mem_range] at this
      exact ⟨_, by simp [f, this]; rfl⟩
    by_cases hne : vs = []
    · subst hne
      have : a = [] := by simpa using hp
      simp only [Flat.ranked]
      rw [← hadef, this]
      simp [sliceTo]
    · obtain ⟨x0⟩ : Nonempty (Id × D) := by
        cases vs with
        | nil => exact absurd rfl hne
        | cons x _ => exact ⟨(x.1, env.dist q x.2)⟩
      let g : Nat → Id × D := fun i => (f i).getD x0
      have hg : ∀ i ∈ a, f i = some (g i) := by
        intro i hi; obtain ⟨y, hy⟩ := hsome i hi; simp [g, hy]
      simp only [Flat.ranked]
      rw [← hadef, show (fun i => (vs[i]?).map fun x => (x.1, env.dist q x.2)) = f from rfl]
      rw [filterMap_eq_map hg, sliceTo_map,
        filterMap_eq_map (fun i hi => hg i ((sliceTo_sublist a k).subset hi))]

/-- Metadata attached to candidates. -/
def attachMd (content : Id → Option (V × Option M)) (l : List (Id × D)) : List (Hit D M) :=
  l.map fun x => ⟨x.1, x.2, (content x.1).bind Prod.snd⟩

theorem fetchMeta_spec {B : Backend σ V M} {okId : Id → Prop} {okM : M → Prop}
    (L : Lawful B okId okM) (l : List (Id × D)) {s : σ} (hs : L.inv s)
    (hl : ∀ x ∈ l, (L.content s x.1).isSome = true) :
    ∃ s', fetchMeta B l s = (.ok (attachMd (L.content s) l), s') ∧ L.inv s' ∧
      L.content s' = L.content s := by
  induction l generalizing s with
  | nil => exact ⟨s, rfl, hs, rfl⟩
  | cons x l ih =>
    obtain ⟨id, d⟩ := x
    have h0 := hl (id, d) (by simp)
    obtain ⟨s1, e1, i1, c1⟩ := L.retrieve hs (L.dom hs h0)
    obtain ⟨⟨v, m⟩, hvm⟩ := Option.isSome_iff_exists.1 h0
    obtain ⟨s2, e2, i2, c2⟩ := ih i1 (by intro y hy; rw [c1]; exact hl y (by simp [hy]))
    refine ⟨s2, ?_, i2, by rw [c2, c1]⟩
    simp only at hvm
    simp only [fetchMeta, e1, hvm, e2, attachMd, List.map_cons, c1, Option.bind_some]

/-- Cached vectors are current, for live ids. -/
def CacheOk (live : List (Item V M)) (c : Dict Id V) : Prop :=
  ∀ x ∈ live, ∀ v, c.get? x.id = some v → v = x.vec

theorem loadVecs_spec {B : Backend σ V M} {okId : Id → Prop} {okM : M → Prop}
    (L : Lawful B okId okM) {live : List (Item V M)} (hn : (Live.idsOf live).Nodup)
    (l : List (Item V M)) (hsub : ∀ x ∈ l, x ∈ live) {c : Dict Id V} (hc : CacheOk live c)
    {s : σ} (hs : L.inv s) (hcont : L.content s = Live.find live) :
    ∃ c' s', loadVecs B (Live.idsOf l) c s = (.ok (l.map fun x => (x.id, x.vec)), c', s') ∧
      CacheOk live c' ∧ L.inv s' ∧ L.content s' = L.content s := by
  induction l generalizing c s with
  | nil => exact ⟨c, s, rfl, hc, hs, rfl⟩
  | cons x l ih =>
    have hx := hsub x (by simp)
    have hsub' : ∀ y ∈ l, y ∈ live := fun y hy => hsub y (by simp [hy])
    simp only [Live.idsOf, List.map_cons, loadVecs]
    cases hg : c.get? x.id with
    | some v =>
      obtain ⟨c', s', e, h1, h2, h3⟩ := ih hsub' hc hs hcont
      have := hc x hx v hg
      subst this
      simp only [Live.idsOf] at e
      exact ⟨c', s', by simp only [e], h1, h2, h3⟩
    | none =>
      have hf : L.content s x.id = some (x.vec, x.md) := by rw [hcont]; exact Live.find_mem hn hx
      obtain ⟨s1, e1, i1, c1⟩ := L.retrieve hs (L.dom hs (by rw [hf]; rfl))
      have hc' : CacheOk live (c.set x.id x.vec) := by
        intro y hy v hv
        rw [Dict.get?_set] at hv
        split at hv
        · rename_i he
          have := Live.eq_of_id hn hy hx he
          subst this
          exact (Option.some.inj hv).symm
        · exact hc y hy v hv
      obtain ⟨c', s', e, h1, h2, h3⟩ := ih hsub' hc' i1 (by rw [c1, hcont])
      simp only [Live.idsOf] at e
      exact ⟨c', s', by simp only [e1, hf, e], h1, h2, by rw [h3, c1]⟩

/-- The first `n` of a sorted list of all candidates, with metadata, is an exact answer. -/
theorem isTopK_of_sorted [LinearOrder D] {live : List (Item V M)} (hn : (Live.idsOf live).Nodup)
    (dist : V → D) {full : List (Id × D)}
    (hp : full.Perm (live.map fun x => (x.id, dist x.vec)))
    (hs : full.Pairwise (fun a b => a.2 ≤ b.2)) (n : Nat) :
    IsTopK dist live n (attachMd (Live.find live) (full.take n)) := by
  have hids : (attachMd (M := M) (Live.find live) (full.take n)).map Hit.id =
      (full.take n).map Prod.fst := by simp only [attachMd, List.map_map]; rfl
  have hfn : (full.map Prod.fst).Nodup := by
    rw [(hp.map Prod.fst).nodup_iff]; simpa [List.map_map, Function.comp_def] using hn
  refine ⟨?_, ?_, ?_, ?_, ?_⟩
  · simp [attachMd, hp.length_eq]
  · rw [hids]; exact hfn.sublist ((List.take_sublist _ _).map _)
  · simp only [attachMd, List.pairwise_map]
    exact (hs.sublist (List.take_sublist _ _))
  · intro h hh
    simp only [attachMd, List.mem_map] at hh
    obtain ⟨⟨i, d⟩, hx, rfl⟩ := hh
    have := hp.mem_iff.1 (List.mem_of_mem_take hx)
    obtain ⟨x, hxl, he⟩ := List.mem_map.1 this
    injection he with h1 h2
    subst h1 h2
    refine ⟨x, hxl, rfl, rfl, ?_⟩
    simp only [Live.find_mem hn hxl, Option.bind_some]
  · intro x hx hnot h hh
    rw [hids] at hnot
    have hxf : (x.id, dist x.vec) ∈ full := hp.mem_iff.2 (List.mem_map.2 ⟨x, hx, rfl⟩)
    rw [← List.take_append_drop n full] at hxf hs
    have hxd : (x.id, dist x.vec) ∈ full.drop n := by
      rcases List.mem_append.1 hxf with h1 | h1
      · exact absurd (List.mem_map.2 ⟨_, h1, rfl⟩) hnot
      · exact h1
    simp only [attachMd, List.mem_map] at hh
    obtain ⟨y, hy, rfl⟩ := hh
    exact (List.pairwise_append.1 hs).2.2 y hy _ hxd

end Valori
