import Verif.Lemmas.Index
import Mathlib.Data.List.Sort

/-! Exact answers are unique up to ties. -/

namespace Valori
open Spec (Item Hit IsTopK)
open Spec

variable {V M D : Type} [LinearOrder D]

namespace Spec.IsTopK

theorem dists_perm {dist : V → D} {live : List (Item V M)} (hn : (Live.idsOf live).Nodup)
    {k : Nat} {a : List (Hit D M)} (h : IsTopK dist live k a) :
    (a.map Hit.dist ++ ((live.filter (fun x => x.id ∉ a.map Hit.id)).map fun x => dist x.vec)).Perm
      (live.map fun x => dist x.vec) := by
  have h1 : ((live.filter (fun x => x.id ∈ a.map Hit.id)).map Item.id).Perm (a.map Hit.id) := by
    rw [List.perm_ext_iff_of_nodup (hn.sublist (List.filter_sublist.map _)) h.nodup]
    intro id
    constructor
    · intro hid
      obtain ⟨x, hx, rfl⟩ := List.mem_map.1 hid
      simpa using (List.mem_filter.1 hx).2
    · intro hid
      obtain ⟨y, hy, rfl⟩ := List.mem_map.1 hid
      obtain ⟨x, hx, e, -, -⟩ := h.sound y hy
      refine List.mem_map.2 ⟨x, List.mem_filter.2 ⟨hx, ?_⟩, e⟩
      rw [e]; simpa using ⟨y, hy, rfl⟩
  have h2 : (a.map Hit.dist).Perm
      ((live.filter (fun x => x.id ∈ a.map Hit.id)).map fun x => dist x.vec) := by
    let g : String → Option D := fun id => (Live.find live id).map fun x => dist x.1
    have e1 : (a.map Hit.dist).map some = (a.map Hit.id).map g := by
      rw [List.map_map, List.map_map]
      apply List.map_congr_left
      intro y hy
      obtain ⟨x, hx, e, hd, -⟩ := h.sound y hy
      simp only [Function.comp, g, ← e, Live.find_mem hn hx, hd, Option.map_some]
    have e2 : ((live.filter (fun x => x.id ∈ a.map Hit.id)).map fun x => dist x.vec).map some =
        ((live.filter (fun x => x.id ∈ a.map Hit.id)).map Item.id).map g := by
      rw [List.map_map, List.map_map]
      apply List.map_congr_left
      intro x hx
      simp only [Function.comp, g, Live.find_mem hn (List.mem_filter.1 hx).1, Option.map_some]
    have : ((a.map Hit.dist).map some).Perm
        (((live.filter (fun x => x.id ∈ a.map Hit.id)).map fun x => dist x.vec).map some) := by
      rw [e1, e2]; exact (h1.map g).symm
    have h3 := this.filterMap (fun x => x)
    simpa [List.filterMap_map, Function.comp_def] using h3
  refine (h2.append_right _).trans ?_
  rw [← List.map_append]
  apply List.Perm.map
  have := List.filter_append_perm (fun x : Item V M => decide (x.id ∈ a.map Hit.id)) live
  convert this using 4
  rw [decide_not]

/-- The distances of an exact answer do not depend on how ties were broken. -/
theorem dists_unique {dist : V → D} {live live' : List (Item V M)}
    (hn : (Live.idsOf live).Nodup) (hp : live.Perm live') {k : Nat} {a b : List (Hit D M)}
    (ha : IsTopK dist live k a) (hb : IsTopK dist live' k b) :
    a.map Hit.dist = b.map Hit.dist := by
  have hn' : (Live.idsOf live').Nodup := ((hp.map Item.id).nodup_iff).1 hn
  have key : ∀ {live : List (Item V M)} {a : List (Hit D M)}, (Live.idsOf live).Nodup →
      IsTopK dist live k a →
      ∃ r : List D, (a.map Hit.dist ++ r).Pairwise (· ≤ ·) ∧
        (a.map Hit.dist ++ r).Perm (live.map fun x => dist x.vec) := by
    intro live a hn h
    let r0 := (live.filter (fun x => x.id ∉ a.map Hit.id)).map fun x => dist x.vec
    refine ⟨r0.insertionSort (· ≤ ·), ?_, ?_⟩
    · rw [List.pairwise_append]
      refine ⟨?_, List.pairwise_insertionSort _ _, ?_⟩
      · rw [List.pairwise_map]; exact h.sorted
      · intro x hx y hy
        obtain ⟨z, hz, rfl⟩ := List.mem_map.1 hx
        have hy' := (List.perm_insertionSort (· ≤ ·) r0).mem_iff.1 hy
        obtain ⟨w, hw, rfl⟩ := List.mem_map.1 hy'
        obtain ⟨hw1, hw2⟩ := List.mem_filter.1 hw
        exact h.best w hw1 (by simpa using hw2) z hz
    · exact ((List.perm_insertionSort (· ≤ ·) r0).append_left _).trans (h.dists_perm hn)
  obtain ⟨r1, s1, p1⟩ := key hn ha
  obtain ⟨r2, s2, p2⟩ := key hn' hb
  have hperm : (a.map Hit.dist ++ r1).Perm (b.map Hit.dist ++ r2) :=
    p1.trans ((hp.map _).trans p2.symm)
  have heq := hperm.eq_of_pairwise' s1 s2
  have hlen : (a.map Hit.dist).length = (b.map Hit.dist).length := by
    simp [ha.length, hb.length, hp.length_eq]
  exact (List.append_inj heq hlen).1

/-- A result strictly closer than another one of the same answer is in every exact answer. -/
theorem mem_of_lt {dist : V → D} {live live' : List (Item V M)}
    (hn : (Live.idsOf live).Nodup) (hp : live.Perm live') {k : Nat} {a b : List (Hit D M)}
    (ha : IsTopK dist live k a) (hb : IsTopK dist live' k b) {h h' : Hit D M} (hh : h ∈ a)
    (hh' : h' ∈ a) (hlt : h.dist < h'.dist) : h ∈ b := by
  have hn' : (Live.idsOf live').Nodup := ((hp.map Item.id).nodup_iff).1 hn
  have hd := dists_unique hn hp ha hb
  obtain ⟨x, hx, e1, e2, e3⟩ := ha.sound h hh
  have hx' := hp.mem_iff.1 hx
  by_contra hnot
  have : x.id ∈ b.map Hit.id := by
    by_contra hno
    have : h'.dist ∈ b.map Hit.dist := hd ▸ List.mem_map.2 ⟨h', hh', rfl⟩
    obtain ⟨z, hz, ez⟩ := List.mem_map.1 this
    have := hb.best x hx' hno z hz
    rw [ez, ← e2] at this
    exact absurd this (not_le.2 hlt)
  obtain ⟨z, hz, ez⟩ := List.mem_map.1 this
  obtain ⟨y, hy, f1, f2, f3⟩ := hb.sound z hz
  have := Live.eq_of_id hn' hy hx' (f1.trans ez)
  subst this
  apply hnot
  have : z = h := by
    cases z; cases h; simp_all
  exact this ▸ hz

end Spec.IsTopK
end Valori
