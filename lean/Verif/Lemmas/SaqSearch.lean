import Verif.Model.Saq
import Verif.Spec.Saq
import Verif.Lemmas.Index
import Verif.Lemmas.Scalar

/-!
# Lemmas about the rescoring search
-/

namespace Valori
open Spec

variable {V C D : Type} [LinearOrder D]

theorem sliceTo_nat {α : Type} (l : List α) (k : Nat) : sliceTo l (k : Int) = l.take k := by
  simp [sliceTo]

theorem mapE_get (full : List V) (cands : List Nat) (h : ∀ i ∈ cands, i < full.length) :
    ∃ vs, mapE (fullAt full) cands = .ok vs ∧
      vs.map some = cands.map fun i => full[i]? := by
  induction cands with
  | nil => exact ⟨[], rfl, rfl⟩
  | cons i cands ih =>
    obtain ⟨vs, h1, h2⟩ := ih fun j hj => h j (by simp [hj])
    have hi := h i (by simp)
    refine ⟨full[i] :: vs, ?_, ?_⟩
    · simp [mapE, fullAt, h1, List.getElem?_eq_getElem hi]
    · simp [h2, List.getElem?_eq_getElem hi]

theorem saqRescore_spec (argsort : List D → List Nat) (ha : IsArgsort argsort) (dist : V → D)
    (full : List V) (cands : List Nat) (hn : cands.Nodup) (hc : ∀ i ∈ cands, i < full.length)
    (k : Nat) :
    ∃ hits, saqRescore argsort dist full cands (k : Int) = .ok hits ∧
      IsTopIdx (fun i => full[i]?.map dist) cands k hits := by
  obtain ⟨vs, h1, h2⟩ := mapE_get full cands hc
  have hds : (vs.map dist).map some = cands.map fun i => full[i]?.map dist := by
    have := congrArg (List.map (Option.map dist)) h2
    simpa [List.map_map, Function.comp_def] using this
  have hlen : (vs.map dist).length = cands.length := by
    have := congrArg List.length hds
    simpa using this
  set ds := vs.map dist with hdsdef
  obtain ⟨hp, hs⟩ := ha ds
  set p := argsort ds with hpdef
  have hdget : ∀ (t : Nat) (ht : t < cands.length),
      full[cands[t]]?.map dist = some (ds[t]'(by omega)) := by
    intro t ht
    have := congrArg (fun l => l[t]?) hds
    simp only [List.getElem?_map] at this
    rw [List.getElem?_eq_getElem (by omega : t < ds.length), List.getElem?_eq_getElem ht] at this
    simpa using this.symm
  set f : Nat → Option (Nat × D) := hitAt cands ds with hf
  have hfget : ∀ (t : Nat) (ht : t < cands.length), f t = some (cands[t], ds[t]'(by omega)) := by
    intro t ht
    simp only [hf, hitAt]
    rw [List.getElem?_eq_getElem ht, List.getElem?_eq_getElem (by omega : t < ds.length)]
  have hmem : ∀ t, t ∈ p ↔ t < cands.length := by
    intro t; rw [hp.mem_iff, List.mem_range, hlen]
  have hpn : p.Nodup := hp.nodup_iff.2 List.nodup_range
  have hpl : p.length = cands.length := by rw [hp.length_eq, List.length_range, hlen]
  -- facts about any part of p
  have hfm : ∀ l : List Nat, (∀ t ∈ l, t < cands.length) → (l.filterMap f).length = l.length := by
    intro l hl
    induction l with
    | nil => rfl
    | cons t l ih =>
      rw [List.filterMap_cons_some (hfget t (hl t (by simp)))]
      simp [ih fun s hs => hl s (by simp [hs])]
  have htake : ∀ t ∈ p.take k, t < cands.length :=
    fun t ht => (hmem t).1 (List.mem_of_mem_take ht)
  refine ⟨(p.take k).filterMap f, ?_, ?_, ?_, ?_, ?_, ?_⟩
  · unfold saqRescore
    rw [h1]
    simp only [sliceTo_nat]
    rfl
  · rw [hfm _ htake, List.length_take, hpl]
  · have hnk : (p.take k).Nodup := hpn.sublist (List.take_sublist _ _)
    rw [List.map_filterMap]
    refine hnk.filterMap ?_
    intro a b x ha hb
    simp only [Option.mem_def, Option.map_eq_some_iff] at ha hb
    obtain ⟨⟨i, d⟩, ha, rfl⟩ := ha
    obtain ⟨⟨i', d'⟩, hb, hii⟩ := hb
    simp only at hii
    subst hii
    by_cases hal : a < cands.length
    · by_cases hbl : b < cands.length
      · rw [hfget a hal] at ha
        rw [hfget b hbl] at hb
        simp only [Option.some.injEq, Prod.mk.injEq] at ha hb
        exact (hn.getElem_inj_iff (hi := hal) (hj := hbl)).1 (ha.1.trans hb.1.symm)
      · simp [hf, hitAt, List.getElem?_eq_none (not_lt.1 hbl)] at hb
    · simp [hf, hitAt, List.getElem?_eq_none (not_lt.1 hal)] at ha
  · rw [List.pairwise_filterMap]
    have hsk : (p.take k).Pairwise _ := hs.sublist (List.take_sublist _ _)
    refine hsk.imp ?_
    intro a b hab x hx y hy
    have key : ∀ t z, f t = some z → ds[t]? = some z.2 := by
      intro t z hz
      simp only [hf, hitAt] at hz
      split at hz
      · rename_i i d h3 h4
        obtain rfl := Option.some.inj hz
        exact h4
      · simp at hz
    exact hab _ _ (key _ _ hx) (key _ _ hy)
  · intro h hh
    obtain ⟨t, ht, hft⟩ := List.mem_filterMap.1 hh
    have htl := htake t ht
    rw [hfget t htl] at hft
    obtain rfl := Option.some.inj hft
    exact ⟨List.getElem_mem htl, hdget t htl⟩
  · intro i hi hni d hd h hh
    obtain ⟨t, ht, rfl⟩ := List.getElem_of_mem hi
    obtain ⟨u, hu, hfu⟩ := List.mem_filterMap.1 hh
    have hul := htake u hu
    rw [hfget u hul] at hfu
    obtain rfl := Option.some.inj hfu
    rw [hdget t ht] at hd
    obtain rfl := Option.some.inj hd
    have htp : t ∈ p.drop k := by
      have := (hmem t).2 ht
      rw [← List.take_append_drop k p, List.mem_append] at this
      rcases this with h | h
      · exact absurd (List.mem_map.2 ⟨_, List.mem_filterMap.2 ⟨t, h, hfget t ht⟩, rfl⟩) hni
      · exact h
    have hs' := hs
    rw [← List.take_append_drop k p, List.pairwise_append] at hs'
    exact hs'.2.2 u hu t htp _ _ (List.getElem?_eq_getElem (by omega))
      (List.getElem?_eq_getElem (by omega))

theorem saqInitial_spec (argsort : List D → List Nat) (ha : IsArgsort argsort)
    (cdist : C → Except Err D) (codes : List C) (hc : ∀ c ∈ codes, ∃ d, cdist c = .ok d) (r : Nat) :
    ∃ cands, saqInitial argsort cdist (r : Int) codes = .ok cands ∧ cands.Nodup ∧
      (∀ i ∈ cands, i < codes.length) ∧ cands.length = min r codes.length := by
  have : ∃ ds, mapE cdist codes = .ok ds ∧ ds.length = codes.length := by
    clear ha
    induction codes with
    | nil => exact ⟨[], rfl, rfl⟩
    | cons c codes ih =>
      obtain ⟨d, h1⟩ := hc c (by simp)
      obtain ⟨ds, h2, h3⟩ := ih fun x hx => hc x (by simp [hx])
      exact ⟨d :: ds, by simp [mapE, h1, h2], by simp [h3]⟩
  obtain ⟨ds, h1, h2⟩ := this
  obtain ⟨hp, -⟩ := ha ds
  refine ⟨(argsort ds).take r, ?_, ?_, ?_, ?_⟩
  · unfold saqInitial; rw [h1]; simp [sliceTo_nat]
  · exact (hp.nodup_iff.2 List.nodup_range).sublist (List.take_sublist _ _)
  · intro i hi
    have := hp.mem_iff.1 (List.mem_of_mem_take hi)
    rw [← h2]; exact List.mem_range.1 this
  · rw [List.length_take, hp.length_eq, List.length_range, h2]

end Valori
