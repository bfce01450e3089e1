import Verif.Model.HeapDb
import Verif.Spec.SharedObjects
import Verif.Spec.Approximate
import Verif.Props.ClientIndices

/-!
# Lemmas for clients that share metadata dictionaries (C232)
-/

namespace Valori.Obj
open Valori.Spec

variable {V M N D C : Type}

section natural
variable {g : Option M → Option N}

theorem has_withMd (l : List (Item V M)) (id : String) :
    Live.has (l.map (Item.withMd g)) id = Live.has l id := by
  simp only [Live.has, List.any_map]
  rfl

theorem remove_withMd (l : List (Item V M)) (id : String) :
    Live.remove (l.map (Item.withMd g)) id = (Live.remove l id).map (Item.withMd g) := by
  simp only [Live.remove, List.filter_map]
  rfl

theorem removeAll_withMd (ids : List String) : ∀ l : List (Item V M),
    Live.removeAll (l.map (Item.withMd g)) ids =
      ((Live.removeAll l ids).1, (Live.removeAll l ids).2.map (Item.withMd g)) := by
  induction ids with
  | nil => intro l; rfl
  | cons id ids ih => intro l; simp [Live.removeAll, remove_withMd, ih, has_withMd]

theorem replace_withMd (l : List (Item V M)) (id : String) (v : V) (m : Option M) :
    Live.replace (l.map (Item.withMd g)) id v (g m) = (Live.replace l id v m).map (Item.withMd g) := by
  simp only [Live.replace, List.map_map]
  apply List.map_congr_left
  intro x _
  simp only [Function.comp, Item.withMd]
  split <;> simp [*]

theorem items_withMd (hg : g none = none) (ms : Option (List (Option M))) (rows : List (String × V)) :
    ∀ i, Live.items (ms.map (List.map g)) i rows = (Live.items ms i rows).map (Item.withMd g) := by
  induction rows with
  | nil => intro i; rfl
  | cons r rows ih =>
    intro i
    simp only [Live.items, ih, List.map_cons, Item.withMd]
    congr 2
    cases ms with
    | none => exact hg.symm
    | some l =>
      simp only [Option.map_some, Live.mdAt, List.getElem?_map]
      cases l[i]? with
      | none => exact hg.symm
      | some x => rfl

theorem next_withMd (hg : g none = none) (l : List (Item V M)) (c : IxCall V M) :
    Live.next (l.map (Item.withMd g)) (c.withMd g) = (Live.next l c).map (Item.withMd g) := by
  cases c with
  | insert nd rows ms =>
    simp only [IxCall.withMd, Live.next, items_withMd hg]
    split <;> simp
  | delete ids => simp [IxCall.withMd, Live.next, removeAll_withMd]
  | update id v m => simp [IxCall.withMd, Live.next, replace_withMd]
  | search nd q k => rfl

theorem dbNext_withMd (hg : g none = none) (vol : Bool) (db : Db V M) (x : ClCall (IxCall V M)) :
    Db.next vol (db.withMd g) (x.withMd g) = (Db.next vol db x).withMd g := by
  obtain ⟨o, l⟩ := db
  cases x with
  | init => cases vol <;> rfl
  | close => cases vol <;> rfl
  | request c =>
    cases o
    · rfl
    · simp only [Db.next, Db.withMd, ClCall.withMd, if_true, next_withMd hg]

theorem callOk_withMd {l : List (Item V M)} {c : IxCall V M}
    (h : Live.CallOk (fun _ => True) (fun _ => True) (l.map (Item.withMd g)) (c.withMd g)) :
    Live.CallOk (fun _ => True) (fun _ => True) l c := by
  cases c with
  | insert nd rows ms =>
    obtain ⟨h1, h2, -⟩ := h
    exact ⟨h1, fun r hr => by have := h2 r hr; rwa [has_withMd] at this, fun _ _ _ _ => trivial⟩
  | delete ids => exact fun _ _ => trivial
  | update id v m => exact ⟨trivial, fun _ _ => trivial⟩
  | search nd q k => trivial

end natural

/-! ## Copies -/

theorem read_none (h : List C) : read h none = none := rfl

theorem read_append {h e : List C} {m : Option Nat} (hm : ∀ a, m = some a → a < h.length) :
    read (h ++ e) m = read h m := by
  cases m with
  | none => rfl
  | some a => exact List.getElem?_append_left (hm a rfl)

theorem copy_spec (src h : List C) (m : Option Nat) : ∃ e, (copy src h m).2 = h ++ e ∧
    read (copy src h m).2 (copy src h m).1 = read src m ∧
    ∀ a, (copy src h m).1 = some a → h.length ≤ a ∧ a < (copy src h m).2.length := by
  unfold copy
  cases hr : read src m with
  | none => exact ⟨[], by simp, by simp [read], by simp⟩
  | some c => exact ⟨[c], rfl, by simp [read], by simp⟩

theorem copyAll_spec (src : List C) (ms : List (Option Nat)) : ∀ h : List C, ∃ e,
    (copyAll src h ms).2 = h ++ e ∧
    (copyAll src h ms).1.map (read (copyAll src h ms).2) = ms.map (read src) ∧
    ∀ a, some a ∈ (copyAll src h ms).1 → h.length ≤ a ∧ a < (copyAll src h ms).2.length := by
  induction ms with
  | nil => intro h; exact ⟨[], by simp [copyAll], rfl, by simp [copyAll]⟩
  | cons m ms ih =>
    intro h
    obtain ⟨e1, a1, a2, a3⟩ := copy_spec src h m
    obtain ⟨e2, b1, b2, b3⟩ := ih (copy src h m).2
    have hlen : (copy src h m).2.length ≤ (copyAll src (copy src h m).2 ms).2.length := by rw [b1]; simp
    have hlen0 : h.length ≤ (copy src h m).2.length := by rw [a1]; simp
    refine ⟨e1 ++ e2, by simp only [copyAll]; rw [b1, a1, List.append_assoc], ?_, ?_⟩
    · simp only [copyAll, List.map_cons]
      have hh : read (copyAll src (copy src h m).2 ms).2 (copy src h m).1 = read src m := by
        rw [b1, read_append (fun a ha => (a3 a ha).2), a2]
      rw [hh, b2]
    · intro a ha
      simp only [copyAll, List.mem_cons] at ha ⊢
      rcases ha with ha | ha
      · have := a3 a ha.symm; omega
      · have := b3 a ha; omega

/-- The metadata named in a call. -/
def mdsOf : ClCall (IxCall V Nat) → List (Option Nat)
  | .request (.insert _ _ (some ms)) => ms
  | .request (.update _ _ m) => [m]
  | _ => []

theorem copyCall_spec (h : List C) (x : ClCall (IxCall V Nat)) : ∃ e, (copyCall h x).2 = h ++ e ∧
    (copyCall h x).1.withMd (read (copyCall h x).2) = x.withMd (read h) ∧
    ∀ a, some a ∈ mdsOf (copyCall h x).1 → h.length ≤ a ∧ a < (copyCall h x).2.length := by
  cases x with
  | init => exact ⟨[], by simp [copyCall], rfl, by simp [copyCall, mdsOf]⟩
  | close => exact ⟨[], by simp [copyCall], rfl, by simp [copyCall, mdsOf]⟩
  | request c =>
    cases c with
    | insert nd rows ms =>
      cases ms with
      | none => exact ⟨[], by simp [copyCall, copyReq], rfl, by simp [copyCall, copyReq, mdsOf]⟩
      | some ms =>
        obtain ⟨e, a1, a2, a3⟩ := copyAll_spec h ms h
        exact ⟨e, a1, by simp [copyCall, copyReq, ClCall.withMd, IxCall.withMd, a2], a3⟩
    | update id v m =>
      obtain ⟨e, a1, a2, a3⟩ := copy_spec h h m
      refine ⟨e, a1, by simp [copyCall, copyReq, ClCall.withMd, IxCall.withMd, a2], ?_⟩
      intro a ha
      simp only [copyCall, copyReq, mdsOf, List.mem_singleton] at ha
      exact a3 a ha.symm
    | delete ids => exact ⟨[], by simp [copyCall, copyReq], rfl, by simp [copyCall, copyReq, mdsOf]⟩
    | search nd q k => exact ⟨[], by simp [copyCall, copyReq], rfl, by simp [copyCall, copyReq, mdsOf]⟩

theorem mem_items {ms : Option (List (Option Nat))} (rows : List (String × V)) :
    ∀ i, ∀ x ∈ Live.items ms i rows, ∀ a, x.md = some a → ∃ l, ms = some l ∧ some a ∈ l := by
  induction rows with
  | nil => intro i x hx; simp [Live.items] at hx
  | cons r rows ih =>
    intro i x hx a ha
    simp only [Live.items, List.mem_cons] at hx
    rcases hx with rfl | hx
    · simp only [Live.mdAt] at ha
      cases ms with
      | none => simp at ha
      | some l =>
        refine ⟨l, rfl, ?_⟩
        simp only at ha
        rcases hl : l[i]? with _ | y
        · rw [hl] at ha; simp at ha
        · rw [hl] at ha
          simp only [Option.join_some] at ha
          rw [← ha]
          exact List.mem_of_getElem? hl
    · exact ih _ x hx a ha

theorem removeAll_mem (ids : List String) : ∀ (l : List (Item V M)), ∀ x ∈ (Live.removeAll l ids).2,
    x ∈ l := by
  induction ids with
  | nil => intro l x hx; exact hx
  | cons id ids ih =>
    intro l x hx
    exact (List.mem_filter.1 (ih _ x hx)).1

theorem mem_removeAll (ids : List String) : ∀ (l : List (Item V M)), ∀ x ∈ l, x.id ∉ ids →
    x ∈ (Live.removeAll l ids).2 := by
  induction ids with
  | nil => intro l x hx _; exact hx
  | cons id ids ih =>
    intro l x hx hid
    simp only [List.mem_cons, not_or] at hid
    exact ih _ x (List.mem_filter.2 ⟨hx, by simpa using hid.1⟩) hid.2

/-- Metadata in the database was there before or is named in the call. -/
theorem mem_next {vol : Bool} {db : Db V Nat} {x : ClCall (IxCall V Nat)} :
    ∀ y ∈ (Db.next vol db x).live, ∀ a, y.md = some a →
      (∃ z ∈ db.live, z.md = some a) ∨ some a ∈ mdsOf x := by
  intro y hy a ha
  obtain ⟨o, l⟩ := db
  cases x with
  | init => cases vol <;> simp [Db.next] at hy; exact .inl ⟨y, hy, ha⟩
  | close => cases vol <;> simp [Db.next] at hy; exact .inl ⟨y, hy, ha⟩
  | request c =>
    cases o
    · exact .inl ⟨y, hy, ha⟩
    · simp only [Db.next, if_true] at hy
      cases c with
      | insert nd rows ms =>
        simp only [Live.next] at hy
        split at hy
        · rcases List.mem_append.1 hy with hy | hy
          · exact .inl ⟨y, hy, ha⟩
          · obtain ⟨l, rfl, hm⟩ := mem_items rows 0 y hy a ha
            exact .inr hm
        · exact .inl ⟨y, hy, ha⟩
      | delete ids => exact .inl ⟨y, removeAll_mem ids l y hy, ha⟩
      | update id v m =>
        simp only [Live.next, Live.replace, List.mem_map] at hy
        obtain ⟨z, hz, rfl⟩ := hy
        split at ha
        · exact .inr (by simp only at ha; simp [mdsOf, ha])
        · exact .inl ⟨z, hz, ha⟩
      | search nd q k => exact .inl ⟨y, hy, ha⟩

/-- An item left alone stays. -/
theorem leaves_mem {vol : Bool} {db : Db V M} {x : ClCall (IxCall V M)} {y : Item V M}
    (hl : LeavesItem y.id x) (hy : y ∈ db.live) : y ∈ (Db.next vol db x).live := by
  obtain ⟨o, l⟩ := db
  cases x with
  | init => exact hl.elim
  | close => exact hl.elim
  | request c =>
    cases o
    · exact hy
    · simp only [Db.next, if_true]
      cases c with
      | insert nd rows ms =>
        simp only [Live.next]
        split
        · exact List.mem_append_left _ hy
        · exact hy
      | delete ids => exact mem_removeAll ids l y hy hl
      | update id v m =>
        refine List.mem_map.2 ⟨y, hy, if_neg ?_⟩
        exact fun h => hl h.symm
      | search nd q k => exact hy

end Valori.Obj
