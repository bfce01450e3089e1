import Verif.Spec.JsonAccept
import Verif.Props.JsonMeta

/-!
# C239: which metadata is accepted, and what becomes of keys that are no texts
-/

namespace Valori.Props

open Valori Valori.Spec

variable (fr : PyFloat → String)

mutual
theorem via_writable : ∀ {x y : PyObj}, viaJson fr x = some y → Writable x
  | .null, _, _ => .null
  | .bool b, _, _ => .bool b
  | .int i, _, _ => .int i
  | .float x, _, _ => .float x
  | .str s, _, _ => .str s
  | .list xs, _, h => by
    simp only [viaJson, Option.map_eq_some_iff] at h
    obtain ⟨ys, h1, _⟩ := h
    exact .list _ (all_writable h1)
  | .tuple xs, _, h => by
    simp only [viaJson, Option.map_eq_some_iff] at h
    obtain ⟨ys, h1, _⟩ := h
    exact .tuple _ (all_writable h1)
  | .dict items, _, h => by
    simp only [viaJson, Option.map_eq_some_iff] at h
    obtain ⟨ys, h1, _⟩ := h
    exact .dict _ (fun e he => (items_writable h1 e he).1) (fun e he => (items_writable h1 e he).2)
  | .other _, _, h => by simp [viaJson] at h

theorem all_writable : ∀ {xs ys : List PyObj}, viaJsonAll fr xs = some ys → ∀ x ∈ xs, Writable x
  | [], _, _ => by simp
  | x :: xs, _, h => by
    simp only [viaJsonAll] at h
    cases h1 : viaJson fr x with
    | none => simp [h1] at h
    | some y =>
      cases h2 : viaJsonAll fr xs with
      | none => simp [h1, h2] at h
      | some ys =>
        have hx := via_writable h1
        have hxs := all_writable h2
        intro z hz
        rcases List.mem_cons.1 hz with e | hz
        · rw [e]; exact hx
        · exact hxs z hz

theorem items_writable : ∀ {xs ys : List (PyVal × PyObj)}, viaJsonItems fr xs = some ys →
    ∀ e ∈ xs, Writable e.2 ∧ ∀ t, e.1 ≠ .other t
  | [], _, _ => by simp
  | (k, x) :: xs, _, h => by
    simp only [viaJsonItems] at h
    cases h0 : jsonKey fr k with
    | none => simp [h0] at h
    | some s =>
      cases h1 : viaJson fr x with
      | none => simp [h0, h1] at h
      | some y =>
        cases h2 : viaJsonItems fr xs with
        | none => simp [h0, h1, h2] at h
        | some ys =>
          have hx := via_writable h1
          have hxs := items_writable h2
          intro z hz
          rcases List.mem_cons.1 hz with e | hz
          · rw [e]
            refine ⟨hx, fun t ht => ?_⟩
            simp only at ht
            simp [ht, jsonKey] at h0
          · exact hxs z hz
end

theorem writable_via {x : PyObj} (h : Writable x) : ∃ y, viaJson fr x = some y := by
  have hl : ∀ xs : List PyObj, (∀ x ∈ xs, ∃ y, viaJson fr x = some y) → ∃ ys, viaJsonAll fr xs = some ys := by
    intro xs
    induction xs with
    | nil => intro _; exact ⟨[], rfl⟩
    | cons x xs ih =>
      intro h
      obtain ⟨y, hy⟩ := h x List.mem_cons_self
      obtain ⟨ys, hys⟩ := ih fun z hz => h z (List.mem_cons_of_mem _ hz)
      exact ⟨y :: ys, by simp only [viaJsonAll, hy, hys]⟩
  induction h with
  | null => exact ⟨_, rfl⟩
  | bool b => exact ⟨_, rfl⟩
  | int i => exact ⟨_, rfl⟩
  | float x => exact ⟨_, rfl⟩
  | str s => exact ⟨_, rfl⟩
  | list xs _ ih => obtain ⟨ys, h⟩ := hl xs ih; exact ⟨.list ys, by simp [viaJson, h]⟩
  | tuple xs _ ih => obtain ⟨ys, h⟩ := hl xs ih; exact ⟨.list ys, by simp [viaJson, h]⟩
  | dict items _ hk ih =>
    have : ∃ ys, viaJsonItems fr items = some ys := by
      induction items with
      | nil => exact ⟨[], rfl⟩
      | cons e items ih2 =>
        obtain ⟨k, x⟩ := e
        obtain ⟨y, hy⟩ := ih _ List.mem_cons_self
        obtain ⟨ys, hys⟩ := ih2 (fun z hz => ‹∀ e ∈ _, Writable e.2› z (List.mem_cons_of_mem _ hz))
          (fun z hz => hk z (List.mem_cons_of_mem _ hz)) (fun z hz => ih z (List.mem_cons_of_mem _ hz))
        have : ∃ s, jsonKey fr k = some s := by
          cases k with
          | other t => exact absurd rfl (hk _ List.mem_cons_self t)
          | _ => exact ⟨_, rfl⟩
        obtain ⟨s, hs⟩ := this
        exact ⟨(.str s, y) :: ys, by simp only [viaJsonItems, hs, hy, hys]⟩
    obtain ⟨ys, h⟩ := this
    exact ⟨_, by simp [viaJson, h]; rfl⟩

/-- **C239** `validate_metadata` accepts None and exactly the dictionaries with texts for keys and values that can be
written; everything else is refused with its own ValidationError. -/
theorem C239_accepts (m : PyObj) :
    (validateMeta fr m = .ok () ↔
      m = .null ∨ ∃ items, m = .dict items ∧ ∀ e ∈ items, (∃ s, e.1 = .str s) ∧ Writable e.2) ∧
    (validateMeta fr m = .ok () ∨ validateMeta fr m = .error .validation) := by
  have hw : ∀ x, (viaJson fr x).isSome = true ↔ Writable x := fun x =>
    ⟨fun h => (Option.isSome_iff_exists.1 h).elim fun _ e => via_writable fr e,
     fun h => Option.isSome_iff_exists.2 (writable_via fr h)⟩
  cases m with
  | null => exact ⟨⟨fun _ => .inl rfl, fun _ => rfl⟩, .inl rfl⟩
  | dict items =>
    refine ⟨?_, ?_⟩
    · rw [valid_iff]
      simp only [hw, reduceCtorEq, false_or, PyObj.dict.injEq]
      exact ⟨fun h => ⟨_, rfl, h⟩, by rintro ⟨_, rfl, h⟩; exact h⟩
    · simp only [validateMeta]; split
      · exact .inr rfl
      · exact .inl rfl
  | _ => exact ⟨by simp [validateMeta], .inr rfl⟩

/-- **C239** A dictionary inside the metadata with one key that is no text comes back with JSON's text for the key:
`true`, `false` and `null` for True, False and None, the digits for a number.  So such a key never comes back. -/
theorem C239_key_text_refuted (x y : PyObj) (h : viaJson fr x = some y) :
    viaJson fr (.dict [(.bool true, x)]) = some (.dict [(.str "true", y)]) ∧
    viaJson fr (.dict [(.bool false, x)]) = some (.dict [(.str "false", y)]) ∧
    viaJson fr (.dict [(.null, x)]) = some (.dict [(.str "null", y)]) ∧
    (∀ i : Int, viaJson fr (.dict [(.int i, x)]) = some (.dict [(.str (toString i), y)])) ∧
    (∀ z, viaJson fr (.dict [(.float z, x)]) = some (.dict [(.str (fr z), y)])) ∧
    ∀ t, viaJson fr (.dict [(.other t, x)]) = none := by
  refine ⟨?_, ?_, ?_, fun i => ?_, fun z => ?_, fun t => ?_⟩ <;>
    simp [viaJson, viaJsonItems, jsonKey, h, ofPairs, Dict.set]

-- accepted: a tuple and a dictionary with a number for a key; refused: an array, a key that is a number, a list
example : Writable (.dict [(.int 1, .tuple [.int 2, .null])]) ∧
    validateMeta (fun _ => "") (.dict [(.str "a", .dict [(.int 1, .tuple [.int 2, .null])])]) = .ok () ∧
    validateMeta (fun _ => "") (.dict [(.str "a", .other 0)]) = .error .validation ∧
    validateMeta (fun _ => "") (.dict [(.int 1, .null)]) = .error .validation ∧
    validateMeta (fun _ => "") (.list []) = .error .validation := by
  refine ⟨.dict _ (fun e he => ?_) (fun e he => ?_), ?_, ?_, ?_, rfl⟩
  · simp only [List.mem_cons, List.not_mem_nil, or_false] at he
    subst he
    refine .tuple _ fun x hx => ?_
    simp only [List.mem_cons, List.not_mem_nil, or_false] at hx
    rcases hx with rfl | rfl
    · exact .int _
    · exact .null
  · simp only [List.mem_cons, List.not_mem_nil, or_false] at he
    subst he
    simp
  all_goals simp [validateMeta, viaJson, viaJsonItems, viaJsonAll, jsonKey, PyVal.isInstance]

-- `C239_key_text_refuted`: a value that can be written
example : viaJson (fun _ => "") (.tuple [.int 2]) = some (.list [.int 2]) := by simp [viaJson, viaJsonAll]

end Valori.Props
