import Verif.Model.Py
import Mathlib.Data.List.Nodup

/-! Lemmas about insertion-ordered dictionaries. -/

namespace Valori.Dict
variable {κ α : Type _} [DecidableEq κ]

@[simp] theorem get?_nil (k : κ) : get? ([] : Dict κ α) k = none := rfl

theorem get?_set (d : Dict κ α) (k k' : κ) (a : α) :
    (d.set k a).get? k' = if k' = k then some a else d.get? k' := by
  induction d with
  | nil => simp only [set, get?]; grind
  | cons e d ih => obtain ⟨x, b⟩ := e; simp only [set]; grind [get?]

@[simp] theorem get?_set_self (d : Dict κ α) (k : κ) (a : α) : (d.set k a).get? k = some a := by
  simp [get?_set]

theorem get?_pop_ne (d : Dict κ α) {k k' : κ} (h : k' ≠ k) :
    (d.pop k).get? k' = d.get? k' := by
  induction d with
  | nil => rfl
  | cons e d ih => obtain ⟨x, b⟩ := e; simp only [pop]; grind [get?]

theorem mem_keys (d : Dict κ α) (k : κ) : k ∈ d.keys ↔ (d.get? k).isSome := by
  induction d with
  | nil => simp [keys]
  | cons e d ih =>
    obtain ⟨x, b⟩ := e
    simp only [keys, List.map_cons, List.mem_cons, get?] at *
    grind

theorem mem_eq (d : Dict κ α) (k : κ) : d.mem k = (d.get? k).isSome := rfl

theorem get?_eq_none (d : Dict κ α) (k : κ) : d.get? k = none ↔ k ∉ d.keys := by
  rw [mem_keys]; simp

theorem keys_set (d : Dict κ α) (k : κ) (a : α) :
    (d.set k a).keys = if k ∈ d.keys then d.keys else d.keys ++ [k] := by
  induction d with
  | nil => simp [set, keys]
  | cons e d ih =>
    obtain ⟨x, b⟩ := e
    simp only [set]
    split
    · next h => simp [keys, h]
    · next h =>
      simp only [keys, List.map_cons, List.mem_cons] at *
      rw [ih]; grind

theorem keys_pop (d : Dict κ α) (k : κ) : (d.pop k).keys = d.keys.erase k := by
  induction d with
  | nil => simp [pop, keys]
  | cons e d ih =>
    obtain ⟨x, b⟩ := e
    simp only [pop, keys, List.map_cons] at *
    rw [List.erase_cons]
    split
    · next h => simp [h]
    · next h => simp [h, ih]

theorem nodup_set {d : Dict κ α} (h : d.keys.Nodup) (k : κ) (a : α) :
    (d.set k a).keys.Nodup := by
  rw [keys_set]; split
  · exact h
  · next hk => rw [List.nodup_append]; simp only [List.nodup_singleton]; grind

theorem nodup_pop {d : Dict κ α} (h : d.keys.Nodup) (k : κ) : (d.pop k).keys.Nodup := by
  rw [keys_pop]; exact h.erase k

theorem get?_pop {d : Dict κ α} (h : d.keys.Nodup) (k k' : κ) :
    (d.pop k).get? k' = if k' = k then none else d.get? k' := by
  split
  · next e =>
    subst e
    rw [get?_eq_none, keys_pop]
    exact h.not_mem_erase
  · next e => exact get?_pop_ne d e

theorem length_keys (d : Dict κ α) : d.keys.length = d.length := by simp [keys]

theorem pop_of_not_mem {d : Dict κ α} {k : κ} (h : k ∉ d.keys) : d.pop k = d := by
  induction d with
  | nil => rfl
  | cons e d ih =>
    obtain ⟨x, b⟩ := e
    simp only [keys, List.map_cons, List.mem_cons, not_or] at h
    simp only [pop]
    rw [if_neg (fun e => h.1 e.symm), ih h.2]

theorem get?_of_mem {d : Dict κ α} (h : d.keys.Nodup) {k : κ} {a : α} (hm : (k, a) ∈ d) :
    d.get? k = some a := by
  induction d with
  | nil => simp at hm
  | cons e d ih =>
    obtain ⟨x, b⟩ := e
    simp only [keys, List.map_cons, List.nodup_cons] at h
    simp only [get?]
    rcases List.mem_cons.1 hm with h1 | h1
    · grind
    · have : x ≠ k := by
        rintro rfl; exact h.1 (List.mem_map.2 ⟨_, h1, rfl⟩)
      rw [if_neg this]; exact ih h.2 h1

theorem mem_of_get? {d : Dict κ α} {k : κ} {a : α} (h : d.get? k = some a) : (k, a) ∈ d := by
  induction d with
  | nil => simp at h
  | cons e d ih => obtain ⟨x, b⟩ := e; simp only [get?] at h; grind

end Valori.Dict
