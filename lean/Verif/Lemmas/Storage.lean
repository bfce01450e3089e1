import Verif.Model.Backend
import Verif.Lemmas.Dict

/-! Refinement of the three backends to the abstract store: helper lemmas. -/

namespace Valori
open Spec (Call Reply Store put)

variable {σ V M : Type}

/-- `B` behaves like the abstract store, for ids in `okId` and metadata in `okM`; `nm` is
the name under which an id is filed. -/
structure Refines (B : Backend σ V M) (volatile : Bool) (scan : List String → List String)
    (nm : Id → Id) (okId : Id → Prop) (okM : M → Prop) where
  inv : σ → Prop
  abs : σ → Store V M
  step : ∀ s c, inv s → (∀ i ∈ c.ids, okId i) → (∀ m ∈ c.metas, okM m) →
    inv (B.call s c).2 ∧
      ((B.call s c).1, abs (B.call s c).2) = Store.step volatile scan (abs s) (c.mapId nm)

namespace Refines
variable {B : Backend σ V M} {volatile : Bool} {scan : List String → List String}
  {nm : Id → Id} {okId : Id → Prop} {okM : M → Prop}

theorem run (R : Refines B volatile scan nm okId okM) (s : σ) (h : List (Call V M))
    (hs : R.inv s) (hi : ∀ c ∈ h, ∀ i ∈ c.ids, okId i) (hm : ∀ c ∈ h, ∀ m ∈ c.metas, okM m) :
    R.inv (B.run s h).2 ∧
      ((B.run s h).1, R.abs (B.run s h).2) =
        Store.run volatile scan (R.abs s) (h.map (Call.mapId nm)) := by
  induction h generalizing s with
  | nil => exact ⟨hs, rfl⟩
  | cons c h ih =>
    have h1 := R.step s c hs (hi c (by simp)) (hm c (by simp))
    have h2 := ih (B.call s c).2 h1.1 (fun c' hc' => hi c' (by simp [hc']))
      (fun c' hc' => hm c' (by simp [hc']))
    refine ⟨h2.1, ?_⟩
    have e1 := h1.2
    have e2 := h2.2
    simp only [Backend.run, List.map_cons, Store.run]
    rw [← e1, ← e2]

end Refines

/-! ## The abstract store is well formed -/

namespace Spec.Store

/-- Order and content describe the same ids, without repetition. -/
def WF (s : Store V M) : Prop := s.order.Nodup ∧ ∀ id, id ∈ s.order ↔ (s.content id).isSome

theorem WF.step {volatile : Bool} {scan : List String → List String} {s : Store V M}
    (h : WF s) (c : Call V M) : WF (step volatile scan s c).2 := by
  obtain ⟨h1, h2⟩ := h
  have hne : ∀ id : String, (s.content id).isSome = false → id ∉ s.order := by
    intro id hid hm; rw [(h2 id).1 hm] at hid; cases hid
  cases c with
  | init => simp only [Store.step]; split <;> simp [WF, empty, h1, h2]
  | close => simp only [Store.step]; split <;> simp [WF, empty, h1, h2]
  | store id v m =>
    simp only [Store.step]
    split
    · exact ⟨h1, h2⟩
    split
    · refine ⟨?_, ?_⟩
      · simp only
        split
        · exact h1
        · rw [List.nodup_append]; simp only [List.nodup_singleton]; grind
      · intro x
        simp only [put]
        by_cases hx : x = id <;> split <;> simp_all
    · exact ⟨h1, h2⟩
  | update id v m =>
    simp only [Store.step]
    split
    · split
      · refine ⟨h1, ?_⟩
        intro x
        simp only [put]
        by_cases hx : x = id
        · subst hx; simp [h2]; assumption
        · simp [hx, h2]
      · exact ⟨h1, h2⟩
    · exact ⟨h1, h2⟩
  | delete id =>
    simp only [Store.step]
    split
    · split
      · refine ⟨h1.erase id, ?_⟩
        intro x
        simp only [put]
        by_cases hx : x = id
        · subst hx; simp [h1.not_mem_erase]
        · simp [hx, ← h2, List.mem_erase_of_ne]
      · exact ⟨h1, h2⟩
    · exact ⟨h1, h2⟩
  | retrieve id => simp only [Store.step]; split <;> exact ⟨h1, h2⟩
  | list l => simp only [Store.step]; split <;> exact ⟨h1, h2⟩
  | count => exact ⟨h1, h2⟩

theorem WF.run {volatile : Bool} {scan : List String → List String} {s : Store V M}
    (h : WF s) (cs : List (Call V M)) : WF (run volatile scan s cs).2 := by
  induction cs generalizing s with
  | nil => exact h
  | cons c cs ih => exact ih (h.step c)

theorem WF.empty (b : Bool) : WF (empty b : Store V M) := by simp [WF, Store.empty]

end Spec.Store

/-! ## Memory -/

namespace Mem
variable [ByteSize V] [ByteSize M]

/-- Content of the two dictionaries. -/
def contentOf (vs : Dict Id V) (ms : Dict Id M) (id : Id) : Option (V × Option M) :=
  match vs.get? id with
  | none => none
  | some v => some (v, ms.get? id)

def abs (s : Mem V M) : Store V M := ⟨s.inited, contentOf s.vectors s.metadata, s.vectors.keys⟩

structure Inv (s : Mem V M) : Prop where
  vnd : s.vectors.keys.Nodup
  mnd : s.metadata.keys.Nodup
  sub : ∀ id ∈ s.metadata.keys, id ∈ s.vectors.keys
  cnt : s.count = s.vectors.length
  use : s.usage = usageOf s.vectors s.metadata

omit [ByteSize V] [ByteSize M] in
theorem putMeta_nodup {ms : Dict Id M} (h : ms.keys.Nodup) (id : Id) (m : Option M) :
    (putMeta ms id m).keys.Nodup := by
  cases m with
  | none => exact Dict.nodup_pop h id
  | some m => exact Dict.nodup_set h id m

omit [ByteSize V] [ByteSize M] in
theorem get?_putMeta {ms : Dict Id M} (h : ms.keys.Nodup) (id x : Id) (m : Option M) :
    (putMeta ms id m).get? x = if x = id then m else ms.get? x := by
  cases m with
  | none => exact Dict.get?_pop h id x
  | some m => exact Dict.get?_set ms id x m

omit [ByteSize V] [ByteSize M] in
theorem content_isSome (vs : Dict Id V) (ms : Dict Id M) (id : Id) :
    (contentOf vs ms id).isSome = vs.mem id := by
  simp only [contentOf, Dict.mem]; cases vs.get? id <;> rfl

omit [ByteSize V] [ByteSize M] in
theorem content_write (vs : Dict Id V) {ms : Dict Id M} (h : ms.keys.Nodup) (id : Id) (v : V)
    (m : Option M) :
    contentOf (vs.set id v) (putMeta ms id m) = put (contentOf vs ms) id (some (v, m)) := by
  funext x
  simp only [contentOf, put, Dict.get?_set, get?_putMeta h]
  by_cases hx : x = id <;> simp [hx]

omit [ByteSize V] [ByteSize M] in
theorem content_erase {vs : Dict Id V} {ms : Dict Id M} (hv : vs.keys.Nodup)
    (h : ms.keys.Nodup) (id : Id) :
    contentOf (vs.pop id) (ms.pop id) = put (contentOf vs ms) id none := by
  funext x
  simp only [contentOf, put, Dict.get?_pop hv, Dict.get?_pop h]
  by_cases hx : x = id <;> simp [hx]

omit [ByteSize V] [ByteSize M] in
theorem sub_write {vs : Dict Id V} {ms : Dict Id M} (id : Id) (v : V) (m : Option M)
    (h : ms.keys.Nodup)
    (hs : ∀ x ∈ ms.keys, x ∈ vs.keys) : ∀ x ∈ (putMeta ms id m).keys, x ∈ (vs.set id v).keys := by
  intro x hx
  rw [Dict.mem_keys, Dict.get?_set]
  rw [Dict.mem_keys, get?_putMeta h] at hx
  by_cases e : x = id
  · simp [e]
  · simp only [e, if_false] at hx ⊢
    rw [← Dict.mem_keys] at hx ⊢; exact hs x hx

theorem store_ready {s : Mem V M} (hi : s.inited = true) {id : Id} (hid : id ≠ "") (v : V)
    (m : Option M) : s.store id v m = (.ok true,
      ⟨s.vectors.set id v, putMeta s.metadata id m, (s.vectors.set id v).length,
        usageOf (s.vectors.set id v) (putMeta s.metadata id m), true⟩) := by
  simp [store, hi, hid]

theorem update_ready {s : Mem V M} (hi : s.inited = true) {id : Id}
    (hm : s.vectors.mem id = true) (v : V) (m : Option M) : s.update id v m = (.ok true,
      ⟨s.vectors.set id v, putMeta s.metadata id m, s.count,
        usageOf (s.vectors.set id v) (putMeta s.metadata id m), true⟩) := by
  simp [update, hi, hm]

theorem update_absent {s : Mem V M} (hi : s.inited = true) {id : Id}
    (hm : s.vectors.mem id = false) (v : V) (m : Option M) :
    s.update id v m = (.ok false, s) := by
  simp [update, hi, hm]

theorem delete_ready {s : Mem V M} (hi : s.inited = true) {id : Id}
    (hm : s.vectors.mem id = true) : s.delete id = (.ok true,
      ⟨s.vectors.pop id, s.metadata.pop id, (s.vectors.pop id).length,
        usageOf (s.vectors.pop id) (s.metadata.pop id), true⟩) := by
  simp [delete, hi, hm]

theorem delete_absent {s : Mem V M} (hi : s.inited = true) {id : Id}
    (hm : s.vectors.mem id = false) : s.delete id = (.ok false, s) := by
  simp [delete, hi, hm]

omit [ByteSize V] [ByteSize M] in
theorem retrieve_ready {s : Mem V M} (hi : s.inited = true) (id : Id) :
    s.retrieve id = (.ok (contentOf s.vectors s.metadata id), s) := by
  simp only [retrieve, hi, contentOf]
  cases s.vectors.get? id <;> simp

theorem Inv.write {s : Mem V M} (h : s.Inv) (id : Id) (v : V) (m : Option M) (b : Bool) :
    Inv ⟨s.vectors.set id v, putMeta s.metadata id m, (s.vectors.set id v).length,
        usageOf (s.vectors.set id v) (putMeta s.metadata id m), b⟩ :=
  ⟨Dict.nodup_set h.vnd id v, putMeta_nodup h.mnd id m, sub_write id v m h.mnd h.sub, rfl, rfl⟩

theorem Inv.erase {s : Mem V M} (h : s.Inv) (id : Id) (b : Bool) :
    Inv ⟨s.vectors.pop id, s.metadata.pop id, (s.vectors.pop id).length,
        usageOf (s.vectors.pop id) (s.metadata.pop id), b⟩ := by
  refine ⟨Dict.nodup_pop h.vnd id, Dict.nodup_pop h.mnd id, ?_, rfl, rfl⟩
  intro x hx
  simp only [Dict.keys_pop] at hx ⊢
  by_cases e : x = id
  · subst e; exact absurd hx h.mnd.not_mem_erase
  · rw [List.mem_erase_of_ne e]
    rw [List.mem_erase_of_ne e] at hx
    exact h.sub x hx

theorem Inv.empty (b : Bool) : Inv (⟨[], [], 0, 0, b⟩ : Mem V M) :=
  ⟨List.nodup_nil, List.nodup_nil, by simp [Dict.keys], rfl, rfl⟩

omit [ByteSize V] [ByteSize M] in
theorem length_set {vs : Dict Id V} {id : Id} (h : vs.mem id = true) (v : V) :
    (vs.set id v).length = vs.length := by
  have hk : id ∈ vs.keys := by rw [Dict.mem_keys]; exact h
  rw [← Dict.length_keys, ← Dict.length_keys, Dict.keys_set, if_pos hk]

theorem step (s : Mem V M) (c : Call V M) (hs : s.Inv) :
    Inv ((memBackend V M).call s c).2 ∧
      (((memBackend V M).call s c).1, abs ((memBackend V M).call s c).2) =
        Store.step true (fun l => l) (abs s) c := by
  cases c with
  | init => exact ⟨Inv.empty true, rfl⟩
  | close => exact ⟨Inv.empty false, rfl⟩
  | store id v m =>
    simp only [Backend.call, memBackend, Store.step]
    by_cases hid : id = ""
    · rw [if_pos hid, show s.store id v m = (.ok false, s) by simp [store, hid]]
      exact ⟨hs, rfl⟩
    · rw [if_neg hid]
      cases hi : s.inited
      · rw [show s.store id v m = (.error .storage, s) by simp [store, hid, hi]]
        exact ⟨hs, by simp [abs, hi, Backend.wrap]⟩
      · rw [store_ready hi hid]
        exact ⟨hs.write id v m true,
          by simp [abs, hi, Backend.wrap, content_write _ hs.mnd, Dict.keys_set]⟩
  | update id v m =>
    simp only [Backend.call, memBackend, Store.step]
    cases hi : s.inited
    · rw [show s.update id v m = (.error .storage, s) by simp [update, hi]]
      exact ⟨hs, by simp [abs, hi, Backend.wrap]⟩
    · cases hm : s.vectors.mem id
      · rw [update_absent hi hm]
        exact ⟨hs, by simp [abs, hi, Backend.wrap, content_isSome, hm]⟩
      · rw [update_ready hi hm]
        have hk : id ∈ s.vectors.keys := by rw [Dict.mem_keys]; exact hm
        refine ⟨⟨Dict.nodup_set hs.vnd id v, putMeta_nodup hs.mnd id m,
          sub_write id v m hs.mnd hs.sub, ?_, rfl⟩, ?_⟩
        · simp only [Backend.wrap]; rw [length_set hm]; exact hs.cnt
        · simp [abs, hi, Backend.wrap, content_isSome, hm, content_write _ hs.mnd,
            Dict.keys_set, hk]
  | delete id =>
    simp only [Backend.call, memBackend, Store.step]
    cases hi : s.inited
    · rw [show s.delete id = (.error .storage, s) by simp [delete, hi]]
      exact ⟨hs, by simp [abs, hi, Backend.wrap]⟩
    · cases hm : s.vectors.mem id
      · rw [delete_absent hi hm]
        exact ⟨hs, by simp [abs, hi, Backend.wrap, content_isSome, hm]⟩
      · rw [delete_ready hi hm]
        exact ⟨hs.erase id true, by simp [abs, hi, Backend.wrap, content_isSome, hm,
          content_erase hs.vnd hs.mnd, Dict.keys_pop]⟩
  | retrieve id =>
    simp only [Backend.call, memBackend, Store.step]
    cases hi : s.inited
    · rw [show s.retrieve id = (.error .storage, s) by simp [retrieve, hi]]
      exact ⟨hs, by simp [abs, hi, Backend.wrap]⟩
    · rw [retrieve_ready hi]
      exact ⟨hs, by simp [abs, hi, Backend.wrap]⟩
  | list l =>
    simp only [Backend.call, memBackend, Store.step]
    cases hi : s.inited
    · rw [show s.list (l.map Int.ofNat) = (.error .storage, s) by simp [list, hi]]
      exact ⟨hs, by simp [abs, hi, Backend.wrap]⟩
    · cases l with
      | none => exact ⟨by simpa [list, hi, Backend.wrap] using hs,
                       by simp [list, abs, hi, Backend.wrap]⟩
      | some n => exact ⟨by simpa [list, hi, Backend.wrap] using hs,
                         by simp [list, abs, hi, Backend.wrap, sliceTo]⟩
  | count =>
    refine ⟨hs, ?_⟩
    cases hi : s.inited <;>
      simp [Backend.call, memBackend, statCount, hi, Store.step, abs, hs.cnt, Dict.length_keys]

end Mem

/-- Memory storage refines the volatile store, for all ids and metadata. -/
def memRefines [ByteSize V] [ByteSize M] :
    Refines (memBackend V M) true (fun l => l) (fun x => x) (fun _ => True) (fun _ => True) where
  inv := Mem.Inv
  abs := Mem.abs
  step s c hs _ _ := by
    have e : c.mapId (fun x => x) = c := by cases c <;> rfl
    rw [e]; exact Mem.step s c hs

end Valori
