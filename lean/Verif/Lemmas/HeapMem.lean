import Verif.Model.HeapMem
import Verif.Lemmas.Dict

/-!
# Objects of the storage and objects of the caller
-/

namespace Valori
open Spec (Call Reply Store)

variable {A : Type}

namespace Heap

/-- Object `a` is an array. -/
def IsArr (h : Heap A) (a : Nat) : Prop := ∃ l, h[a]? = some (.arr l)

/-- Object `a` is a dictionary without references to mutable objects. -/
def IsFlat (h : Heap A) (a : Nat) : Prop :=
  ∃ d : Dict String (HVal A), h[a]? = some (.dict d) ∧ ∀ e ∈ d, ∃ x, e.2 = .atom x

theorem IsArr.lt {h : Heap A} {a : Nat} (x : h.IsArr a) : a < h.length := by
  obtain ⟨l, e⟩ := x
  exact (List.getElem?_eq_some_iff.1 e).1

theorem IsFlat.lt {h : Heap A} {a : Nat} (x : h.IsFlat a) : a < h.length := by
  obtain ⟨d, e, _⟩ := x
  exact (List.getElem?_eq_some_iff.1 e).1

theorem IsArr.congr {h h' : Heap A} {a : Nat} (e : h'[a]? = h[a]?) (x : h.IsArr a) :
    h'.IsArr a ∧ h'.readArr a = h.readArr a := by
  obtain ⟨l, x⟩ := x
  exact ⟨⟨l, e.trans x⟩, by simp [readArr, e]⟩

theorem IsFlat.read {h : Heap A} {d : Dict String (HVal A)} (f : ∀ e ∈ d, ∃ x, e.2 = .atom x)
    (h' : Heap A) : d.map (fun e => (e.1, readVal h' e.2)) = d.map (fun e => (e.1, readVal h e.2)) := by
  apply List.map_congr_left
  intro e he
  obtain ⟨x, hx⟩ := f e he
  simp [hx, readVal]

theorem IsFlat.congr' {h h' : Heap A} {a b : Nat} (e : h'[b]? = h[a]?) (x : h.IsFlat a) :
    h'.IsFlat b ∧ h'.readDict b = h.readDict a := by
  obtain ⟨d, x, f⟩ := x
  refine ⟨⟨d, e.trans x, f⟩, ?_⟩
  simp only [readDict, e, x]
  exact IsFlat.read f _

theorem IsArr.congr' {h h' : Heap A} {a b : Nat} (e : h'[b]? = h[a]?) (x : h.IsArr a) :
    h'.IsArr b ∧ h'.readArr b = h.readArr a := by
  obtain ⟨l, x⟩ := x
  exact ⟨⟨l, e.trans x⟩, by simp [readArr, e]⟩

theorem copy_old (h : Heap A) (a : Nat) {b : Nat} (hb : b < h.length) :
    (h.copy a).2[b]? = h[b]? := by
  simp [copy, List.getElem?_append_left hb]

theorem copy_new (h : Heap A) {a : Nat} (ha : a < h.length) :
    (h.copy a).2[(h.copy a).1]? = h[a]? := by
  simp [copy, List.getElem?_eq_getElem ha]

theorem copy_fst (h : Heap A) (a : Nat) : (h.copy a).1 = h.length := rfl

theorem copy_length (h : Heap A) (a : Nat) : (h.copy a).2.length = h.length + 1 := by
  simp [copy]

end Heap

namespace HMem

/-- The objects the caller may change: those they made, and the vectors they were given. -/
def owned (own : List Nat) (s : HMem A) (c : HCall A) : List Nat :=
  match c with
  | .new _ => s.heap.length :: own
  | .retrieve id =>
    match (s.retrieve id).1 with
    | .found (some (v, _)) => v :: own
    | _ => own
  | _ => own

/-- An action that changes only objects of the caller, and stores only arrays and dictionaries
of immutable values. -/
def Polite1 (own : List Nat) (s : HMem A) : HCall A → Prop
  | .write a _ => a ∈ own
  | .store _ v m => s.heap.IsArr v ∧ ∀ a, m = some a → s.heap.IsFlat a
  | .update _ v m => s.heap.IsArr v ∧ ∀ a, m = some a → s.heap.IsFlat a
  | _ => True

/-- A program of such actions. -/
def Polite (own : List Nat) (s : HMem A) : List (HCall A) → Prop
  | [] => True
  | c :: cs => Polite1 own s c ∧ Polite (owned own s c) (s.call c).2 cs

/-- What the storage holds under an id, as values. -/
def look (s : HMem A) (id : Id) : Option (HV A × Option (HM A)) :=
  (s.vectors.get? id).map
    (fun a => (s.heap.readArr a, (s.metadata.get? id).map s.heap.readDict))

/-- The storage's objects exist, are of the right kind, and are not the caller's. -/
structure Sep (own : List Nat) (s : HMem A) : Prop where
  vec : ∀ id a, s.vectors.get? id = some a → s.heap.IsArr a ∧ a ∉ own
  md : ∀ id a, s.metadata.get? id = some a → s.heap.IsFlat a ∧ a ∉ own
  own : ∀ a ∈ own, a < s.heap.length
  nv : s.vectors.keys.Nodup
  nm : s.metadata.keys.Nodup

/-- The storage stands for an abstract store. -/
structure Stands (s : HMem A) (t : Store (HV A) (HM A)) : Prop where
  isOpen : t.isOpen = s.inited
  content : t.content = s.look
  order : t.order = s.vectors.keys
  count : s.count = s.vectors.length

/-- A change of the heap that leaves the storage's objects alone. -/
theorem Sep.heap {own own' : List Nat} {s : HMem A} (x : Sep own s) (h : Heap A)
    (e : ∀ a, a < s.heap.length → a ∉ own → h[a]? = s.heap[a]?)
    (sub : ∀ a ∈ own', a < h.length ∧ (a ∈ own ∨ s.heap.length ≤ a)) :
    Sep own' { s with heap := h } ∧ ({ s with heap := h } : HMem A).look = s.look := by
  refine ⟨⟨?_, ?_, fun a ha => (sub a ha).1, x.nv, x.nm⟩, ?_⟩
  · intro id a g
    obtain ⟨f, no⟩ := x.vec id a g
    refine ⟨(f.congr' (e a f.lt no)).1, fun m => ?_⟩
    rcases (sub a m).2 with m | m
    · exact no m
    · exact absurd f.lt (by omega)
  · intro id a g
    obtain ⟨f, no⟩ := x.md id a g
    refine ⟨(f.congr' (e a f.lt no)).1, fun m => ?_⟩
    rcases (sub a m).2 with m | m
    · exact no m
    · exact absurd f.lt (by omega)
  · funext id
    simp only [look]
    rcases hv : s.vectors.get? id with _ | a
    · rfl
    · obtain ⟨f, no⟩ := x.vec id a hv
      have e1 := (f.congr' (e a f.lt no)).2
      rcases hm : s.metadata.get? id with _ | b
      · simp [e1]
      · obtain ⟨f', no'⟩ := x.md id b hm
        simp [e1, (f'.congr' (e b f'.lt no')).2]

/-- A write keeps the objects apart, and the storage then holds the written values. -/
theorem Sep.put {own : List Nat} {s : HMem A} (x : Sep own s) (id : Id) (v : Nat)
    (m : Option Nat) (hv : s.heap.IsArr v) (hm : ∀ a, m = some a → s.heap.IsFlat a) :
    Sep own (s.put id v m) ∧ (s.put id v m).look =
      Spec.put s.look id (some (s.heap.readArr v, m.map s.heap.readDict)) := by
  have cp := hv.congr' (s.heap.copy_new hv.lt)
  cases m with
  | none =>
    obtain ⟨x1, l1⟩ := x.heap (own' := own) (s.heap.copy v).2 (fun a ha _ => s.heap.copy_old v ha)
      (fun a ha => ⟨by have := x.own a ha; simp [Heap.copy_length]; omega, .inl ha⟩)
    refine ⟨⟨?_, ?_, x1.own, Dict.nodup_set x.nv _ _, Dict.nodup_pop x.nm _⟩, ?_⟩
    · intro id' a g
      simp only [HMem.put, Dict.get?_set] at g ⊢
      split at g
      · obtain rfl : (s.heap.copy v).1 = a := by simpa using g
        refine ⟨cp.1, fun mm => ?_⟩
        have := x.own _ mm
        simp [Heap.copy_fst] at this
      · exact x1.vec id' a g
    · intro id' a g
      simp only [HMem.put, Dict.get?_pop x.nm] at g ⊢
      split at g
      · simp at g
      · exact x1.md id' a g
    · funext id'
      have l2 := congrFun l1 id'
      simp only [look] at l2
      simp only [look, HMem.put, Dict.get?_set, Dict.get?_pop x.nm, Spec.put]
      by_cases h : id' = id
      · simp [h, cp.2]
      · simpa [h] using l2
  | some b =>
    have hb := hm b rfl
    set h1 := (s.heap.copy v).2 with hh1
    have hb1 : h1.IsFlat b ∧ h1.readDict b = s.heap.readDict b :=
      hb.congr' (s.heap.copy_old v hb.lt)
    have cpb := hb1.1.congr' (h1.copy_new hb1.1.lt)
    have len : h1.length = s.heap.length + 1 := Heap.copy_length _ _
    obtain ⟨x1, l1⟩ := x.heap (own' := own) (h1.copy b).2
      (fun a ha _ => by rw [h1.copy_old b (by omega), hh1, s.heap.copy_old v ha])
      (fun a ha => ⟨by have := x.own a ha; simp [Heap.copy_length, len]; omega, .inl ha⟩)
    have cpv := cp.1.congr' (h1.copy_old b cp.1.lt)
    refine ⟨⟨?_, ?_, x1.own, Dict.nodup_set x.nv _ _, Dict.nodup_set x.nm _ _⟩, ?_⟩
    · intro id' a g
      simp only [HMem.put, Dict.get?_set] at g ⊢
      split at g
      · obtain rfl : (s.heap.copy v).1 = a := by simpa using g
        refine ⟨cpv.1, fun mm => ?_⟩
        have := x.own _ mm
        simp [Heap.copy_fst] at this
      · exact x1.vec id' a g
    · intro id' a g
      simp only [HMem.put, Dict.get?_set] at g ⊢
      split at g
      · obtain rfl : (h1.copy b).1 = a := by simpa using g
        refine ⟨cpb.1, fun mm => ?_⟩
        have := x.own _ mm
        rw [Heap.copy_fst, len] at this
        omega
      · exact x1.md id' a g
    · funext id'
      have l2 := congrFun l1 id'
      simp only [look] at l2
      simp only [look, HMem.put, Dict.get?_set, Spec.put]
      by_cases h : id' = id
      · simp [h, ← hh1, cpv.2, cp.2, cpb.2, hb1.2]
      · simpa [h] using l2

theorem put_vectors (s : HMem A) (id : Id) (v : Nat) (m : Option Nat) :
    (s.put id v m).vectors = s.vectors.set id s.heap.length := by
  cases m <;> rfl

theorem put_inited (s : HMem A) (id : Id) (v : Nat) (m : Option Nat) :
    (s.put id v m).inited = s.inited := by
  cases m <;> rfl

theorem put_count (s : HMem A) (id : Id) (v : Nat) (m : Option Nat) :
    (s.put id v m).count = s.count := by
  cases m <;> rfl

theorem look_isSome (s : HMem A) (id : Id) : (s.look id).isSome = s.vectors.mem id := by
  simp [look, Dict.mem]

theorem keys_put {s : HMem A} {id : Id} (h : s.vectors.mem id = true) (a : Nat) :
    (s.vectors.set id a).keys = s.vectors.keys := by
  rw [Dict.keys_set, if_pos]
  exact (Dict.mem_keys _ _).2 h

/-- One action: the objects stay apart, the storage goes on standing for the abstract store,
and its answer is the abstract one. -/
theorem Sep.call {own : List Nat} {s : HMem A} {t : Store (HV A) (HM A)} (x : Sep own s)
    (y : Stands s t) (c : HCall A) (p : Polite1 own s c) :
    Sep (owned own s c) (s.call c).2 ∧
    match c.read s.heap with
    | none => Stands (s.call c).2 t
    | some k => Stands (s.call c).2 (t.step true _root_.id k).2 ∧
        (s.call c).1.read (s.call c).2.heap = (t.step true _root_.id k).1 := by
  cases c with
  | new c =>
    obtain ⟨x1, l1⟩ := x.heap (own' := s.heap.length :: own) (s.heap ++ [c])
      (fun a ha _ => by simp [List.getElem?_append_left ha])
      (fun a ha => by
        rcases List.mem_cons.1 ha with rfl | ha
        · simp
        · have := x.own a ha
          exact ⟨by simp; omega, .inl ha⟩)
    exact ⟨x1, y.isOpen, y.content.trans l1.symm, y.order, y.count⟩
  | write w c =>
    have p : w ∈ own := p
    obtain ⟨x1, l1⟩ := x.heap (own' := own) (s.heap.set w c)
      (fun a ha no => by
        rw [List.getElem?_set_ne]
        rintro rfl
        exact no p)
      (fun a ha => ⟨by simpa using x.own a ha, .inl ha⟩)
    exact ⟨x1, y.isOpen, y.content.trans l1.symm, y.order, y.count⟩
  | init =>
    exact ⟨⟨by simp [HMem.call], by simp [HMem.call], x.own, by simp [HMem.call, Dict.keys],
      by simp [HMem.call, Dict.keys]⟩, ⟨rfl, rfl, rfl, rfl⟩, rfl⟩
  | close =>
    exact ⟨⟨by simp [HMem.call], by simp [HMem.call], x.own, by simp [HMem.call, Dict.keys],
      by simp [HMem.call, Dict.keys]⟩, ⟨rfl, rfl, rfl, rfl⟩, rfl⟩
  | store id v m =>
    obtain ⟨x1, l1⟩ := x.put id v m p.1 p.2
    simp only [HMem.call, HMem.store, HCall.read, Store.step, owned, y.isOpen]
    by_cases h0 : id = ""
    · simp only [h0, if_true]
      exact ⟨x, y, rfl⟩
    · by_cases hi : s.inited = true
      · simp only [h0, hi, if_false, Bool.not_true, Bool.false_eq_true, if_true]
        refine ⟨⟨x1.vec, x1.md, x1.own, x1.nv, x1.nm⟩,
          ⟨by simp [put_inited, hi, y.isOpen], ?_, ?_, rfl⟩, rfl⟩
        · change Spec.put t.content id _ = (s.put id v m).look
          rw [l1, y.content]
        · simp only [y.order, put_vectors, Dict.keys_set]
      · simp only [h0, hi, if_false, Bool.not_false, if_true, Bool.false_eq_true]
        exact ⟨x, y, rfl⟩
  | update id v m =>
    obtain ⟨x1, l1⟩ := x.put id v m p.1 p.2
    simp only [HMem.call, HMem.update, HCall.read, Store.step, owned, y.isOpen, y.content,
      look_isSome]
    by_cases hi : s.inited = true
    · by_cases hm : s.vectors.mem id = true
      · simp only [hi, hm, Bool.not_true, Bool.false_eq_true, if_false, if_true]
        refine ⟨x1, ⟨by simp [put_inited, hi, y.isOpen], ?_, ?_, ?_⟩, rfl⟩
        · simpa [y.content] using l1.symm
        · simp only [y.order, put_vectors, keys_put hm]
        · rw [put_count, put_vectors, ← Dict.length_keys, keys_put hm, Dict.length_keys, y.count]
      · simp only [hi, hm, Bool.not_true, Bool.not_false, Bool.false_eq_true, if_false, if_true]
        exact ⟨x, y, rfl⟩
    · simp only [hi, if_false, Bool.not_false, if_true, Bool.false_eq_true]
      exact ⟨x, y, rfl⟩
  | delete id =>
    simp only [HMem.call, HMem.delete, HCall.read, Store.step, owned, y.isOpen, y.content,
      look_isSome]
    by_cases hi : s.inited = true
    · by_cases hm : s.vectors.mem id = true
      · simp only [hi, hm, Bool.not_true, Bool.false_eq_true, if_false, if_true]
        refine ⟨⟨?_, ?_, x.own, Dict.nodup_pop x.nv _, Dict.nodup_pop x.nm _⟩,
          ⟨rfl, ?_, ?_, rfl⟩, rfl⟩
        · intro id' a g
          simp only [Dict.get?_pop x.nv] at g
          split at g
          · simp at g
          · exact x.vec id' a g
        · intro id' a g
          simp only [Dict.get?_pop x.nm] at g
          split at g
          · simp at g
          · exact x.md id' a g
        · funext id'
          simp only [Spec.put, look, Dict.get?_pop x.nv, Dict.get?_pop x.nm]
          split <;> simp_all
        · simp [y.order, Dict.keys_pop]
      · simp only [hi, hm, Bool.not_true, Bool.false_eq_true, if_false, if_true]
        exact ⟨x, y, rfl⟩
    · simp only [hi, if_false, Bool.not_false, if_true, Bool.false_eq_true]
      exact ⟨x, y, rfl⟩
  | retrieve id =>
    simp only [HMem.call, HMem.retrieve, HCall.read, Store.step, owned, y.isOpen, y.content]
    by_cases hi : s.inited = true
    · simp only [hi, Bool.not_true, Bool.false_eq_true, if_false, if_true]
      rcases hg : s.vectors.get? id with _ | a
      · exact ⟨x, y, by simp [HReply.read, look, hg]⟩
      · obtain ⟨f, no⟩ := x.vec id a hg
        obtain ⟨x1, l1⟩ := x.heap (own' := s.heap.length :: own) (s.heap.copy a).2
          (fun b hb _ => s.heap.copy_old a hb)
          (fun b hb => by
            rcases List.mem_cons.1 hb with rfl | hb
            · simp [Heap.copy_length]
            · have := x.own b hb
              exact ⟨by simp [Heap.copy_length]; omega, .inl hb⟩)
        refine ⟨by simpa [hi, Heap.copy_fst] using x1, ⟨y.isOpen.trans hi, ?_, y.order, y.count⟩, ?_⟩
        · exact y.content.trans (by rw [← l1]; rfl)
        have l2 := congrFun l1 id
        simp only [look, hg, Option.map_some, Option.some.injEq, Prod.mk.injEq] at l2
        simp only [HReply.read, look, hg, Option.map_some, l2.2,
          (f.congr' (s.heap.copy_new f.lt)).2]
    · simp only [hi, if_false, Bool.not_false, if_true, Bool.false_eq_true]
      exact ⟨x, y, rfl⟩
  | list limit =>
    refine ⟨x, ?_⟩
    simp only [HMem.call, HMem.list, HCall.read, Store.step, y.isOpen, y.order, _root_.id]
    by_cases hi : s.inited = true
    · cases limit with
      | none => simp only [hi, if_true]; exact ⟨y, rfl⟩
      | some n => simp only [hi, if_true]; exact ⟨y, by simp [HReply.read, sliceTo]⟩
    · simp only [hi, if_false, Bool.not_false, if_true, Bool.false_eq_true]
      exact ⟨y, rfl⟩
  | count =>
    refine ⟨x, ?_⟩
    simp only [HMem.call, HCall.read, Store.step, y.isOpen, y.order]
    by_cases hi : s.inited = true
    · simp only [hi, if_true]
      exact ⟨y, by simp [HReply.read, y.count, Dict.length_keys]⟩
    · simp only [hi, if_false, Bool.false_eq_true]
      exact ⟨y, rfl⟩

/-- The answers in the course of a polite program are those of the abstract store. -/
theorem Sep.trace {own : List Nat} {s : HMem A} {t : Store (HV A) (HM A)} (x : Sep own s)
    (y : Stands s t) (cs : List (HCall A)) (p : Polite own s cs) :
    (s.trace cs).map Prod.snd = (t.run true _root_.id ((s.trace cs).map Prod.fst)).1 := by
  induction cs generalizing own s t with
  | nil => rfl
  | cons c cs ih =>
    have h := x.call y c p.1
    rcases hr : c.read s.heap with _ | k
    · simp only [hr] at h
      simp only [HMem.trace, hr]
      exact ih h.1 h.2 p.2
    · simp only [hr] at h
      simp only [HMem.trace, hr, List.map_cons, Store.run]
      rw [h.2.2, ih h.1 h.2.1 p.2]

end HMem
end Valori
