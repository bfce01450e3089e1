import Verif.Lemmas.Storage

/-! Disk storage: helper lemmas. -/

namespace Valori
open Spec (Call Reply Store put)

variable {V M : Type}

namespace Dict
variable {κ α : Type _} [DecidableEq κ]

theorem set_set (d : Dict κ α) (k : κ) (a b : α) : (d.set k a).set k b = d.set k b := by
  induction d with
  | nil => simp [set]
  | cons e d ih =>
    obtain ⟨x, c⟩ := e
    simp only [set]
    by_cases h : x = k
    · simp [h, set]
    · simp [h, set, ih]

theorem pop_of_mem_false {d : Dict κ α} {k : κ} (h : d.mem k = false) : d.pop k = d :=
  pop_of_not_mem (by rw [mem_keys]; simpa [mem] using h)

theorem mem_set (d : Dict κ α) (k k' : κ) (a : α) :
    (d.set k a).mem k' = (decide (k' = k) || d.mem k') := by
  simp only [mem, get?_set]; by_cases h : k' = k <;> simp [h]

end Dict

theorem sanitize_eq_empty {env : DiskEnv M} (id : Id) : sanitize env id = "" ↔ id = "" := by
  unfold sanitize
  constructor
  · intro h
    have h2 := congrArg String.toList h
    rw [String.toList_ofList] at h2
    have h3 : id.toList = [] := by
      cases hl : id.toList with
      | nil => rfl
      | cons a l => rw [hl] at h2; simp at h2
    exact String.toList_eq_nil_iff.1 h3
  · rintro rfl; rfl

theorem sanitize_idem {env : DiskEnv M} (id : Id) :
    sanitize env (sanitize env id) = sanitize env id := by
  unfold sanitize
  rw [String.toList_ofList, List.map_map]
  congr 1
  apply List.map_congr_left
  intro c _
  simp only [Function.comp]
  by_cases h : (env.isalnum c || c == '.' || c == '_' || c == '-') = true
  · simp only [h, if_true]
  · simp only [Bool.not_eq_true] at h; simp [h]

namespace Dir

/-- What the files of one stem say. -/
def content (d : Dir V M) (stem : String) : Option (V × Option M) :=
  match d.vec.get? stem with
  | some (.good v) =>
    some (v, match d.pkl.get? stem with | some (.good m) => some m | _ => none)
  | _ => none

/-- No unreadable file that a retrieve could meet. -/
structure Ok (d : Dir V M) : Prop where
  vnd : d.vec.keys.Nodup
  pnd : d.pkl.keys.Nodup
  vgood : ∀ s, d.vec.get? s ≠ some .torn
  pgood : ∀ s, d.vec.mem s = true → d.pkl.get? s ≠ some .torn

/-- Directory after a completed write. -/
def written (d : Dir V M) (stem : String) (v : V) (m : Option M) : Dir V M :=
  ⟨d.vec.set stem (.good v), Mem.putMeta d.pkl stem (m.map .good)⟩

/-- Directory after a completed delete. -/
def erased (d : Dir V M) (stem : String) : Dir V M := ⟨d.vec.pop stem, d.pkl.pop stem⟩

theorem written_vec (d : Dir V M) (stem : String) (v : V) (m : Option M) :
    (d.written stem v m).vec = d.vec.set stem (.good v) := rfl

theorem erased_vec (d : Dir V M) (stem : String) : (d.erased stem).vec = d.vec.pop stem := rfl

theorem content_isSome {d : Dir V M} (h : d.Ok) (s : String) :
    (d.content s).isSome = d.vec.mem s := by
  have := h.vgood s
  simp only [content, Dict.mem]
  cases hg : d.vec.get? s with
  | none => rfl
  | some f => cases f with
    | good v => rfl
    | torn => exact absurd hg this

theorem content_written {d : Dir V M} (h : d.pkl.keys.Nodup) (stem : String) (v : V)
    (m : Option M) : (d.written stem v m).content = put d.content stem (some (v, m)) := by
  funext x
  simp only [content, written, put, Dict.get?_set, Mem.get?_putMeta h]
  by_cases hx : x = stem
  · cases m <;> simp [hx]
  · simp [hx]

theorem content_erased {d : Dir V M} (h : d.Ok) (stem : String) :
    (d.erased stem).content = put d.content stem none := by
  funext x
  simp only [content, erased, put, Dict.get?_pop h.vnd, Dict.get?_pop h.pnd]
  by_cases hx : x = stem <;> simp [hx]

theorem Ok.written {d : Dir V M} (h : d.Ok) (stem : String) (v : V) (m : Option M) :
    (d.written stem v m).Ok := by
  refine ⟨Dict.nodup_set h.vnd _ _, Mem.putMeta_nodup h.pnd _ _, ?_, ?_⟩
  · intro s
    simp only [Dir.written, Dict.get?_set]
    split
    · simp
    · exact h.vgood s
  · intro s hs
    simp only [Dir.written, Mem.get?_putMeta h.pnd]
    split
    · cases m <;> simp
    · next hne =>
      simp only [Dir.written, Dict.mem_set, hne, decide_false, Bool.false_or] at hs
      exact h.pgood s hs

theorem Ok.erased {d : Dir V M} (h : d.Ok) (stem : String) : (d.erased stem).Ok := by
  refine ⟨Dict.nodup_pop h.vnd _, Dict.nodup_pop h.pnd _, ?_, ?_⟩
  · intro s
    simp only [Dir.erased, Dict.get?_pop h.vnd]
    split
    · simp
    · exact h.vgood s
  · intro s hs
    simp only [Dir.erased, Dict.get?_pop h.pnd]
    split
    · simp
    · next hne =>
      simp only [Dir.erased, Dict.mem, Dict.get?_pop h.vnd, hne, if_false] at hs
      exact h.pgood s hs

end Dir

namespace Disk
variable {env : DiskEnv M}

theorem writeSteps_done (d : Dir V M) (stem : String) (v : V) (m : Option M)
    (hp : ∀ x, m = some x → env.picklable x = true) :
    (writeSteps env d stem v m).2 = true ∧
      runSteps d (writeSteps env d stem v m).1 = d.written stem v m := by
  cases m with
  | some x =>
    simp [writeSteps, hp x rfl, runSteps, FsStep.run, Dir.written, Mem.putMeta, Dict.set_set]
  | none =>
    cases hm : d.pkl.mem stem
    · simp [writeSteps, runSteps, FsStep.run, Dir.written, Mem.putMeta, Dict.set_set, hm,
        Dict.pop_of_mem_false hm]
    · simp [writeSteps, runSteps, FsStep.run, Dir.written, Mem.putMeta, Dict.set_set, hm]

theorem deleteSteps_done (d : Dir V M) (stem : String) :
    runSteps d (deleteSteps d stem) = d.erased stem := by
  cases hv : d.vec.mem stem <;> cases hm : d.pkl.mem stem <;>
    simp [deleteSteps, runSteps, FsStep.run, Dir.erased, hv, hm, Dict.pop_of_mem_false]

def abs (s : Disk V M) : Store V M := ⟨s.inited, s.dir.content, s.dir.vec.keys⟩

structure Inv (s : Disk V M) : Prop where
  ok : s.dir.Ok
  cnt : s.inited = true → s.count = s.dir.vec.length

theorem store_ready {s : Disk V M} (hi : s.inited = true) {id : Id} (hid : id ≠ "") (v : V)
    (m : Option M) (hp : ∀ x, m = some x → env.picklable x = true) :
    s.store env id v m = (.ok true, ⟨s.dir.written (sanitize env id) v m,
      (s.dir.written (sanitize env id) v m).vec.length, true⟩) := by
  have h := writeSteps_done (env := env) s.dir (sanitize env id) v m hp
  simp [store, hid, hi, h.1, h.2]

theorem update_ready {s : Disk V M} (hi : s.inited = true) {id : Id}
    (hm : s.dir.vec.mem (sanitize env id) = true) (v : V)
    (m : Option M) (hp : ∀ x, m = some x → env.picklable x = true) :
    s.update env id v m = (.ok true, ⟨s.dir.written (sanitize env id) v m, s.count, true⟩) := by
  have h := writeSteps_done (env := env) s.dir (sanitize env id) v m hp
  simp [update, hm, hi, h.1, h.2]

theorem update_absent {s : Disk V M} (hi : s.inited = true) {id : Id}
    (hm : s.dir.vec.mem (sanitize env id) = false) (v : V) (m : Option M) :
    s.update env id v m = (.ok false, s) := by
  simp [update, hm, hi]

theorem delete_ready {s : Disk V M} (hi : s.inited = true) {id : Id}
    (hm : s.dir.vec.mem (sanitize env id) = true) :
    s.delete env id = (.ok true, ⟨s.dir.erased (sanitize env id),
      (s.dir.erased (sanitize env id)).vec.length, true⟩) := by
  simp [delete, hi, hm, deleteSteps_done]

theorem delete_absent {s : Disk V M} (hi : s.inited = true) {id : Id}
    (hm : s.dir.vec.mem (sanitize env id) = false) :
    s.delete env id = (.ok false, ⟨s.dir.erased (sanitize env id), s.count, true⟩) := by
  simp [delete, hi, hm, deleteSteps_done]

theorem retrieve_ready {s : Disk V M} (hi : s.inited = true) (h : s.dir.Ok) (id : Id) :
    s.retrieve env id = (.ok (s.dir.content (sanitize env id)), s) := by
  simp only [retrieve, hi, Dir.content]
  have h1 := h.vgood (sanitize env id)
  have h2 := h.pgood (sanitize env id)
  cases hg : s.dir.vec.get? (sanitize env id) with
  | none => simp
  | some f => cases f with
    | torn => exact absurd hg h1
    | good v =>
      have h3 := h2 (by simp [Dict.mem, hg])
      cases hp : s.dir.pkl.get? (sanitize env id) with
      | none => simp
      | some f => cases f with
        | torn => exact absurd hp h3
        | good m => simp

theorem erased_absent {s : Dir V M} (h : s.Ok) {stem : String} (hm : s.vec.mem stem = false) :
    (s.erased stem).content = s.content ∧ (s.erased stem).vec = s.vec := by
  refine ⟨?_, Dict.pop_of_mem_false hm⟩
  rw [Dir.content_erased h]
  funext x
  simp only [put]
  split
  · next e =>
    have := Dir.content_isSome h stem
    rw [hm] at this
    rw [e]; exact (by simpa using this : s.content stem = none).symm
  · rfl

theorem step (s : Disk V M) (c : Call V M) (hs : s.Inv)
    (hpk : ∀ m ∈ c.metas, env.picklable m = true) :
    Inv ((diskBackend env).call s c).2 ∧
      (((diskBackend env).call s c).1, abs ((diskBackend env).call s c).2) =
        Store.step false env.glob (abs s) (c.mapId (sanitize env)) := by
  cases c with
  | init => exact ⟨⟨hs.ok, fun _ => rfl⟩, rfl⟩
  | close => exact ⟨⟨hs.ok, fun h => by cases h⟩, rfl⟩
  | store id v m =>
    have hp : ∀ x, m = some x → env.picklable x = true := by
      rintro x rfl; exact hpk x (by simp [Call.metas])
    simp only [Backend.call, diskBackend, Store.step, Call.mapId]
    by_cases hid : id = ""
    · rw [if_pos ((sanitize_eq_empty id).2 hid),
        show s.store env id v m = (.ok false, s) by simp [store, hid]]
      exact ⟨hs, rfl⟩
    · rw [if_neg (fun h => hid ((sanitize_eq_empty id).1 h))]
      cases hi : s.inited
      · rw [show s.store env id v m = (.error .storage, s) by simp [store, hid, hi]]
        exact ⟨hs, by simp [abs, hi, Backend.wrap]⟩
      · rw [store_ready hi hid v m hp]
        exact ⟨⟨hs.ok.written _ v m, fun _ => rfl⟩,
          by simp [abs, hi, Backend.wrap, Dir.content_written hs.ok.pnd, Dir.written_vec,
              Dict.keys_set]⟩
  | update id v m =>
    have hp : ∀ x, m = some x → env.picklable x = true := by
      rintro x rfl; exact hpk x (by simp [Call.metas])
    simp only [Backend.call, diskBackend, Store.step, Call.mapId]
    cases hi : s.inited
    · rw [show s.update env id v m = (.error .storage, s) by simp [update, hi]]
      exact ⟨hs, by simp [abs, hi, Backend.wrap]⟩
    · cases hm : s.dir.vec.mem (sanitize env id)
      · rw [update_absent hi hm]
        exact ⟨hs, by simp [abs, hi, Backend.wrap, Dir.content_isSome hs.ok, hm]⟩
      · rw [update_ready hi hm v m hp]
        have hk : sanitize env id ∈ s.dir.vec.keys := by rw [Dict.mem_keys]; exact hm
        refine ⟨⟨hs.ok.written _ v m, fun _ => ?_⟩, ?_⟩
        · simp only [Backend.wrap, Dir.written]
          rw [Mem.length_set hm]; exact hs.cnt hi
        · simp [abs, hi, Backend.wrap, Dir.content_isSome hs.ok, hm,
            Dir.content_written hs.ok.pnd, Dir.written_vec, Dict.keys_set, hk]
  | delete id =>
    simp only [Backend.call, diskBackend, Store.step, Call.mapId]
    cases hi : s.inited
    · rw [show s.delete env id = (.error .storage, s) by simp [delete, hi]]
      exact ⟨hs, by simp [abs, hi, Backend.wrap]⟩
    · cases hm : s.dir.vec.mem (sanitize env id)
      · rw [delete_absent hi hm]
        have he := erased_absent hs.ok hm
        refine ⟨⟨hs.ok.erased _, fun _ => ?_⟩, ?_⟩
        · simp only [Backend.wrap]; rw [he.2]; exact hs.cnt hi
        · simp [abs, hi, Backend.wrap, Dir.content_isSome hs.ok, hm, he.1, he.2]
      · rw [delete_ready hi hm]
        refine ⟨⟨hs.ok.erased _, fun _ => rfl⟩, ?_⟩
        simp [abs, hi, Backend.wrap, Dir.content_isSome hs.ok, hm, Dir.content_erased hs.ok,
          Dir.erased_vec, Dict.keys_pop]
  | retrieve id =>
    simp only [Backend.call, diskBackend, Store.step, Call.mapId]
    cases hi : s.inited
    · rw [show s.retrieve env id = (.error .storage, s) by simp [retrieve, hi]]
      exact ⟨hs, by simp [abs, hi, Backend.wrap]⟩
    · rw [retrieve_ready hi hs.ok]
      exact ⟨hs, by simp [abs, hi, Backend.wrap]⟩
  | list l =>
    simp only [Backend.call, diskBackend, Store.step, Call.mapId]
    cases hi : s.inited
    · rw [show s.list env (l.map Int.ofNat) = (.error .storage, s) by simp [list, hi]]
      exact ⟨hs, by simp [abs, hi, Backend.wrap]⟩
    · cases l with
      | none => exact ⟨by simpa [list, hi, Backend.wrap] using hs,
                       by simp [list, abs, hi, Backend.wrap]⟩
      | some n => exact ⟨by simpa [list, hi, Backend.wrap] using hs,
                         by simp [list, abs, hi, Backend.wrap, sliceTo]⟩
  | count =>
    refine ⟨hs, ?_⟩
    cases hi : s.inited
    · simp [Backend.call, diskBackend, statCount, hi, Store.step, abs, Call.mapId]
    · simp [Backend.call, diskBackend, statCount, hi, Store.step, abs, Call.mapId,
        hs.cnt hi, Dict.length_keys]

end Disk

/-- Disk storage refines the durable store keyed by file name, for picklable metadata. -/
def diskRefines (env : DiskEnv M) :
    Refines (diskBackend (V := V) env) false env.glob (sanitize env) (fun _ => True)
      (fun m => env.picklable m = true) where
  inv := Disk.Inv
  abs := Disk.abs
  step s c hs _ hm := Disk.step s c hs hm

end Valori
