import Verif.Model.Crash
import Verif.Spec.Crash
import Verif.Lemmas.DiskCrash
import Verif.Lemmas.Index
import Verif.Lemmas.Lawful

/-! What is in a directory after the first file steps of some writes. -/

namespace Valori
open Spec (Edit Item Live.find Live.idsOf put)

variable {V M D : Type}

namespace Dir

/-- The directory holds exactly these items. -/
structure Shows (env : DiskEnv M) (d : Dir V M) (live : List (Item V M)) : Prop where
  ok : d.Ok
  nd : (Spec.Live.idsOf live).Nodup
  cont : ∀ id, d.content id = Spec.Live.find live id
  own : ∀ id, d.vec.mem id = true → sanitize env id = id

/-- The directory holds an unreadable item under `id`. -/
def TornAt (d : Dir V M) (id : String) : Prop :=
  d.vec.get? id = some .torn ∨ ((∃ v, d.vec.get? id = some (.good v)) ∧ d.pkl.get? id = some .torn)

/-- What a directory shows, apart from an unreadable item. -/
def Left (env : DiskEnv M) (d : Dir V M) (live : List (Item V M)) (bad : Option String) : Prop :=
  match bad with
  | none => d.Shows env live
  | some id => d.vec.keys.Nodup ∧ d.pkl.keys.Nodup ∧ d.TornAt id ∧ sanitize env id = id ∧
      (d.erased id).Shows env live

end Dir

/-- The file steps of several calls one after the other. -/
def seqSteps (env : DiskEnv M) : Dir V M → List (Disk.Write V M) → List (FsStep V M)
  | _, [] => []
  | d, w :: ws => w.steps env d ++ seqSteps env (runSteps d (w.steps env d)) ws

theorem runSteps_append (d : Dir V M) (a b : List (FsStep V M)) :
    runSteps d (a ++ b) = runSteps (runSteps d a) b := List.foldl_append

namespace Disk
variable {env : DiskEnv M}

theorem write_cut (d : Dir V M) (stem : String) (v : V) (m : Option M)
    (hp : ∀ x, m = some x → env.picklable x = true) (n : Nat) :
    let d' := runSteps d ((writeSteps env d stem v m).1.take n)
    d' = d ∨ d' = d.written stem v m ∨ d' = ⟨d.vec.set stem (.good v), d.pkl⟩ ∨
      d' = ⟨d.vec.set stem .torn, d.pkl⟩ ∨ d' = ⟨d.vec.set stem (.good v), d.pkl.set stem .torn⟩ := by
  show runSteps d ((writeSteps env d stem v m).1.take n) = d ∨
    runSteps d ((writeSteps env d stem v m).1.take n) = _ ∨
    runSteps d ((writeSteps env d stem v m).1.take n) = _ ∨
    runSteps d ((writeSteps env d stem v m).1.take n) = _ ∨
    runSteps d ((writeSteps env d stem v m).1.take n) = _
  by_cases hn : (writeSteps env d stem v m).1.length ≤ n
  · right; left
    rw [List.take_of_length_le hn]
    exact (writeSteps_done d stem v m hp).2
  · rcases n with _ | _ | _ | _ | n
    · left; rfl
    · right; right; right; left
      cases m with
      | some x => simp [writeSteps, hp x rfl, runSteps, FsStep.run]
      | none => simp [writeSteps, runSteps, FsStep.run]
    · right; right; left
      cases m with
      | some x => simp [writeSteps, hp x rfl, runSteps, FsStep.run, Dict.set_set]
      | none => simp [writeSteps, runSteps, FsStep.run, Dict.set_set]
    · right; right; right; right
      cases m with
      | some x => simp [writeSteps, hp x rfl, runSteps, FsStep.run, Dict.set_set]
      | none =>
        exfalso; apply hn
        simp only [writeSteps]
        split <;> simp
    · exfalso; apply hn
      cases m with
      | some x => simp [writeSteps, hp x rfl]
      | none =>
        simp only [writeSteps]
        split <;> simp <;> omega

theorem delete_cut (d : Dir V M) (stem : String) (n : Nat) :
    let d' := runSteps d ((deleteSteps d stem).take n)
    d' = d ∨ d' = d.erased stem ∨ d' = ⟨d.vec.pop stem, d.pkl⟩ := by
  show runSteps d ((deleteSteps d stem).take n) = d ∨ runSteps d ((deleteSteps d stem).take n) = _ ∨
    runSteps d ((deleteSteps d stem).take n) = _
  by_cases hn : (deleteSteps d stem).length ≤ n
  · right; left
    rw [List.take_of_length_le hn]
    exact deleteSteps_done d stem
  · rcases n with _ | _ | n
    · left; rfl
    · right; right
      cases hv : d.vec.mem stem <;> cases hm : d.pkl.mem stem <;>
        simp [deleteSteps, hv, hm, runSteps, FsStep.run] at hn ⊢
    · exfalso; apply hn
      simp only [deleteSteps]
      split <;> split <;> simp

end Disk

namespace Dir
variable {env : DiskEnv M} {d : Dir V M} {live : List (Item V M)}

theorem Shows.mem (h : d.Shows env live) (id : String) : d.vec.mem id = Spec.Live.has live id := by
  rw [← content_isSome h.ok, h.cont, Spec.Live.find_isSome]

theorem find_write (live : List (Item V M)) (id : String) (v : V) (m : Option M) :
    Spec.Live.find (Edit.write live id v m) = put (Spec.Live.find live) id (some (v, m)) := by
  unfold Edit.write
  split
  · next h => 
    rw [Spec.Live.find_replace]
    simp [Spec.Live.find_isSome, h]
  · next h =>
    have h' : id ∉ Spec.Live.idsOf live := by
      rw [← Spec.Live.has_false_iff]; simpa using h
    rw [Spec.Live.find_append_single (x := ⟨id, v, m⟩) h']

theorem nodup_write (hn : (Spec.Live.idsOf live).Nodup) (id : String) (v : V) (m : Option M) :
    (Spec.Live.idsOf (Edit.write live id v m)).Nodup := by
  unfold Edit.write
  split
  · rw [Spec.Live.idsOf_replace]; exact hn
  · next h =>
    have h' : id ∉ Spec.Live.idsOf live := by
      rw [← Spec.Live.has_false_iff]; simpa using h
    simp only [Spec.Live.idsOf, List.map_append, List.map_cons, List.map_nil] at hn h' ⊢
    rw [List.nodup_append]
    refine ⟨hn, by simp, ?_⟩
    intro a ha b hb
    simp at hb
    subst hb
    rintro rfl
    exact h' ha

theorem Shows.written (h : d.Shows env live) {id : String} (ho : sanitize env id = id) (v : V)
    (m : Option M) : (d.written id v m).Shows env (Edit.write live id v m) := by
  refine ⟨h.ok.written id v m, nodup_write h.nd _ _ _, ?_, ?_⟩
  · intro x
    rw [content_written h.ok.pnd, find_write]
    simp only [put]; split
    · rfl
    · exact h.cont x
  · intro x hx
    rw [written_vec, Dict.mem_set] at hx
    simp only [Bool.or_eq_true, decide_eq_true_eq] at hx
    rcases hx with rfl | hx
    · exact ho
    · exact h.own x hx

theorem Shows.erased (h : d.Shows env live) (id : String) :
    (d.erased id).Shows env (Spec.Live.remove live id) := by
  refine ⟨h.ok.erased id, Spec.Live.remove_nodup h.nd id, ?_, ?_⟩
  · intro x
    rw [content_erased h.ok, Spec.Live.find_remove]
    simp only [put]; split
    · rfl
    · exact h.cont x
  · intro x hx
    rw [erased_vec] at hx
    simp only [Dict.mem, Dict.get?_pop h.ok.vnd] at hx
    split at hx
    · simp at hx
    · exact h.own x hx

/-- A vector unlinked, its metadata not yet. -/
theorem Shows.unlinked (h : d.Shows env live) (id : String) :
    (⟨d.vec.pop id, d.pkl⟩ : Dir V M).Shows env (Spec.Live.remove live id) := by
  refine ⟨⟨Dict.nodup_pop h.ok.vnd _, h.ok.pnd, ?_, ?_⟩, Spec.Live.remove_nodup h.nd id, ?_, ?_⟩
  · intro s
    simp only [Dict.get?_pop h.ok.vnd]
    split
    · simp
    · exact h.ok.vgood s
  · intro s hs
    simp only [Dict.mem, Dict.get?_pop h.ok.vnd] at hs
    split at hs
    · simp at hs
    · exact h.ok.pgood s hs
  · intro x
    rw [Spec.Live.find_remove]
    simp only [put, content, Dict.get?_pop h.ok.vnd]
    by_cases hx : x = id
    · simp [hx]
    · rw [if_neg hx, if_neg hx]; exact h.cont x
  · intro x hx
    simp only [Dict.mem, Dict.get?_pop h.ok.vnd] at hx
    split at hx
    · simp at hx
    · exact h.own x hx

/-- A vector written, its metadata not yet. -/
theorem Shows.mixed (h : d.Shows env live) {id : String} (ho : sanitize env id = id)
    (hf : d.vec.mem id = false → d.pkl.get? id = none) (v : V) :
    (⟨d.vec.set id (.good v), d.pkl⟩ : Dir V M).Shows env
      (Edit.write live id v (Edit.metaAt live id)) := by
  have hpg : d.pkl.get? id ≠ some .torn := by
    cases hm : d.vec.mem id
    · rw [hf hm]; simp
    · exact h.ok.pgood id hm
  refine ⟨⟨Dict.nodup_set h.ok.vnd _ _, h.ok.pnd, ?_, ?_⟩, nodup_write h.nd _ _ _, ?_, ?_⟩
  · intro s
    simp only [Dict.get?_set]
    split
    · simp
    · exact h.ok.vgood s
  · intro s hs
    simp only [Dict.mem_set, Bool.or_eq_true, decide_eq_true_eq] at hs
    rcases hs with rfl | hs
    · exact hpg
    · exact h.ok.pgood s hs
  · intro x
    rw [find_write]
    simp only [put, content, Dict.get?_set]
    by_cases hx : x = id
    · subst hx
      simp only [if_true]
      congr 2
      have hc := h.cont x
      simp only [content] at hc
      unfold Edit.metaAt
      rw [← hc]
      cases hg : d.vec.get? x with
      | none => rw [hf (by simp [Dict.mem, hg])]; rfl
      | some f =>
        cases f with
        | torn => exact absurd hg (h.ok.vgood x)
        | good v0 => rfl
    · rw [if_neg hx, if_neg hx]; exact h.cont x
  · intro x hx
    simp only [Dict.mem_set, Bool.or_eq_true, decide_eq_true_eq] at hx
    rcases hx with rfl | hx
    · exact ho
    · exact h.own x hx

theorem pop_set {κ α : Type} [DecidableEq κ] (d : Dict κ α) (k : κ) (a : α) :
    (d.set k a).pop k = d.pop k := by
  induction d with
  | nil => simp [Dict.set, Dict.pop]
  | cons e d ih =>
    obtain ⟨x, c⟩ := e
    simp only [Dict.set]
    by_cases h : x = k
    · simp [h, Dict.pop]
    · simp [h, Dict.pop, ih]

theorem Shows.torn_vec (h : d.Shows env live) {id : String} (ho : sanitize env id = id) :
    (⟨d.vec.set id .torn, d.pkl⟩ : Dir V M).Left env (Spec.Live.remove live id) (some id) := by
  refine ⟨Dict.nodup_set h.ok.vnd _ _, h.ok.pnd, Or.inl (by simp), ho, ?_⟩
  have : (⟨d.vec.set id .torn, d.pkl⟩ : Dir V M).erased id = d.erased id := by
    simp [Dir.erased, pop_set]
  rw [this]; exact h.erased id

theorem Shows.torn_pkl (h : d.Shows env live) {id : String} (ho : sanitize env id = id)
    (v : V) : (⟨d.vec.set id (.good v), d.pkl.set id .torn⟩ : Dir V M).Left env
      (Spec.Live.remove live id) (some id) := by
  refine ⟨Dict.nodup_set h.ok.vnd _ _, Dict.nodup_set h.ok.pnd _ _, Or.inr ⟨⟨v, by simp⟩, by simp⟩, ho, ?_⟩
  have : (⟨d.vec.set id (.good v), d.pkl.set id .torn⟩ : Dir V M).erased id = d.erased id := by
    simp [Dir.erased, pop_set]
  rw [this]; exact h.erased id

end Dir

/-- The edit a call on the storage makes. -/
def Disk.Write.edit : Disk.Write V M → Edit V M
  | .store id v m => .put id v m
  | .update id v m => .put id v m
  | .delete id => .drop id

/-- What is asked of a call: the id is its own file name, metadata can be pickled, an update has something
to update. -/
def Disk.Write.Fits (env : DiskEnv M) (live : List (Item V M)) : Disk.Write V M → Prop
  | .store id _ m => sanitize env id = id ∧ id ≠ "" ∧ ∀ x, m = some x → env.picklable x = true
  | .update id _ m => sanitize env id = id ∧ Spec.Live.has live id = true ∧
      ∀ x, m = some x → env.picklable x = true
  | .delete id => sanitize env id = id

/-- A call that ran to its end, or died. -/
theorem one_cut {env : DiskEnv M} {d : Dir V M} {live : List (Item V M)} (h : d.Shows env live)
    (w : Disk.Write V M) (hw : w.Fits env live) (hf : d.vec.mem w.id = false → d.pkl.get? w.id = none)
    (n : Nat) :
    (runSteps d (w.steps env d)).Shows env (w.edit.apply live) ∧
    ∃ out bad, Edit.Interrupted live [w.edit] out bad ∧
      (runSteps d ((w.steps env d).take n)).Left env out bad := by
  have key : ∀ id v m, sanitize env id = id → (∀ x, m = some x → env.picklable x = true) →
      (d.vec.mem id = false → d.pkl.get? id = none) →
      (runSteps d (Disk.writeSteps env d id v m).1).Shows env (Edit.write live id v m) ∧
      ∃ out bad, Edit.Interrupted live [.put id v m] out bad ∧
        (runSteps d ((Disk.writeSteps env d id v m).1.take n)).Left env out bad := by
    intro id v m ho hp hf
    refine ⟨?_, ?_⟩
    · rw [(Disk.writeSteps_done d id v m hp).2]; exact h.written ho v m
    · rcases Disk.write_cut d id v m hp n with e | e | e | e | e <;> rw [e]
      · exact ⟨live, none, Or.inl ⟨rfl, rfl⟩, h⟩
      · exact ⟨_, none, Or.inr (Or.inr ⟨rfl, rfl⟩), h.written ho v m⟩
      · exact ⟨_, none, Or.inr (Or.inl ⟨id, v, m, rfl, Or.inl ⟨rfl, rfl⟩⟩), h.mixed ho hf v⟩
      · exact ⟨_, some id, Or.inr (Or.inl ⟨id, v, m, rfl, Or.inr ⟨rfl, rfl⟩⟩), h.torn_vec ho⟩
      · exact ⟨_, some id, Or.inr (Or.inl ⟨id, v, m, rfl, Or.inr ⟨rfl, rfl⟩⟩), h.torn_pkl ho v⟩
  cases w with
  | store id v m =>
    obtain ⟨ho, hne, hp⟩ := hw
    simp only [Disk.Write.steps, hne, if_false, ho, Disk.Write.edit, Edit.apply]
    exact key id v m ho hp hf
  | update id v m =>
    obtain ⟨ho, hl, hp⟩ := hw
    have hm : d.vec.mem id = true := by rw [h.mem]; exact hl
    simp only [Disk.Write.steps, ho, hm, if_true, Disk.Write.edit, Edit.apply]
    exact key id v m ho hp hf
  | delete id =>
    have ho : sanitize env id = id := hw
    simp only [Disk.Write.steps, ho, Disk.Write.edit, Edit.apply]
    refine ⟨?_, ?_⟩
    · rw [Disk.deleteSteps_done]; exact h.erased id
    · rcases Disk.delete_cut d id n with e | e | e <;> rw [e]
      · exact ⟨live, none, Or.inl ⟨rfl, rfl⟩, h⟩
      · exact ⟨_, none, Or.inr (Or.inr ⟨rfl, rfl⟩), h.erased id⟩
      · exact ⟨_, none, Or.inr (Or.inr ⟨rfl, rfl⟩), h.unlinked id⟩

/-- The calls fit one after the other. -/
def AllFit (env : DiskEnv M) : List (Item V M) → List (Disk.Write V M) → Prop
  | _, [] => True
  | live, w :: ws => w.Fits env live ∧ AllFit env (w.edit.apply live) ws

theorem interrupted_start (live : List (Item V M)) (es : List (Edit V M)) :
    Edit.Interrupted live es live none := by
  cases es with
  | nil => exact ⟨rfl, rfl⟩
  | cons e es => exact Or.inl ⟨rfl, rfl⟩

theorem interrupted_more {live : List (Item V M)} {e : Edit V M} {out : List (Item V M)}
    {bad : Option String} (h : Edit.Interrupted live [e] out bad) (es : List (Edit V M)) :
    Edit.Interrupted live (e :: es) out bad := by
  rcases h with h | h | h
  · exact Or.inl h
  · exact Or.inr (Or.inl h)
  · refine Or.inr (Or.inr ?_)
    obtain ⟨rfl, rfl⟩ := h
    exact interrupted_start _ es

/-- A write of one id leaves files of other ids alone. -/
theorem free_step {env : DiskEnv M} {d : Dir V M} {live : List (Item V M)} (h : d.Shows env live)
    (w : Disk.Write V M) (hw : w.Fits env live) {x : String}
    (hf : d.vec.mem x = false → d.pkl.get? x = none) :
    (runSteps d (w.steps env d)).vec.mem x = false → (runSteps d (w.steps env d)).pkl.get? x = none := by
  have key : ∀ id v m, (d.written id v m).vec.mem x = false → (d.written id v m).pkl.get? x = none := by
    intro id v m hx
    rw [Dir.written_vec, Dict.mem_set] at hx
    simp only [Bool.or_eq_false_iff, decide_eq_false_iff_not] at hx
    simp only [Dir.written, Mem.get?_putMeta h.ok.pnd, if_neg hx.1]
    exact hf hx.2
  cases w with
  | store id v m =>
    obtain ⟨ho, hne, hp⟩ := hw
    simp only [Disk.Write.steps, hne, if_false, ho]
    rw [(Disk.writeSteps_done d id v m hp).2]
    exact key id v m
  | update id v m =>
    obtain ⟨ho, hl, hp⟩ := hw
    have hm : d.vec.mem id = true := by rw [h.mem]; exact hl
    simp only [Disk.Write.steps, ho, hm, if_true]
    rw [(Disk.writeSteps_done d id v m hp).2]
    exact key id v m
  | delete id =>
    have ho : sanitize env id = id := hw
    simp only [Disk.Write.steps, ho, Disk.deleteSteps_done]
    intro hx
    simp only [Dir.erased, Dict.mem, Dict.get?_pop h.ok.vnd, Dict.get?_pop h.ok.pnd] at hx ⊢
    split
    · rfl
    · next hne => rw [if_neg hne] at hx; exact hf hx

/-- Is no orphaned metadata file in the way of a call?  Only asked of writes. -/
def Disk.Write.Clear (d : Dir V M) : Disk.Write V M → Prop
  | .delete _ => True
  | w => d.vec.mem w.id = false → d.pkl.get? w.id = none

theorem one_cut_clear {env : DiskEnv M} {d : Dir V M} {live : List (Item V M)} (h : d.Shows env live)
    (w : Disk.Write V M) (hw : w.Fits env live) (hf : w.Clear d) (n : Nat) :
    (runSteps d (w.steps env d)).Shows env (w.edit.apply live) ∧
    ∃ out bad, Edit.Interrupted live [w.edit] out bad ∧
      (runSteps d ((w.steps env d).take n)).Left env out bad := by
  cases w with
  | store id v m => exact one_cut h _ hw hf n
  | update id v m => exact one_cut h _ hw hf n
  | delete id =>
    have ho : sanitize env id = id := hw
    simp only [Disk.Write.steps, ho, Disk.Write.edit, Edit.apply]
    refine ⟨?_, ?_⟩
    · rw [Disk.deleteSteps_done]; exact h.erased id
    · rcases Disk.delete_cut d id n with e | e | e <;> rw [e]
      · exact ⟨live, none, Or.inl ⟨rfl, rfl⟩, h⟩
      · exact ⟨_, none, Or.inr (Or.inr ⟨rfl, rfl⟩), h.erased id⟩
      · exact ⟨_, none, Or.inr (Or.inr ⟨rfl, rfl⟩), h.unlinked id⟩

theorem clear_step {env : DiskEnv M} {d : Dir V M} {live : List (Item V M)} (h : d.Shows env live)
    (w : Disk.Write V M) (hw : w.Fits env live) (u : Disk.Write V M) (hu : u.Clear d) :
    u.Clear (runSteps d (w.steps env d)) := by
  cases u with
  | store id v m => exact free_step h w hw hu
  | update id v m => exact free_step h w hw hu
  | delete id => trivial

/-- What is left of several calls when the process dies. -/
theorem seq_cut {env : DiskEnv M} (ws : List (Disk.Write V M)) {d : Dir V M} {live : List (Item V M)}
    (h : d.Shows env live) (hw : AllFit env live ws) (hf : ∀ w ∈ ws, w.Clear d) (n : Nat) :
    ∃ out bad, Edit.Interrupted live (ws.map Disk.Write.edit) out bad ∧
      (runSteps d ((seqSteps env d ws).take n)).Left env out bad := by
  induction ws generalizing d live n with
  | nil => exact ⟨live, none, ⟨rfl, rfl⟩, by simp only [seqSteps, List.take_nil]; exact h⟩
  | cons w ws ih =>
    obtain ⟨hw1, hw2⟩ := hw
    have c := one_cut_clear h w hw1 (hf w (by simp))
    by_cases hn : n ≤ (w.steps env d).length
    · obtain ⟨out, bad, e1, e2⟩ := (c n).2
      refine ⟨out, bad, interrupted_more e1 _, ?_⟩
      rw [seqSteps, List.take_append_of_le_length hn]
      exact e2
    · obtain ⟨out, bad, e1, e2⟩ := ih (c n).1 hw2
        (fun u hu => clear_step h w hw1 u (hf u (by simp [hu]))) (n - (w.steps env d).length)
      refine ⟨out, bad, Or.inr (Or.inr e1), ?_⟩
      rw [seqSteps, List.take_append, List.take_of_length_le (by omega), runSteps_append]
      exact e2

end Valori
