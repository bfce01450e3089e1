import Verif.Lemmas.Disk
import Verif.Lemmas.Hybrid

/-! Storage as seen by an index: an open backend that behaves as a map. -/

namespace Valori
open Spec (Call Reply Store put)

variable {σ V M : Type}

/-- An open backend that behaves as a map for ids in `okId` and metadata in `okM`. -/
structure Lawful (B : Backend σ V M) (okId : Id → Prop) (okM : M → Prop) where
  inv : σ → Prop
  content : σ → Id → Option (V × Option M)
  dom : ∀ {s id}, inv s → (content s id).isSome = true → okId id
  store : ∀ {s id v m}, inv s → okId id → id ≠ "" → (∀ x, m = some x → okM x) →
    ∃ s', B.store s id v m = (.ok true, s') ∧ inv s' ∧
      content s' = put (content s) id (some (v, m))
  retrieve : ∀ {s id}, inv s → okId id →
    ∃ s', B.retrieve s id = (.ok (content s id), s') ∧ inv s' ∧ content s' = content s
  delete : ∀ {s id}, inv s → okId id →
    ∃ s', B.delete s id = (.ok (content s id).isSome, s') ∧ inv s' ∧
      content s' = put (content s) id none
  update : ∀ {s id v m}, inv s → okId id → (∀ x, m = some x → okM x) →
    ∃ s', B.update s id v m = (.ok (content s id).isSome, s') ∧ inv s' ∧
      content s' = if (content s id).isSome then put (content s) id (some (v, m)) else content s
  list : ∀ {s}, inv s → ∃ l s', B.list s none = (.ok l, s') ∧ inv s' ∧ content s' = content s ∧
    l.Nodup ∧ ∀ id, id ∈ l ↔ (content s id).isSome = true

theorem Backend.wrap_flag {x : Res σ Bool} {b : Bool} {s : σ}
    (h : Backend.wrap (V := V) (M := M) .flag x = (.flag b, s)) : x = (.ok b, s) := by
  rcases x with ⟨_ | _, _⟩ <;> simp_all [Backend.wrap]

theorem Backend.wrap_found {x : Res σ (Option (V × Option M))} {b : Option (V × Option M)} {s : σ}
    (h : Backend.wrap .found x = (.found b, s)) : x = (.ok b, s) := by
  rcases x with ⟨_ | _, _⟩ <;> simp_all [Backend.wrap]

theorem Backend.wrap_ids {x : Res σ (List Id)} {b : List Id} {s : σ}
    (h : Backend.wrap (V := V) (M := M) .ids x = (.ids b, s)) : x = (.ok b, s) := by
  rcases x with ⟨_ | _, _⟩ <;> simp_all [Backend.wrap]

theorem put_none_absent {α : Type} {f : String → Option α} {id : String} (h : f id = none) :
    put f id none = f := by
  funext x; simp only [put]; split <;> simp_all

/-- Every refinement of the abstract store gives a lawful storage. -/
def Refines.lawful {B : Backend σ V M} {vol : Bool} {scan : List String → List String}
    {nm : Id → Id} {okId₀ okId : Id → Prop} {okM : M → Prop}
    (R : Refines B vol scan nm okId₀ okM) (hok : ∀ i, okId i → okId₀ i)
    (hnm : ∀ i, okId i → nm i = i) (hscan : ∀ l, (scan l).Perm l) : Lawful B okId okM where
  inv s := R.inv s ∧ (R.abs s).isOpen = true ∧ (R.abs s).WF ∧
    ∀ id, ((R.abs s).content id).isSome = true → okId id
  content s := (R.abs s).content
  dom h hs := h.2.2.2 _ hs
  store := by
    intro s id v m ⟨h1, h2, h3, h4⟩ hid hne hm
    have st := R.step s (.store id v m) h1 (by simpa [Call.ids] using hok _ hid)
      (by cases m <;> simp_all [Call.metas])
    have hwf := h3.step (volatile := vol) (scan := scan) (Call.store id v m)
    simp only [Call.mapId, hnm _ hid] at st
    have e := st.2
    simp only [Store.step, hne, h2, if_true, if_false] at e hwf
    injection e with e1 e2
    refine ⟨(B.call s (.store id v m)).2, Backend.wrap_flag (V := V) (M := M) ?_, ⟨st.1, ?_, ?_, ?_⟩, ?_⟩
    · exact Prod.ext e1 rfl
    · rw [e2]
    · rw [e2]; exact hwf
    · rw [e2]; intro x; simp only [put]; split
      · rintro -; simp_all
      · exact h4 x
    · rw [e2]
  retrieve := by
    intro s id ⟨h1, h2, h3, h4⟩ hid
    have st := R.step s (.retrieve id) h1 (by simpa [Call.ids] using hok _ hid)
      (by simp [Call.metas])
    simp only [Call.mapId, hnm _ hid] at st
    have e := st.2
    simp only [Store.step, h2, if_true] at e
    injection e with e1 e2
    refine ⟨(B.call s (.retrieve id)).2, Backend.wrap_found ?_, ⟨st.1, ?_, ?_, ?_⟩, ?_⟩
    · exact Prod.ext e1 rfl
    all_goals rw [e2]
    all_goals assumption
  delete := by
    intro s id ⟨h1, h2, h3, h4⟩ hid
    have st := R.step s (.delete id) h1 (by simpa [Call.ids] using hok _ hid)
      (by simp [Call.metas])
    have hwf := h3.step (volatile := vol) (scan := scan) (Call.delete id)
    simp only [Call.mapId, hnm _ hid] at st
    have e := st.2
    simp only [Store.step, h2, if_true] at e hwf
    cases hs : ((R.abs s).content id).isSome
    · simp only [hs] at e hwf
      injection e with e1 e2
      refine ⟨(B.call s (.delete id)).2, Backend.wrap_flag (V := V) (M := M) ?_, ⟨st.1, ?_, ?_, ?_⟩, ?_⟩
      · exact Prod.ext e1 rfl
      · rw [e2]; exact h2
      · rw [e2]; exact h3
      · rw [e2]; exact h4
      · rw [e2, put_none_absent]; simpa using hs
    · simp only [hs, if_true] at e hwf
      injection e with e1 e2
      refine ⟨(B.call s (.delete id)).2, Backend.wrap_flag (V := V) (M := M) ?_, ⟨st.1, ?_, ?_, ?_⟩, ?_⟩
      · exact Prod.ext e1 rfl
      · rw [e2]
      · rw [e2]; exact hwf
      · rw [e2]; intro x; simp only [put]; split
        · simp
        · exact h4 x
      · rw [e2]
  update := by
    intro s id v m ⟨h1, h2, h3, h4⟩ hid hm
    have st := R.step s (.update id v m) h1 (by simpa [Call.ids] using hok _ hid)
      (by cases m <;> simp_all [Call.metas])
    have hwf := h3.step (volatile := vol) (scan := scan) (Call.update id v m)
    simp only [Call.mapId, hnm _ hid] at st
    have e := st.2
    simp only [Store.step, h2, if_true] at e hwf
    cases hs : ((R.abs s).content id).isSome
    · simp only [hs] at e hwf
      injection e with e1 e2
      refine ⟨(B.call s (.update id v m)).2, Backend.wrap_flag (V := V) (M := M) ?_,
        ⟨st.1, ?_, ?_, ?_⟩, ?_⟩
      · exact Prod.ext e1 rfl
      · rw [e2]; exact h2
      · rw [e2]; exact h3
      · rw [e2]; exact h4
      · rw [e2]; simp
    · simp only [hs, if_true] at e hwf
      injection e with e1 e2
      refine ⟨(B.call s (.update id v m)).2, Backend.wrap_flag (V := V) (M := M) ?_,
        ⟨st.1, ?_, ?_, ?_⟩, ?_⟩
      · exact Prod.ext e1 rfl
      · rw [e2]
      · rw [e2]; exact hwf
      · rw [e2]; intro x; simp only [put]; split
        · rintro -; simp_all
        · exact h4 x
      · rw [e2]; simp
  list := by
    intro s ⟨h1, h2, h3, h4⟩
    have st := R.step s (.list none) h1 (by simp [Call.ids]) (by simp [Call.metas])
    simp only [Call.mapId] at st
    have e := st.2
    simp only [Store.step, h2, if_true] at e
    injection e with e1 e2
    refine ⟨scan (R.abs s).order, (B.call s (.list none)).2,
      Backend.wrap_ids (V := V) (M := M) ?_, ⟨st.1, ?_, ?_, ?_⟩, ?_, ?_, ?_⟩
    · exact Prod.ext e1 rfl
    · rw [e2]; exact h2
    · rw [e2]; exact h3
    · rw [e2]; exact h4
    · rw [e2]
    · exact ((hscan _).nodup_iff).2 h3.1
    · intro id; rw [(hscan _).mem_iff]; exact h3.2 id

variable [ByteSize V] [ByteSize M]

/-- Open in-memory storage. -/
def memLawful : Lawful (memBackend V M) (fun _ => True) (fun _ => True) :=
  memRefines.lawful (fun _ _ => trivial) (fun _ _ => rfl) (fun _ => List.Perm.refl _)

omit [ByteSize V] [ByteSize M] in
/-- Ids that are their own file name. -/
def OwnName (env : DiskEnv M) (id : Id) : Prop := sanitize env id = id

/-- Open disk storage. -/
def diskLawful (env : DiskEnv M) (hg : ∀ l, (env.glob l).Perm l) :
    Lawful (diskBackend (V := V) env) (OwnName env) (fun m => env.picklable m = true) :=
  (diskRefines env).lawful (fun _ _ => trivial) (fun _ h => h) hg

/-- Open hybrid storage. -/
def hybLawful (env : DiskEnv M) (hg : ∀ l, (env.glob l).Perm l) :
    Lawful (hybBackend (V := V) env) (OwnName env) (fun m => env.picklable m = true) :=
  (hybRefines env (OwnName env) (fun x y hx hy h => by
    unfold OwnName at hx hy; rw [← hx, ← hy, h])).lawful (fun _ h => h) (fun _ h => h) hg

end Valori
