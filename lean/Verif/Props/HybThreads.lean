import Verif.Lemmas.Shared
import Verif.Lemmas.Dict
import Verif.Props.Storage

/-!
# C202: threads sharing one `HybridStorage`
-/

namespace Valori.Props

open Valori Spec

variable {V M : Type} [ByteSize V] [ByteSize M] (env : DiskEnv M)

/-- All calls but `get_stats` and `initialize`. -/
def isHybCall : HyCall V M → Prop
  | .stats => False
  | .setup => False
  | _ => True

/-- Calls that are not answered at once whatever the state. -/
def isHybWork : HyCall V M → Prop
  | .stats => False
  | .setup => False
  | .store id _ _ => id ≠ ""
  | _ => True

/-- The three parts are open, or all are closed. -/
abbrev flagsAgree (s : Hyb V M) : Prop := s.disk.inited = s.inited ∧ s.mem.inited = s.inited

/-- Alike for a call without lock. -/
def hybNear (y m : Hyb V M) : Prop :=
  y.disk.dir.vec.keys = m.disk.dir.vec.keys ∧ y.disk.inited = m.disk.inited ∧
    (y.inited = false → m.inited = false)

/-- The step at which a locked call takes effect: the vector file appears or disappears, or the disk
storage is closed. -/
def hybCommit : HyCall V M → Nat
  | .store _ _ _ => 1
  | .delete _ => 2
  | .update _ _ _ => 1
  | .close => 1
  | _ => 0

theorem hyb_keys_set_set {α : Type} (d : Dict String α) (k : String) (a b : α) :
    ((d.set k a).set k b).keys = (d.set k a).keys := by
  rw [Dict.keys_set, if_pos]
  rw [Dict.keys_set]; split <;> simp_all

theorem mem_inited_store (m : Mem V M) (id : Id) (v : V) (md : Option M) :
    (m.store id v md).2.inited = m.inited := by
  unfold Mem.store
  split <;> [rfl; (split <;> rfl)]

theorem mem_inited_delete (m : Mem V M) (id : Id) : (m.delete id).2.inited = m.inited := by
  unfold Mem.delete
  split <;> [rfl; (split <;> rfl)]

theorem mem_inited_update (m : Mem V M) (id : Id) (v : V) (md : Option M) :
    (m.update id v md).2.inited = m.inited := by
  unfold Mem.update
  split <;> [rfl; (split <;> rfl)]

theorem mem_inited_retrieve (m : Mem V M) (id : Id) : (m.retrieve id).2.inited = m.inited := by
  unfold Mem.retrieve
  split <;> [rfl; (split <;> rfl)]

theorem mem_inited_list (m : Mem V M) (l : Option Int) : (m.list l).2.inited = m.inited := by
  unfold Mem.list
  split <;> [rfl; (split <;> rfl)]

theorem mem_inited_evict (m : Mem V M) : (Hyb.evict m).2.inited = m.inited := by
  have h1 := mem_inited_list m (some 1)
  unfold Hyb.evict
  rcases hl : m.list (some 1) with ⟨_ | ⟨_ | ⟨x, _⟩⟩, m1⟩
  · rw [hl] at h1; exact h1
  · rw [hl] at h1; exact h1
  · rw [hl] at h1
    have h2 := mem_inited_delete m1 x
    simp only
    rcases hd : m1.delete x with ⟨_ | _, m2⟩ <;> rw [hd] at h2 <;> exact h2.trans h1

theorem mem_inited_remember (m : Mem V M) (l : Int) (id : Id) (v : V) (md : Option M) :
    (Hyb.remember m l id v md).2.inited = m.inited := by
  unfold Hyb.remember
  split
  · have h1 := mem_inited_store m id v md
    rcases hl : m.store id v md with ⟨_ | _, m1⟩ <;> rw [hl] at h1 <;> exact h1
  · have h0 := mem_inited_evict m
    rcases he : Hyb.evict m with ⟨_ | _, m0⟩
    · rw [he] at h0; exact h0
    · rw [he] at h0
      have h1 := mem_inited_store m0 id v md
      simp only
      rcases hl : m0.store id v md with ⟨_ | _, m1⟩ <;> rw [hl] at h1 <;> exact h1.trans h0

omit [ByteSize V] [ByteSize M] in
theorem disk_inited_store (d : Disk V M) (id : Id) (v : V) (md : Option M) :
    (d.store env id v md).2.inited = d.inited := by
  unfold Disk.store
  split <;> [rfl; (split <;> [rfl; (simp only; split <;> rfl)])]

omit [ByteSize V] [ByteSize M] in
theorem disk_inited_update (d : Disk V M) (id : Id) (v : V) (md : Option M) :
    (d.update env id v md).2.inited = d.inited := by
  unfold Disk.update
  split <;> [rfl; (simp only; split <;> [rfl; (split <;> rfl)])]

omit [ByteSize V] [ByteSize M] in
theorem disk_inited_delete (d : Disk V M) (id : Id) : (d.delete env id).2.inited = d.inited := by
  unfold Disk.delete
  split <;> [rfl; (simp only; split <;> rfl)]

omit [ByteSize V] [ByteSize M] in
theorem disk_retrieve_same (d : Disk V M) (id : Id) : (d.retrieve env id).2 = d := by
  unfold Disk.retrieve
  split
  · rfl
  · simp only
    repeat' split
    all_goals rfl

omit [ByteSize V] [ByteSize M] in
theorem disk_list_same (d : Disk V M) (l : Option Int) : (d.list env l).2 = d := by
  unfold Disk.list
  repeat' split
  all_goals rfl

theorem hyb_body (m : Hyb V M) (c : HyCall V M) (hm : flagsAgree m) (hc : isHybWork c)
    (hl : hybLocked c = true) :
    (hybBody env c).foldl (fun p f => f p) (m, .done) = ((hybSeq env m c).2, (hybSeq env m c).1) := by
  obtain ⟨mem, ⟨dir, count, di⟩, limit, hi⟩ := m
  obtain ⟨h1, h2⟩ := hm
  simp only at h1 h2
  subst h1
  cases c with
  | store id v md =>
    have hid : id ≠ "" := hc
    cases di
    · cases md <;>
      simp [hybBody, fileSteps, onFile, onTrue, hybSeq, Hyb.store, hid, asHyReply]
    · cases md with
      | none =>
        cases hk : dir.pkl.mem (sanitize env id) <;>
        rcases hr : Hyb.remember mem limit id v none with ⟨_ | _, mm⟩ <;>
        simp [hybBody, fileSteps, onFile, onTrue, hybSeq, Hyb.store, hid, asHyReply, Disk.store,
          Disk.writeSteps, runSteps, FsStep.run, hr, hk]
      | some md =>
        cases hk : env.picklable md <;>
        rcases hr : Hyb.remember mem limit id v (some md) with ⟨_ | _, mm⟩ <;>
        simp [hybBody, fileSteps, onFile, onTrue, hybSeq, Hyb.store, hid, asHyReply, Disk.store,
          Disk.writeSteps, runSteps, FsStep.run, hr, hk]
  | retrieve id =>
    cases di
    · simp [hybBody, hybSeq, Hyb.retrieve, asHyReply, Mem.retrieve, h2]
    · rcases hr : mem.retrieve id with ⟨_ | _ | r, mm⟩
      · simp [hybBody, hybSeq, Hyb.retrieve, asHyReply, hr]
      · rcases hd : Disk.retrieve env ⟨dir, count, true⟩ id with ⟨_ | _ | ⟨v, md⟩, d⟩
        · simp [hybBody, hybSeq, Hyb.retrieve, asHyReply, hr, hd]
        · simp [hybBody, hybSeq, Hyb.retrieve, asHyReply, hr, hd]
        · rcases hk : Hyb.remember mm limit id v md with ⟨_ | _, m2⟩ <;>
            simp [hybBody, hybSeq, Hyb.retrieve, asHyReply, hr, hd, hk]
      · simp [hybBody, hybSeq, Hyb.retrieve, asHyReply, hr]
  | delete id =>
    cases di
    · simp [hybBody, hybSeq, Hyb.delete, asHyReply, Mem.delete, h2]
    · rcases hr : mem.delete id with ⟨_ | a, mm⟩
      · simp [hybBody, hybSeq, Hyb.delete, asHyReply, hr]
      · cases hv : dir.vec.mem (sanitize env id) <;> cases hk : dir.pkl.mem (sanitize env id) <;>
          simp [hybBody, hybSeq, Hyb.delete, asHyReply, hr, hv, hk, Disk.delete, Disk.deleteSteps, runSteps,
            FsStep.run]
  | update id v md =>
    cases di
    · cases md <;>
      simp [hybBody, fileSteps, onFile, onTrue, hybSeq, Hyb.update, asHyReply]
    · cases hv : dir.vec.mem (sanitize env id)
      · cases md <;>
        simp [hybBody, fileSteps, onFile, onTrue, hybSeq, Hyb.update, asHyReply, Disk.update, hv]
      · cases md with
        | none =>
          cases hk : dir.pkl.mem (sanitize env id) <;>
          rcases hr : mem.update id v none with ⟨_ | _, mm⟩ <;>
          simp [hybBody, fileSteps, onFile, onTrue, hybSeq, Hyb.update, asHyReply, Disk.update, hv,
            Disk.writeSteps, runSteps, FsStep.run, hr, hk]
        | some md =>
          cases hk : env.picklable md <;>
          rcases hr : mem.update id v (some md) with ⟨_ | _, mm⟩ <;>
          simp [hybBody, fileSteps, onFile, onTrue, hybSeq, Hyb.update, asHyReply, Disk.update, hv,
            Disk.writeSteps, runSteps, FsStep.run, hr, hk]
  | close => simp [hybBody, hybSeq, Hyb.close]
  | list l => simp [hybLocked] at hl
  | stats => exact hc.elim
  | setup => exact hc.elim

theorem hyb_keep (m : Hyb V M) (c : HyCall V M) (hm : flagsAgree m) (hc : isHybCall c) :
    flagsAgree (hybSeq env m c).2 := by
  obtain ⟨h1, h2⟩ := hm
  cases c with
  | store id v md =>
    simp only [hybSeq, asHyReply, Hyb.store]
    split
    · exact ⟨h1, h2⟩
    split
    · exact ⟨h1, h2⟩
    have hd := disk_inited_store env m.disk id v md
    have hr := mem_inited_remember m.mem m.limit id v md
    rcases hd' : m.disk.store env id v md with ⟨_ | _ | _, d⟩ <;> rw [hd'] at hd
    · exact ⟨hd.trans h1, h2⟩
    · exact ⟨hd.trans h1, h2⟩
    · rcases hr' : Hyb.remember m.mem m.limit id v md with ⟨_ | _, mm⟩ <;> rw [hr'] at hr <;>
        exact ⟨hd.trans h1, hr.trans h2⟩
  | retrieve id =>
    simp only [hybSeq, asHyReply, Hyb.retrieve]
    split
    · exact ⟨h1, h2⟩
    have hg := mem_inited_retrieve m.mem id
    have hd := disk_retrieve_same env m.disk id
    rcases hg' : m.mem.retrieve id with ⟨_ | _ | _, mm⟩ <;> rw [hg'] at hg
    · exact ⟨h1, hg.trans h2⟩
    · rcases hd' : m.disk.retrieve env id with ⟨_ | _ | ⟨v, md⟩, d⟩ <;> rw [hd'] at hd <;>
        simp only at hd <;> subst hd
      · exact ⟨h1, hg.trans h2⟩
      · exact ⟨h1, hg.trans h2⟩
      · have hr := mem_inited_remember mm m.limit id v md
        simp only
        rcases hr' : Hyb.remember mm m.limit id v md with ⟨_ | _, m2⟩ <;> rw [hr'] at hr <;>
          exact ⟨h1, (hr.trans hg).trans h2⟩
    · exact ⟨h1, hg.trans h2⟩
  | delete id =>
    simp only [hybSeq, asHyReply, Hyb.delete]
    split
    · exact ⟨h1, h2⟩
    have hg := mem_inited_delete m.mem id
    have hd := disk_inited_delete env m.disk id
    rcases hg' : m.mem.delete id with ⟨_ | _, mm⟩ <;> rw [hg'] at hg
    · exact ⟨h1, hg.trans h2⟩
    · rcases hd' : m.disk.delete env id with ⟨_ | _, d⟩ <;> rw [hd'] at hd <;>
        exact ⟨hd.trans h1, hg.trans h2⟩
  | update id v md =>
    simp only [hybSeq, asHyReply, Hyb.update]
    split
    · exact ⟨h1, h2⟩
    have hd := disk_inited_update env m.disk id v md
    have hr := mem_inited_update m.mem id v md
    rcases hd' : m.disk.update env id v md with ⟨_ | _ | _, d⟩ <;> rw [hd'] at hd
    · exact ⟨hd.trans h1, h2⟩
    · exact ⟨hd.trans h1, h2⟩
    · rcases hr' : m.mem.update id v md with ⟨_ | _, mm⟩ <;> rw [hr'] at hr <;>
        exact ⟨hd.trans h1, hr.trans h2⟩
  | close => simp [hybSeq, Hyb.close, flagsAgree, Mem.close, Disk.close]
  | list l =>
    simp only [hybSeq, asHyReply, Hyb.list]
    split
    · exact ⟨h1, h2⟩
    · simp only [disk_list_same]
      exact ⟨h1, h2⟩
  | stats => exact hc.elim
  | setup => exact hc.elim

/-- Before a call takes effect nothing can be noticed without the lock. -/
theorem hyb_before (m : Hyb V M) (c : HyCall V M) (k : Nat) (hc : isHybWork c)
    (hl : hybLocked c = true) (hk : k ≤ hybCommit c) :
    hybNear (((hybBody env c).take k).foldl (fun p f => f p) (m, .done)).1 m := by
  have hr : hybNear m m := ⟨rfl, rfl, fun h => h⟩
  cases c with
  | store id v md =>
    obtain rfl | rfl : k = 0 ∨ k = 1 := by simp only [hybCommit] at hk; omega
    · exact hr
    · simp [hybBody, hr]
  | retrieve id =>
    obtain rfl : k = 0 := by simp only [hybCommit] at hk; omega
    exact hr
  | delete id =>
    obtain rfl | rfl | rfl : k = 0 ∨ k = 1 ∨ k = 2 := by simp only [hybCommit] at hk; omega
    · exact hr
    · rcases hd : m.mem.delete id with ⟨_ | _, mm⟩ <;> simp [hybBody, hd, hybNear]
    · rcases hd : m.mem.delete id with ⟨_ | _, mm⟩ <;> cases hi : m.disk.inited <;>
        simp [hybBody, hd, hybNear, hi]
  | update id v md =>
    obtain rfl | rfl : k = 0 ∨ k = 1 := by simp only [hybCommit] at hk; omega
    · exact hr
    · simp [hybBody, hr]
  | close =>
    obtain rfl | rfl : k = 0 ∨ k = 1 := by simp only [hybCommit] at hk; omega
    · exact hr
    · simp [hybBody, hybNear]
  | list l => simp [hybLocked] at hl
  | stats => exact hc.elim
  | setup => exact hc.elim

/-- What a call without lock can notice, and that a call that goes on writing found or made its file. -/
def hybView (keys : List String) (a b : Bool) (stem : String) (p : Hyb V M × HyReply V M) : Prop :=
  p.1.disk.dir.vec.keys = keys ∧ p.1.disk.inited = a ∧ p.1.inited = b ∧ (p.2 = .bool true → stem ∈ keys)

theorem fold_from {α : Type} (I : α → Prop) (l : List (α → α)) (n : Nat) (p : α)
    (h0 : I ((l.take n).foldl (fun p f => f p) p)) (hs : ∀ f ∈ l.drop n, ∀ q, I q → I (f q)) (k : Nat)
    (hk : n ≤ k) : I ((l.take k).foldl (fun p f => f p) p) := by
  have hrest : ∀ (fs : List (α → α)) q, (∀ f ∈ fs, ∀ q, I q → I (f q)) → I q →
      I (fs.foldl (fun p f => f p) q) := by
    intro fs
    induction fs with
    | nil => exact fun q _ h => h
    | cons f fs ih =>
      intro q hf h
      exact ih _ (fun g hg => hf g (List.mem_cons_of_mem _ hg)) (hf f List.mem_cons_self q h)
  obtain ⟨j, rfl⟩ := Nat.exists_eq_add_of_le hk
  rw [List.take_add, List.foldl_append]
  exact hrest _ _ (fun f hf => hs f (List.mem_of_mem_take hf)) h0

theorem onTrue_view {keys : List String} {a b : Bool} {stem : String} (f : Hyb V M → Hyb V M × HyReply V M)
    (h : ∀ s, s.disk.dir.vec.keys = keys → s.disk.inited = a → s.inited = b → stem ∈ keys →
      (f s).1.disk.dir.vec.keys = keys ∧ (f s).1.disk.inited = a ∧ (f s).1.inited = b)
    (p : Hyb V M × HyReply V M) (hp : hybView keys a b stem p) : hybView keys a b stem (onTrue f p) := by
  obtain ⟨s, r⟩ := p
  obtain ⟨h1, h2, h3, h4⟩ := hp
  by_cases hr : r = .bool true
  · subst hr
    have hm := h4 rfl
    obtain ⟨h5, h6, h7⟩ := h s h1 h2 h3 hm
    exact ⟨h5, h6, h7, fun _ => hm⟩
  · have : onTrue f (s, r) = (s, r) := by
      unfold onTrue
      split
      · rename_i e
        exact absurd e hr
      · rfl
    rw [this]
    exact ⟨h1, h2, h3, h4⟩

theorem onFile_view {keys : List String} {a b : Bool} {stem : String} (f : FsStep V M)
    (h : ∀ d : Dir V M, d.vec.keys = keys → stem ∈ keys → (f.run d).vec.keys = keys)
    (p : Hyb V M × HyReply V M) (hp : hybView keys a b stem p) : hybView keys a b stem (onFile f p) :=
  onTrue_view _ (fun s h1 h2 h3 h4 => ⟨h _ h1 h4, h2, h3⟩) p hp

theorem fileSteps_view {keys : List String} {a b : Bool} {stem : String} (v : V) (m : Option M)
    (f : Hyb V M × HyReply V M → Hyb V M × HyReply V M) (hf : f ∈ fileSteps env stem v m)
    (p : Hyb V M × HyReply V M) (hp : hybView keys a b stem p) : hybView keys a b stem (f p) := by
  have hset : ∀ (d : Dict String (File V)) x, d.keys = keys → stem ∈ keys → (d.set stem x).keys = keys := by
    intro d x h1 h2
    rw [Dict.keys_set, h1, if_pos h2]
  cases m with
  | none =>
    simp only [fileSteps, List.cons_append, List.nil_append, List.mem_cons, List.not_mem_nil, or_false] at hf
    rcases hf with rfl | rfl | rfl
    · exact onFile_view (.vecTorn stem) (fun d h1 h2 => hset _ _ h1 h2) p hp
    · exact onFile_view (.vecDone stem v) (fun d h1 h2 => hset _ _ h1 h2) p hp
    · refine onTrue_view _ (fun s h1 h2 h3 h4 => ?_) p hp
      split
      · exact ⟨h1, h2, h3⟩
      · exact ⟨h1, h2, h3⟩
  | some md =>
    simp only [fileSteps, List.cons_append, List.nil_append, List.mem_cons, List.not_mem_nil, or_false] at hf
    rcases hf with rfl | rfl | rfl | rfl
    · exact onFile_view (.vecTorn stem) (fun d h1 h2 => hset _ _ h1 h2) p hp
    · exact onFile_view (.vecDone stem v) (fun d h1 h2 => hset _ _ h1 h2) p hp
    · exact onFile_view (.pklTorn stem) (fun d h1 h2 => h1) p hp
    · refine onTrue_view _ (fun s h1 h2 h3 h4 => ?_) p hp
      split
      · exact ⟨h1, h2, h3⟩
      · exact ⟨h1, h2, h3⟩

/-- Once a call has taken effect nothing more can be noticed without the lock. -/
theorem hyb_after (m : Hyb V M) (c : HyCall V M) (k : Nat) (hm : flagsAgree m) (hc : isHybWork c)
    (hl : hybLocked c = true) (hk : hybCommit c < k) :
    hybNear (((hybBody env c).take k).foldl (fun p f => f p) (m, .done)).1 (hybSeq env m c).2 := by
  -- it is enough that all later states look alike
  have key0 : ∀ (keys : List String) (a b : Bool) (I : Hyb V M × HyReply V M → Prop) (n : Nat),
      (∀ q, I q → q.1.disk.dir.vec.keys = keys ∧ q.1.disk.inited = a ∧ q.1.inited = b) →
      I (((hybBody env c).take n).foldl (fun p f => f p) (m, .done)) →
      (∀ f ∈ (hybBody env c).drop n, ∀ q, I q → I (f q)) → n ≤ k →
      hybNear (((hybBody env c).take k).foldl (fun p f => f p) (m, .done)).1 (hybSeq env m c).2 := by
    intro keys a b I n hI h0 hs hnk
    have h1 := fold_from I _ n _ h0 hs k hnk
    have h2 := fold_from I _ n _ h0 hs (max n (hybBody env c).length) (le_max_left _ _)
    rw [List.take_of_length_le (le_max_right _ _), hyb_body env m c hm hc hl] at h2
    obtain ⟨e1, e2, e3⟩ := hI _ h1
    obtain ⟨g1, g2, g3⟩ := hI _ h2
    exact ⟨e1.trans g1.symm, e2.trans g2.symm, fun h => by rw [e3] at h; rw [g3]; exact h⟩
  have key := fun (keys : List String) (a b : Bool) (stem : String) (n : Nat) =>
    key0 keys a b (hybView keys a b stem) n (fun q hq => ⟨hq.1, hq.2.1, hq.2.2.1⟩)
  cases c with
  | store id v md =>
    have hk' : 2 ≤ k := hk
    have htail : ∀ (keys : List String) (a b : Bool), ∀ f ∈ (hybBody env (.store id v md)).drop 1, ∀ q,
        hybView keys a b (sanitize env id) q → hybView keys a b (sanitize env id) (f q) := by
      intro keys a b f hf q hq
      simp only [hybBody, List.cons_append, List.nil_append, List.drop_succ_cons, List.drop_zero,
        List.mem_append, List.mem_cons, List.not_mem_nil, or_false] at hf
      rcases hf with hf | rfl | rfl
      · exact fileSteps_view env v md f hf q hq
      · exact onTrue_view _ (fun s h1 h2 h3 _ => ⟨h1, h2, h3⟩) q hq
      · refine onTrue_view _ (fun s h1 h2 h3 _ => ?_) q hq
        split <;> exact ⟨h1, h2, h3⟩
    rcases hi : m.disk.inited with _ | _
    · refine key m.disk.dir.vec.keys false m.inited (sanitize env id) 1 ?_ (htail _ _ _) (by omega)
      simp [hybBody, hybView, hi]
    · refine key (m.disk.dir.vec.set (sanitize env id) .torn).keys true m.inited (sanitize env id) 2 ?_
        (fun f hf => htail _ _ _ f ?_) hk'
      · simp only [hybBody, fileSteps, List.cons_append, List.nil_append, List.take_succ_cons,
          List.take_zero, List.foldl_cons, List.foldl_nil, hi, if_true]
        refine ⟨rfl, hi, rfl, fun _ => ?_⟩
        rw [Dict.keys_set]
        split <;> simp_all
      · rw [← List.drop_drop (i := 1) (j := 1)] at hf
        exact List.mem_of_mem_drop hf
  | retrieve id =>
    refine key0 m.disk.dir.vec.keys m.disk.inited m.inited
      (fun q => q.1.disk.dir.vec.keys = m.disk.dir.vec.keys ∧ q.1.disk.inited = m.disk.inited ∧
        q.1.inited = m.inited) 0 (fun q h => h) ⟨rfl, rfl, rfl⟩ ?_ (by omega)
    rintro f hf ⟨s, r⟩ ⟨h1, h2, h3⟩
    simp only [hybBody, List.drop_zero, List.mem_cons, List.not_mem_nil, or_false] at hf
    simp only at h1 h2 h3
    rcases hf with rfl | rfl | rfl
    · simp only
      split <;> exact ⟨h1, h2, h3⟩
    · simp only
      split
      · have hd := disk_retrieve_same env s.disk id
        rcases hd' : s.disk.retrieve env id with ⟨_ | _ | ⟨v, md⟩, d⟩ <;> rw [hd'] at hd <;>
          simp only at hd <;> subst hd <;> exact ⟨h1, h2, h3⟩
      · exact ⟨h1, h2, h3⟩
    · simp only
      split
      · split <;> exact ⟨h1, h2, h3⟩
      · exact ⟨h1, h2, h3⟩
  | delete id =>
    have htail : ∀ (keys : List String) (a b : Bool), ∀ f ∈ (hybBody env (.delete id)).drop 3,
        ∀ q : Hyb V M × HyReply V M,
        (q.1.disk.dir.vec.keys = keys ∧ q.1.disk.inited = a ∧ q.1.inited = b) →
        ((f q).1.disk.dir.vec.keys = keys ∧ (f q).1.disk.inited = a ∧ (f q).1.inited = b) := by
      rintro keys a b f hf ⟨s, r⟩ ⟨h1, h2, h3⟩
      simp only [hybBody, List.drop_succ_cons, List.drop_zero, List.mem_cons, List.not_mem_nil,
        or_false] at hf
      simp only at h1 h2 h3
      rcases hf with rfl | rfl
      · simp only
        split
        · split <;> exact ⟨h1, h2, h3⟩
        · exact ⟨h1, h2, h3⟩
      · simp only
        split <;> exact ⟨h1, h2, h3⟩
    exact key0 _ _ _ (fun q => q.1.disk.dir.vec.keys = _ ∧ q.1.disk.inited = _ ∧ q.1.inited = _) 3
      (fun q h => h) ⟨rfl, rfl, rfl⟩ (htail _ _ _) hk
  | update id v md =>
    have htail : ∀ (keys : List String) (a b : Bool), ∀ f ∈ (hybBody env (.update id v md)).drop 2, ∀ q,
        hybView keys a b (sanitize env id) q → hybView keys a b (sanitize env id) (f q) := by
      intro keys a b f hf q hq
      simp only [hybBody, List.cons_append, List.nil_append, List.drop_succ_cons, List.drop_zero,
        List.mem_append, List.mem_cons, List.not_mem_nil, or_false] at hf
      rcases hf with hf | rfl
      · exact fileSteps_view env v md f hf q hq
      · refine onTrue_view _ (fun s h1 h2 h3 _ => ?_) q hq
        split <;> exact ⟨h1, h2, h3⟩
    have h2 : hybView m.disk.dir.vec.keys m.disk.inited m.inited (sanitize env id)
        (((hybBody env (.update id v md)).take 2).foldl (fun p f => f p) (m, .done)) := by
      rcases hi : m.disk.inited with _ | _
      · simp [hybBody, hybView, onTrue, hi]
      · simp only [hybBody, List.cons_append, List.nil_append, List.take_succ_cons,
          List.take_zero, List.foldl_cons, List.foldl_nil, hi, if_true]
        refine ⟨rfl, hi, rfl, fun h => ?_⟩
        rw [Dict.mem_keys]
        simpa [onTrue, Dict.mem_eq] using h
    exact key _ _ _ _ 2 h2 (htail _ _ _) hk
  | close =>
    have hk' : k = 2 ∨ 3 ≤ k := by simp only [hybCommit] at hk; omega
    rcases hk' with rfl | hk'
    · simp [hybBody, hybNear, hybSeq, Hyb.close]
    · rw [List.take_of_length_le (by simpa [hybBody] using hk'), hyb_body env m .close hm hc hl]
      exact ⟨rfl, rfl, fun h => h⟩
  | list l => simp [hybLocked] at hl
  | stats => exact hc.elim
  | setup => exact hc.elim

theorem hyb_sharedOk : SharedOk (hybShared env : SharedObj (Hyb V M) (HyCall V M) (HyReply V M)) (hybSeq env)
    flagsAgree isHybCall isHybWork hybNear hybCommit where
  refl m _ := ⟨rfl, rfl, fun h => h⟩
  keep m c hm hc := hyb_keep env m c hm hc
  answer y m c r hm hn hc h := by
    obtain ⟨-, -, h3⟩ := hn
    cases c with
    | stats => exact hc.elim
    | setup => exact hc.elim
    | close => simp [hybShared, hybCheck] at h
    | store id v md =>
      simp only [hybShared, hybCheck] at h
      split at h
      · rename_i hid
        simp only [Option.some.injEq] at h
        subst h
        simp [hybSeq, Hyb.store, hid, asHyReply]
      · rename_i hid
        split at h
        · rename_i hi
          simp only [Option.some.injEq] at h
          subst h
          simp [hybSeq, Hyb.store, hid, asHyReply, h3 (by simpa using hi)]
        · simp at h
    | retrieve id =>
      simp only [hybShared, hybCheck, Option.ite_none_right_eq_some, Option.some.injEq] at h
      obtain ⟨hi, rfl⟩ := h
      simp [hybSeq, Hyb.retrieve, asHyReply, h3 (by simpa using hi)]
    | delete id =>
      simp only [hybShared, hybCheck, Option.ite_none_right_eq_some, Option.some.injEq] at h
      obtain ⟨hi, rfl⟩ := h
      simp [hybSeq, Hyb.delete, asHyReply, h3 (by simpa using hi)]
    | update id v md =>
      simp only [hybShared, hybCheck, Option.ite_none_right_eq_some, Option.some.injEq] at h
      obtain ⟨hi, rfl⟩ := h
      simp [hybSeq, Hyb.update, asHyReply, h3 (by simpa using hi)]
    | list l =>
      simp only [hybShared, hybCheck, Option.ite_none_right_eq_some, Option.some.injEq] at h
      obtain ⟨hi, rfl⟩ := h
      simp [hybSeq, Hyb.list, asHyReply, h3 (by simpa using hi)]
  pass y c hc h := by
    cases c with
    | store id v md =>
      intro hid
      simp [hybShared, hybCheck, hid] at h
    | stats => exact hc.elim
    | setup => exact hc.elim
    | _ => trivial
  okay c h := by
    cases c with
    | stats => exact h.elim
    | setup => exact h.elim
    | _ => trivial
  body m c hm _ ha hl := hyb_body env m c hm ha hl
  len c hc hl := by
    cases c with
    | list l => simp [hybShared, hybLocked] at hl
    | stats => exact hc.elim
    | setup => exact hc.elim
    | _ => simp [hybShared, hybBody, hybCommit, fileSteps]
  before m c k _ _ ha hl hk := hyb_before env m c k ha hl hk
  after m c k hm _ ha hl hk := hyb_after env m c k hm ha hl hk
  look c hc ha hl := by
    cases c with
    | list l =>
      refine ⟨_, rfl, fun y m hm hn => ?_⟩
      obtain ⟨h1, h2, -⟩ := hn
      obtain ⟨h3, -⟩ := hm
      rcases hi : m.inited with _ | _
      · rw [hi] at h3
        rw [h3] at h2
        simp [hybSeq, Hyb.list, hi, Disk.list, h2, asHyReply]
      · rw [hi] at h3
        rw [h3] at h2
        cases l <;> simp [hybSeq, Hyb.list, hi, Disk.list, h2, h3, asHyReply, h1] <;> rw [← hi]
    | stats => exact hc.elim
    | setup => exact hc.elim
    | _ => simp [hybShared, hybLocked] at hl

/-- **C202 (partial).** Any number of threads may use one hybrid storage at once, and close it.  Whatever
the schedule, at every moment there is an order of calls, made one after the other, which has the calls of
every thread in the order of its program and gives every thread the replies it got; at most the call a thread
is in at this moment may count as made already.  When no thread is inside a call, these are exactly the
calls that returned, and the storage is in the state of this sequence.  Missing for the full claim: calls of
`get_stats` and of `initialize`. -/
theorem C202_hybrid_threads_partial (s : Hyb V M) (hs : flagsAgree s) (progs : Nat → List (HyCall V M))
    (hp : ∀ t, ∀ c ∈ progs t, isHybCall c) (sched : List Nat) :
    let e := (Sys.begin s progs).moves (hybShared env) sched
    ∃ s' todo got log, Explains (hybSeq env) s s' progs todo got log ∧
      (∀ t, (todo t = (e.thr t).todo ∧ got t = (e.thr t).got) ∨
        ((∃ k r, (e.thr t).pc = .inside k r) ∧ (∃ c, (e.thr t).todo = c :: todo t) ∧
          ∃ r, got t = (e.thr t).got ++ [r])) ∧
      ((∀ t k r, (e.thr t).pc ≠ .inside k r) → e.obj = s') := by
  intro e
  obtain ⟨pre, m, ans, log, h⟩ := shared_run (hyb_sharedOk env) s hs progs hp sched
  change SharedInv _ _ _ _ _ _ s progs e pre m ans log at h
  refine ⟨m, _, _, log, h.expl, fun t => ?_, fun hn => ?_⟩
  · have ht := h.pcs t
    unfold AtPc at ht
    rcases ha : ans t with _ | r
    · exact .inl ⟨by simp [leftOver, ha], by simp [gotSoFar, ha]⟩
    · right
      rw [ha] at ht
      split at ht
      · simp at ht
      · simp at ht
      · rename_i k reg hpc
        obtain ⟨c, rest, h1, -⟩ := ht
        exact ⟨⟨k, reg, hpc⟩, ⟨c, by simp [leftOver, ha, h1]⟩, r, by simp [gotSoFar, ha]⟩
  · have hl := h.lock
    unfold AtLock at hl
    split at hl
    · exact hl
    · obtain ⟨_, _, k, r, -, h2, -⟩ := hl
      exact absurd h2 (hn _ k r)

/-- **C202** No thread waits for ever: if some thread has something left to do, then some thread can make
a step that changes something. -/
theorem C202_no_deadlock (s : Hyb V M) (hs : flagsAgree s) (progs : Nat → List (HyCall V M))
    (hp : ∀ t, ∀ c ∈ progs t, isHybCall c) (sched : List Nat) (t : Nat)
    (ht : (((Sys.begin s progs).moves (hybShared env) sched).thr t).todo ≠ []) :
    let e := (Sys.begin s progs).moves (hybShared env) sched
    ∃ t', (e.move (hybShared env) t').thr t' ≠ e.thr t' := by
  intro e
  obtain ⟨pre, m, ans, log, h⟩ := shared_run (hyb_sharedOk env) s hs progs hp sched
  change SharedInv _ _ _ _ _ _ s progs e pre m ans log at h
  change (e.thr t).todo ≠ [] at ht
  have hpc' : ∀ (t : Nat) (a b : Thr (HyCall V M) (HyReply V M)), a.pc ≠ b.pc → a ≠ b := by
    rintro t a b h rfl
    exact h rfl
  have inside : ∀ t c rest k r, (e.thr t).todo = c :: rest → (e.thr t).pc = .inside k r →
      (e.move (hybShared env) t).thr t ≠ e.thr t := by
    intro t c rest k r h1 h2
    unfold Sys.move
    rw [h1]
    simp only [h2]
    split
    · refine hpc' t _ _ ?_
      simp [h2]
    · refine hpc' t _ _ ?_
      simp [Sys.finish, h2]
  have hlk := h.lock
  unfold AtLock at hlk
  rcases hl : e.lock with _ | o
  · refine ⟨t, ?_⟩
    obtain ⟨c, rest, htodo⟩ := List.exists_cons_of_ne_nil ht
    rcases hpc : (e.thr t).pc with _ | _ | ⟨k, r⟩
    · unfold Sys.move
      rw [htodo]
      simp only [hpc]
      split
      · intro h'
        have := congrArg (fun x : Thr (HyCall V M) (HyReply V M) => x.todo.length) h'
        simp [Sys.finish, htodo] at this
      · refine hpc' t _ _ ?_
        simp only [Function.update_self, hpc]
        split <;> simp
    · unfold Sys.move
      rw [htodo]
      simp only [hpc, hl]
      refine hpc' t _ _ ?_
      simp [hpc]
    · exact inside t c rest k r htodo hpc
  · rw [hl] at hlk
    obtain ⟨c, rest, k, r, h1, h2, -⟩ := hlk
    exact ⟨o, inside o c rest k r h1 h2⟩

/-! With `get_stats`, and with `initialize`. -/

/-- An open hybrid storage holding one vector under `"a"`. -/
def oneHyb : Hyb Nat Nat := ((Hyb.opened ⟨[], []⟩ 10).init.store exEnv "a" 7 none).2

/-- The same without the vector. -/
def noHyb : Hyb Nat Nat := (oneHyb.delete exEnv "a").2

/-- One thread asks for the statistics, another deletes the vector. -/
def statsAndDelete : Nat → List (HyCall Nat Nat)
  | 0 => [.stats]
  | 1 => [.delete "a"]
  | _ => []

/-- The vector is deleted between the two halves of the statistics. -/
def betweenHalves : List Nat := [0, 0] ++ List.replicate 8 1 ++ [0, 0]

/-- One thread opens the storage again, another closes it. -/
def setupAndClose : Nat → List (HyCall Nat Nat)
  | 0 => [.setup]
  | 1 => [.close]
  | _ => []

/-- The storage is closed just before `initialize` sets the last flag. -/
def beforeFlag : List Nat := [0, 0, 0] ++ List.replicate 6 1 ++ [0, 0]

theorem sd_replies (cs : List (HyCall Nat Nat)) (hcs : ∀ c ∈ cs, c = .stats ∨ c = .delete "a") :
    ∀ s, s = oneHyb ∨ s = noHyb →
      HyReply.stats (some (some 1, some 0)) ∉ (oneByOne (hybSeq exEnv) s cs).1 := by
  induction cs with
  | nil => intro s _; simp [oneByOne]
  | cons c cs ih =>
    intro s hs
    have hr : ((hybSeq exEnv s c).2 = oneHyb ∨ (hybSeq exEnv s c).2 = noHyb) ∧
        (hybSeq exEnv s c).1 ≠ .stats (some (some 1, some 0)) := by
      rcases hs with rfl | rfl <;> rcases hcs c List.mem_cons_self with rfl | rfl <;> decide
    simp only [oneByOne, List.mem_cons, not_or]
    exact ⟨fun h => hr.2 h.symm, ih (fun c hc => hcs c (List.mem_cons_of_mem _ hc)) _ hr.1⟩

theorem sc_flags (cs : List (HyCall Nat Nat)) (hcs : ∀ c ∈ cs, c = .setup ∨ c = .close) :
    ∀ s, flagsAgree s → flagsAgree (oneByOne (hybSeq exEnv) s cs).2 := by
  induction cs with
  | nil => intro s h; exact h
  | cons c cs ih =>
    intro s h
    refine ih (fun c hc => hcs c (List.mem_cons_of_mem _ hc)) _ ?_
    rcases hcs c List.mem_cons_self with rfl | rfl <;> exact ⟨rfl, rfl⟩

theorem explains_calls {σ C R : Type} {call : σ → C → R × σ} {x x' : σ} {progs todo : Nat → List C}
    {got : Nat → List R} {log : List (Nat × C × R)} (h : Explains call x x' progs todo got log) (c : C)
    (hc : c ∈ log.map fun e => e.2.1) : ∃ t, c ∈ progs t := by
  obtain ⟨e, he, rfl⟩ := List.mem_map.1 hc
  refine ⟨e.1, ?_⟩
  rw [← h.order e.1]
  exact List.mem_append_left _ (List.mem_map.2 ⟨e.2, List.mem_map.2 ⟨e, by simp [he], rfl⟩, rfl⟩)

theorem moves_other {σ C R : Type} (O : SharedObj σ C R) (t : Nat) (sched : List Nat) (ht : t ∉ sched) :
    ∀ s : Sys σ C R, (s.moves O sched).thr t = s.thr t := by
  induction sched with
  | nil => exact fun s => rfl
  | cons u us ih =>
    intro s
    rw [List.mem_cons, not_or] at ht
    have : (s.move O u).thr t = s.thr t := by
      unfold Sys.move
      repeat' split
      all_goals simp only [Sys.finish, Function.update_of_ne ht.1]
    exact (ih ht.2 _).trans this

/-- **C202 (refuted).** With `get_stats` the claim is false: a thread may be told that one vector is in memory
and none on disk, which is true at no moment, for every vector in memory is also on disk.  With
`initialize` it is false as well: a storage that is closed while another thread initialises it may end up
looking open with both of its parts closed, as no order of the two calls leaves it. -/
theorem C202_hybrid_threads_refuted :
    (¬ ∀ (s : Hyb Nat Nat) (progs : Nat → List (HyCall Nat Nat)) (sched : List Nat), flagsAgree s →
      (∀ t, ∀ c ∈ progs t, isHybCall c ∨ c = .stats) →
      ∃ s' log, Explains (hybSeq exEnv) s s' progs
        (fun t => (((Sys.begin s progs).moves (hybShared exEnv) sched).thr t).todo)
        (fun t => (((Sys.begin s progs).moves (hybShared exEnv) sched).thr t).got) log) ∧
    ¬ ∀ (s : Hyb Nat Nat) (progs : Nat → List (HyCall Nat Nat)) (sched : List Nat), flagsAgree s →
      (∀ t, ∀ c ∈ progs t, isHybCall c ∨ c = .setup) →
      (∀ t k r, (((Sys.begin s progs).moves (hybShared exEnv) sched).thr t).pc ≠ .inside k r) →
      ∃ log, Explains (hybSeq exEnv) s ((Sys.begin s progs).moves (hybShared exEnv) sched).obj progs
        (fun t => (((Sys.begin s progs).moves (hybShared exEnv) sched).thr t).todo)
        (fun t => (((Sys.begin s progs).moves (hybShared exEnv) sched).thr t).got) log := by
  constructor
  · intro h
    obtain ⟨s', log, h⟩ := h oneHyb statsAndDelete betweenHalves (by decide) (by
      rintro (_ | _ | t) c hc
      · exact .inr (by simpa [statsAndDelete] using hc)
      · left; obtain rfl : c = .delete "a" := by simpa [statsAndDelete] using hc
        trivial
      · simp [statsAndDelete] at hc)
    have hgot : (((Sys.begin oneHyb statsAndDelete).moves (hybShared exEnv) betweenHalves).thr 0).got =
        [.stats (some (some 1, some 0))] := by decide
    have h0 := h.seen 0
    rw [hgot] at h0
    have hmem : HyReply.stats (some (some 1, some 0)) ∈ log.map fun e => e.2.2 := by
      have : HyReply.stats (some (some 1, some 0)) ∈ (ofThread 0 log).map fun e => e.2 := by rw [h0]; simp
      simp only [ofThread, List.map_map, List.mem_map, List.mem_filter, Function.comp_apply] at this ⊢
      obtain ⟨e, ⟨he, -⟩, h1⟩ := this
      exact ⟨e, he, h1⟩
    have := sd_replies _ (fun c hc => by
      obtain ⟨t, ht⟩ := explains_calls h c hc
      rcases t with _ | _ | t
      · exact .inl (by simpa [statsAndDelete] using ht)
      · exact .inr (by simpa [statsAndDelete] using ht)
      · simp [statsAndDelete] at ht) oneHyb (.inl rfl)
    rw [h.replies] at this
    exact this hmem
  · intro h
    obtain ⟨log, h⟩ := h oneHyb setupAndClose beforeFlag (by decide) (by
      rintro (_ | _ | t) c hc
      · exact .inr (by simpa [setupAndClose] using hc)
      · left; obtain rfl : c = .close := by simpa [setupAndClose] using hc
        trivial
      · simp [setupAndClose] at hc) (by
      intro t k r
      by_cases ht : t ∈ beforeFlag
      · have : t = 0 ∨ t = 1 := by
          have h' : t = 0 ∨ t = 1 ∨ t = 0 := by simpa [beforeFlag] using ht
          omega
        rcases this with rfl | rfl
        · have : (((Sys.begin oneHyb setupAndClose).moves (hybShared exEnv) beforeFlag).thr 0).pc = .out := by
            decide
          rw [this]; simp
        · have : (((Sys.begin oneHyb setupAndClose).moves (hybShared exEnv) beforeFlag).thr 1).pc = .out := by
            decide
          rw [this]; simp
      · rw [moves_other _ _ _ ht]
        simp [Sys.begin])
    have := sc_flags _ (fun c hc => by
      obtain ⟨t, ht⟩ := explains_calls h c hc
      rcases t with _ | _ | t
      · exact .inl (by simpa [setupAndClose] using ht)
      · exact .inr (by simpa [setupAndClose] using ht)
      · simp [setupAndClose] at ht) oneHyb (by decide)
    rw [h.replies] at this
    have hno : ¬ flagsAgree ((Sys.begin oneHyb setupAndClose).moves (hybShared exEnv) beforeFlag).obj := by
      decide
    exact hno this

/-- One thread stores, another lists. -/
def storeAndList : Nat → List (HyCall Nat Nat)
  | 0 => [.store "a" 1 none]
  | 1 => [.list none]
  | _ => []

/-- A thread that lists sees the vector another thread is still storing. -/
example : (((Sys.begin (Hyb.opened ⟨[], []⟩ 10).init storeAndList).moves (hybShared exEnv)
      [0, 0, 0, 0, 1, 1, 1]).thr 1).got = [.ids ["a"]] ∧
    (((Sys.begin (Hyb.opened ⟨[], []⟩ 10).init storeAndList).moves (hybShared exEnv)
      [0, 0, 0, 0, 1, 1, 1]).thr 0).got = [] := by decide

/-- The hypotheses of C202 are met by it. -/
example : flagsAgree (Hyb.opened ⟨[], []⟩ 10 : Hyb Nat Nat).init ∧
    ∀ t, ∀ c ∈ storeAndList t, isHybCall c := by
  refine ⟨by decide, ?_⟩
  rintro (_ | _ | t) c hc
  · obtain rfl : c = .store "a" 1 none := by simpa [storeAndList] using hc
    trivial
  · obtain rfl : c = .list none := by simpa [storeAndList] using hc
    trivial
  · simp [storeAndList] at hc

end Valori.Props
