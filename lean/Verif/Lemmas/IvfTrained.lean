import Verif.Model.IvfTrained
import Verif.Lemmas.HnswConc
import Mathlib.Data.List.Induction

/-!
# Lemmas about threads that insert, search, update and delete on one trained IVF index
-/

namespace Valori
open Spec (Hit)
variable {V M D : Type}

/-- A call writes or deletes an id. -/
def opTouches (op : FOp V M) (id : Id) : Prop := opWrites op id ∨ opDeletes op id

namespace TConc

theorem run_snocT [LinearOrder D] (env : IConcEnv V D) (ops : Nat → FOp V M) (s : TConc V M D) (sched : List Nat)
    (t : Nat) : s.run env ops (sched ++ [t]) = (s.run env ops sched).step env ops t := by
  simp [run, List.foldl_append]

/-! ## What a state says about one id -/

/-- Two states agree on an id. -/
structure Same (id : Id) (s s' : TConc V M D) : Prop where
  store : s'.store.get? id = s.store.get? id
  cache : s'.cache.get? id = s.cache.get? id
  ids : s'.ids.count id = s.ids.count id
  lists : ∀ r, (s'.content r).count id = (s.content r).count id

theorem Same.refl (id : Id) (s : TConc V M D) : Same id s s := ⟨rfl, rfl, rfl, fun _ => rfl⟩

theorem Same.trans {id : Id} {a b c : TConc V M D} (h : Same id a b) (h' : Same id b c) : Same id a c :=
  ⟨h'.store.trans h.store, h'.cache.trans h.cache, h'.ids.trans h.ids, fun r => (h'.lists r).trans (h.lists r)⟩

theorem Same.mem {id : Id} {s s' : TConc V M D} (h : Same id s s') (r : Nat) : id ∈ s'.content r ↔ id ∈ s.content r := by
  rw [← List.count_pos_iff, h.lists r, List.count_pos_iff]

theorem Same.of_eq {s s' : TConc V M D} (h1 : s'.store = s.store) (h2 : s'.cache = s.cache) (h3 : s'.ids = s.ids)
    (h4 : s'.lists = s.lists) (id : Id) : Same id s s' :=
  ⟨by rw [h1], by rw [h2], by rw [h3], fun r => by simp only [content, h4]⟩

theorem same_thr (id : Id) (s : TConc V M D) (n : Nat) (f : Nat → TAt V M D) :
    Same id s { s with count := n, thr := f } := ⟨rfl, rfl, rfl, fun _ => rfl⟩

/-- A statement that concerns one id only. -/
def OnlyAt (y : Id) (s s' : TConc V M D) : Prop := ∀ x, x ≠ y → Same x s s'

/-- A statement that only takes things away. -/
structure Less (s s' : TConc V M D) : Prop where
  store : ∀ id, s.store.get? id = none → s'.store.get? id = none
  cache : ∀ id, s.cache.get? id = none → s'.cache.get? id = none
  ids : ∀ id, s'.ids.count id ≤ s.ids.count id
  lists : ∀ id r, (s'.content r).count id ≤ (s.content r).count id

/-- What no statement of interest changes. -/
structure Fixed (s s' : TConc V M D) : Prop where
  clusters : s'.clusters = s.clusters
  cents : s'.cents = s.cents
  len : s'.lists.length = s.lists.length

theorem Fixed.trans {a b c : TConc V M D} (h : Fixed a b) (h' : Fixed b c) : Fixed a c :=
  ⟨h'.clusters.trans h.clusters, h'.cents.trans h.cents, h'.len.trans h.len⟩

/-- No list has the id. -/
def Nowhere (s : TConc V M D) (id : Id) : Prop := ∀ r, id ∉ s.content r

/-- At most one list has the id, once, and it is the list of a cluster. -/
structure Single (s : TConc V M D) (id : Id) : Prop where
  once : ∀ r, (s.content r).count id ≤ 1
  uniq : ∀ r r', id ∈ s.content r → id ∈ s.content r' → r = r'
  listed : ∀ r, id ∈ s.content r → ∃ k, (k, r) ∈ s.clusters

/-- The id is in the list of cluster `k`, once, and in no other. -/
def Placed (s : TConc V M D) (id : Id) (k : Nat) : Prop :=
  ∃ o, s.clusters.get? k = some o ∧ ∀ r, (s.content r).count id = if r = o then 1 else 0

/-- The id is nowhere in the index nor in the storage. -/
structure Gone (s : TConc V M D) (id : Id) : Prop where
  store : s.store.get? id = none
  cache : s.cache.get? id = none
  ids : s.ids.count id = 0
  lists : Nowhere s id

variable {s s' : TConc V M D} {id : Id}

theorem Nowhere.same (h : Nowhere s id) (e : Same id s s') : Nowhere s' id := fun r hr => h r ((e.mem r).1 hr)

theorem Nowhere.count (h : Nowhere s id) (r : Nat) : (s.content r).count id = 0 := List.count_eq_zero.2 (h r)

theorem Single.same (h : Single s id) (e : Same id s s') (f : s'.clusters = s.clusters) : Single s' id :=
  ⟨fun r => by rw [e.lists]; exact h.once r, fun r r' a b => h.uniq r r' ((e.mem r).1 a) ((e.mem r').1 b),
    fun r a => by rw [f]; exact h.listed r ((e.mem r).1 a)⟩

theorem Less.mem (h : Less s s') {r : Nat} (hr : id ∈ s'.content r) : id ∈ s.content r := by
  have := List.count_pos_iff.2 hr
  exact List.count_pos_iff.1 (lt_of_lt_of_le this (h.lists id r))

theorem Single.less (h : Single s id) (e : Less s s') (f : s'.clusters = s.clusters) : Single s' id :=
  ⟨fun r => (e.lists id r).trans (h.once r), fun r r' a b => h.uniq r r' (e.mem a) (e.mem b),
    fun r a => by rw [f]; exact h.listed r (e.mem a)⟩

theorem Placed.same {k : Nat} (h : Placed s id k) (e : Same id s s') (f : s'.clusters = s.clusters) :
    Placed s' id k := by
  obtain ⟨o, h1, h2⟩ := h
  exact ⟨o, by rw [f]; exact h1, fun r => by rw [e.lists, h2]⟩

theorem Placed.single {k : Nat} (h : Placed s id k) : Single s id := by
  obtain ⟨o, h1, h2⟩ := h
  have hm : ∀ r, id ∈ s.content r → r = o := by
    intro r hr
    by_contra hne
    have := List.count_pos_iff.2 hr
    rw [h2, if_neg hne] at this
    omega
  refine ⟨fun r => by (rw [h2]; split <;> omega), fun r r' a b => by rw [hm r a, hm r' b], fun r a => ⟨k, ?_⟩⟩
  rw [hm r a]; exact Dict.mem_of_get? h1

theorem Gone.same (h : Gone s id) (e : Same id s s') : Gone s' id :=
  ⟨by rw [e.store, h.store], by rw [e.cache, h.cache], by rw [e.ids, h.ids], h.lists.same e⟩

theorem Gone.less (h : Gone s id) (e : Less s s') : Gone s' id :=
  ⟨e.store _ h.store, e.cache _ h.cache, Nat.le_zero.1 (h.ids ▸ e.ids id), fun r hr => h.lists r (e.mem hr)⟩

theorem Gone.single (h : Gone s id) : Single s id :=
  ⟨fun r => by rw [h.lists.count]; omega, fun r _ a _ => absurd a (h.lists r), fun r a => absurd a (h.lists r)⟩

theorem content_modify (hl : s'.lists = s.lists.modify o f) (r : Nat) (hf : f [] = [] ∨ o < s.lists.length) :
    s'.content r = if r = o then f (s.content r) else s.content r := by
  simp only [content, hl, List.getElem?_modify]
  by_cases e : r = o
  · subst e
    cases hz : s.lists[r]? with
    | none =>
      rcases hf with hf | hf
      · simp [hf]
      · rw [List.getElem?_eq_getElem hf] at hz; cases hz
    | some y => simp
  · have e' : ¬ o = r := fun h => e h.symm
    simp [e, e']

/-- Appending an id to a list. -/
theorem link_only {o : Nat} (h1 : s'.store = s.store) (h2 : s'.cache = s.cache) (h3 : s'.ids = s.ids)
    (h4 : s'.lists = s.lists.modify o (· ++ [id])) (ho : o < s.lists.length) : OnlyAt id s s' := by
  intro x hx
  refine ⟨by rw [h1], by rw [h2], by rw [h3], fun r => ?_⟩
  rw [content_modify h4 r (.inr ho)]
  split
  · rw [List.count_append, List.count_singleton]
    simp [Ne.symm hx]
  · rfl

theorem unlink_only {o : Nat} (h1 : s'.store = s.store) (h2 : s'.cache = s.cache) (h3 : s'.ids = s.ids)
    (h4 : s'.lists = s.lists.modify o (fun x => removeFirst x id)) : OnlyAt id s s' := by
  intro x hx
  refine ⟨by rw [h1], by rw [h2], by rw [h3], fun r => ?_⟩
  rw [content_modify h4 r (.inl rfl)]
  split
  · exact List.count_erase_of_ne hx
  · rfl

theorem unlink_less {o : Nat} (h1 : s'.store = s.store) (h2 : s'.cache = s.cache) (h3 : s'.ids = s.ids)
    (h4 : s'.lists = s.lists.modify o (fun x => removeFirst x id)) : Less s s' := by
  refine ⟨fun x => by rw [h1]; exact fun h => h, fun x => by rw [h2]; exact fun h => h, fun x => by rw [h3],
    fun x r => ?_⟩
  rw [content_modify h4 r (.inl rfl)]
  split
  · exact List.Sublist.count_le x List.erase_sublist
  · exact le_refl _

theorem unlink_count {o : Nat} (h4 : s'.lists = s.lists.modify o (fun x => removeFirst x id)) (r : Nat) :
    (s'.content r).count id = if r = o then (s.content r).count id - 1 else (s.content r).count id := by
  rw [content_modify h4 r (.inl rfl)]
  split
  · exact List.count_erase_self
  · rfl

theorem quiet_less (h1 : s'.store = s.store) (h2 : s'.cache = s.cache) (h3 : s'.ids = s.ids)
    (h4 : s'.lists = s.lists) : Less s s' :=
  ⟨fun x => by rw [h1]; exact fun h => h, fun x => by rw [h2]; exact fun h => h, fun x => by rw [h3],
    fun x r => by simp only [content, h4]; exact le_refl _⟩

/-! ## Insertions -/

/-- The stages of a row: nothing done, stored, listed, cached, in its cluster. -/
def RowAt (env : IConcEnv V D) (s : TConc V M D) (r : FRow V M) : Nat → Prop
  | 0 => Gone s r.id
  | 1 => s.store.get? r.id = some (r.v, r.m) ∧ s.ids.count r.id = 0 ∧ s.cache.get? r.id = none ∧ Nowhere s r.id
  | 2 => s.store.get? r.id = some (r.v, r.m) ∧ s.ids.count r.id = 1 ∧ s.cache.get? r.id = none ∧ Nowhere s r.id
  | 3 => s.store.get? r.id = some (r.v, r.m) ∧ s.ids.count r.id = 1 ∧ s.cache.get? r.id = some r.v ∧ Nowhere s r.id
  | _ => s.store.get? r.id = some (r.v, r.m) ∧ s.ids.count r.id = 1 ∧ s.cache.get? r.id = some r.v ∧
      Placed s r.id (env.near s.cents r.v)

theorem RowAt.same {env : IConcEnv V D} {r : FRow V M} {n : Nat} (h : RowAt env s r n) (e : Same r.id s s')
    (f : s'.clusters = s.clusters) (g : s'.cents = s.cents) : RowAt env s' r n := by
  rcases n with _ | _ | _ | _ | n
  · exact Gone.same h e
  · exact ⟨e.store.trans h.1, e.ids.trans h.2.1, e.cache.trans h.2.2.1, h.2.2.2.same e⟩
  · exact ⟨e.store.trans h.1, e.ids.trans h.2.1, e.cache.trans h.2.2.1, h.2.2.2.same e⟩
  · exact ⟨e.store.trans h.1, e.ids.trans h.2.1, e.cache.trans h.2.2.1, h.2.2.2.same e⟩
  · exact ⟨e.store.trans h.1, e.ids.trans h.2.1, e.cache.trans h.2.2.1, by rw [g]; exact h.2.2.2.same e f⟩

/-- The stage of row `j` when the insertion is at a statement. -/
def insStage : TIns → Nat → Nat
  | .store i, j => if j < i then 3 else 0
  | .ids i, j => if j < i then 3 else if j = i then 1 else 0
  | .cache i, j => if j < i then 3 else if j = i then 2 else 0
  | .len, _ | .count _, _ => 3
  | .choose i, j | .has i _, j | .new i _, j | .push i _, j => if j < i then 4 else 3

/-- What an insertion knows at a statement. -/
def insLocal (env : IConcEnv V D) (rows : List (FRow V M)) (s : TConc V M D) : TIns → Prop
  | .ids i | .cache i => i < rows.length
  | .has i k | .push i k => ∃ r, rows[i]? = some r ∧ k = env.near s.cents r.v
  | .new _ _ => False
  | _ => True

/-- An inserting thread at a place. -/
def AtIns (env : IConcEnv V D) (rows : List (FRow V M)) (s : TConc V M D) : TAt V M D → Prop
  | .start => ∀ (j : Nat) (r : FRow V M), rows[j]? = some r → RowAt env s r 0
  | .ins p => (∀ (j : Nat) (r : FRow V M), rows[j]? = some r → RowAt env s r (insStage p j)) ∧ insLocal env rows s p
  | .done (.ids l) => l = rows.map FRow.id ∧ ∀ (j : Nat) (r : FRow V M), rows[j]? = some r → RowAt env s r 4
  | _ => False

theorem AtIns.same {env : IConcEnv V D} {rows : List (FRow V M)} {a : TAt V M D} (h : AtIns env rows s a)
    (e : ∀ r ∈ rows, Same r.id s s') (f : Fixed s s') : AtIns env rows s' a := by
  have hm : ∀ {j : Nat} {r : FRow V M} {n : Nat}, rows[j]? = some r → RowAt env s r n → RowAt env s' r n :=
    fun hr h => h.same (e _ (List.mem_of_getElem? hr)) f.clusters f.cents
  cases a with
  | start => exact fun j r hr => hm hr (h j r hr)
  | ins p =>
    refine ⟨fun j r hr => hm hr (h.1 j r hr), ?_⟩
    have := h.2
    cases p <;> simp only [insLocal, f.cents] at this ⊢ <;> exact this
  | done x =>
    cases x with
    | ids l => exact ⟨h.1, fun j r hr => hm hr (h.2 j r hr)⟩
    | _ => exact h
  | _ => exact h

theorem nodup_rows {rows : List (FRow V M)} (hn : (rows.map FRow.id).Nodup) {i j : Nat} {r r' : FRow V M}
    (hi : rows[i]? = some r) (hj : rows[j]? = some r') (hne : j ≠ i) : r'.id ≠ r.id := by
  intro e
  have h1 : (rows.map FRow.id)[j]? = some r'.id := by simp [hj]
  have h2 : (rows.map FRow.id)[i]? = some r'.id := by simp [hi, e]
  have hlj : j < (rows.map FRow.id).length := (List.getElem?_eq_some_iff.1 h1).1
  have hli : i < (rows.map FRow.id).length := (List.getElem?_eq_some_iff.1 h2).1
  rcases Nat.lt_or_gt_of_ne hne with h | h
  · exact (List.nodup_iff_getElem?_ne_getElem?.1 hn) j i h hli (h1.trans h2.symm)
  · exact (List.nodup_iff_getElem?_ne_getElem?.1 hn) i j h hlj (h2.trans h1.symm)

/-- Every cluster an id may go to has a list, and the lists exist. -/
structure Ready (env : IConcEnv V D) (s : TConc V M D) : Prop where
  all : ∀ v, s.clusters.mem (env.near s.cents v) = true
  valid : ∀ k r, (k, r) ∈ s.clusters → r < s.lists.length

theorem Ready.fixed {env : IConcEnv V D} (h : Ready env s) (f : Fixed s s') : Ready env s' :=
  ⟨by rw [f.clusters, f.cents]; exact h.all, by rw [f.clusters, f.len]; exact h.valid⟩

theorem place {k o : Nat} (hk : s.clusters.get? k = some o) (hv : o < s.lists.length) (hn : Nowhere s id)
    (hc : s'.clusters = s.clusters) (h4 : s'.lists = s.lists.modify o (· ++ [id])) : Placed s' id k := by
  refine ⟨o, by rw [hc]; exact hk, fun r => ?_⟩
  rw [content_modify h4 r (.inr hv)]
  split
  · rw [List.count_append, hn.count]; simp
  · exact hn.count r

theorem ins_step [LinearOrder D] {env : IConcEnv V D} {ops : Nat → FOp V M} {rows : List (FRow V M)} {t : Nat}
    (ho : ops t = .insert rows) (hn : (rows.map FRow.id).Nodup) (hr : Ready env s)
    (h : AtIns env rows s (s.thr t)) :
    AtIns env rows (s.step env ops t) ((s.step env ops t).thr t) ∧ Fixed s (s.step env ops t) ∧
      ∀ x, x ∉ rows.map FRow.id → Same x s (s.step env ops t) := by
  have key : ∀ (s' : TConc V M D) (p' : TIns) (i : Nat) (r : FRow V M), rows[i]? = some r → Fixed s s' →
      OnlyAt r.id s s' → s'.thr t = .ins p' → (∀ p, s.thr t = .ins p → ∀ j, j ≠ i → insStage p' j = insStage p j) →
      (∃ p, s.thr t = .ins p) → RowAt env s' r (insStage p' i) → insLocal env rows s' p' →
      AtIns env rows s' (s'.thr t) ∧ Fixed s s' ∧ ∀ x, x ∉ rows.map FRow.id → Same x s s' := by
    intro s' p' i r hi f oa ht hst ⟨p, hp⟩ hrow hloc
    rw [hp] at h
    refine ⟨?_, f, fun x hx => oa x fun e => hx (e ▸ List.mem_map.2 ⟨r, List.mem_of_getElem? hi, rfl⟩)⟩
    rw [ht]
    refine ⟨fun j r' hj => ?_, hloc⟩
    by_cases e : j = i
    · subst e; rw [hi] at hj; cases hj; exact hrow
    · rw [hst p hp j e]
      exact (h.1 j r' hj).same (oa _ (nodup_rows hn hi hj e)) f.clusters f.cents
  have quiet : ∀ (a : TAt V M D) (n : Nat) (s' : TConc V M D),
      s' = { s with count := n, thr := Function.update s.thr t a } → AtIns env rows s' a →
      AtIns env rows s' (s'.thr t) ∧ Fixed s s' ∧ ∀ x, x ∉ rows.map FRow.id → Same x s s' := by
    rintro a n s' rfl h'
    exact ⟨by rw [show ({ s with count := n, thr := Function.update s.thr t a } : TConc V M D).thr t = a from
      Function.update_self ..]; exact h', ⟨rfl, rfl, rfl⟩, fun x _ => same_thr x s n _⟩
  have tr : ∀ (n : Nat) (f : Nat → TAt V M D) {r : FRow V M} {k : Nat}, RowAt env s r k →
      RowAt env { s with count := n, thr := f } r k := fun n f r k h => h.same (same_thr _ s n f) rfl rfl
  cases ha : s.thr t with
  | start =>
    rw [ha] at h
    simp only [step, ho, ha]
    refine quiet (.ins (.store 0)) s.count _ rfl ⟨fun j r hj => tr _ _ ?_, trivial⟩
    simpa [insStage] using h j r hj
  | ins p =>
    have h' := h
    rw [ha] at h'
    obtain ⟨h1, h2⟩ := h'
    simp only [step, ho, ha]
    cases p with
    | store i =>
      simp only [stepIns]
      cases hi : rows[i]? with
      | none =>
        refine quiet (.ins .len) s.count _ rfl ⟨fun j r hj => tr _ _ ?_, trivial⟩
        have hlt := (List.getElem?_eq_some_iff.1 hj).1
        have hge := List.getElem?_eq_none_iff.1 hi
        have := h1 j r hj
        rw [insStage, if_pos (by omega)] at this
        exact this
      | some r =>
        have hrow := h1 i r hi
        simp only [insStage, lt_irrefl, if_false] at hrow
        refine key _ (.ids i) i r hi ⟨rfl, rfl, rfl⟩ ?_ (Function.update_self ..) ?_ ⟨_, ha⟩ ?_
          (List.getElem?_eq_some_iff.1 hi).1
        · intro x hx
          exact ⟨by simp only [Dict.get?_set, if_neg hx], rfl, rfl, fun _ => rfl⟩
        · intro p hp j hj
          rw [ha] at hp; cases hp
          simp only [insStage, hj, if_false]
        · simp only [insStage, lt_irrefl, if_false, if_true]
          exact ⟨by simp only [Dict.get?_set, if_true], hrow.ids, hrow.cache, hrow.lists⟩
    | ids i =>
      simp only [stepIns]
      obtain ⟨r, hi⟩ : ∃ r, rows[i]? = some r := ⟨_, List.getElem?_eq_getElem h2⟩
      simp only [hi]
      have hrow := h1 i r hi
      simp only [insStage, lt_irrefl, if_false, if_true] at hrow
      refine key _ (.cache i) i r hi ⟨rfl, rfl, rfl⟩ ?_ (Function.update_self ..) ?_ ⟨_, ha⟩ ?_ h2
      · intro x hx
        exact ⟨rfl, rfl, by simp [Ne.symm hx], fun _ => rfl⟩
      · intro p hp j hj
        rw [ha] at hp; cases hp
        simp only [insStage, hj, if_false]
      · simp only [insStage, lt_irrefl, if_false, if_true]
        exact ⟨hrow.1, by simp [hrow.2.1], hrow.2.2.1, hrow.2.2.2⟩
    | cache i =>
      simp only [stepIns]
      obtain ⟨r, hi⟩ : ∃ r, rows[i]? = some r := ⟨_, List.getElem?_eq_getElem h2⟩
      simp only [hi]
      have hrow := h1 i r hi
      simp only [insStage, lt_irrefl, if_false, if_true] at hrow
      refine key _ (.store (i + 1)) i r hi ⟨rfl, rfl, rfl⟩ ?_ (Function.update_self ..) ?_ ⟨_, ha⟩ ?_ trivial
      · intro x hx
        exact ⟨rfl, by simp only [Dict.get?_set, if_neg hx], rfl, fun _ => rfl⟩
      · intro p hp j hj
        rw [ha] at hp; cases hp
        simp only [insStage, hj, if_false]
        by_cases e : j < i
        · rw [if_pos e, if_pos (by omega)]
        · rw [if_neg e, if_neg (by omega)]
      · rw [insStage, if_pos (by omega)]
        exact ⟨hrow.1, hrow.2.1, by simp only [Dict.get?_set, if_true], hrow.2.2.2⟩
    | len => exact quiet (.ins (.count s.ids.length)) s.count _ rfl ⟨fun j r hj => tr _ _ (h1 j r hj), trivial⟩
    | count n =>
      refine quiet (.ins (.choose 0)) n _ rfl ⟨fun j r hj => tr _ _ ?_, trivial⟩
      simpa [insStage] using h1 j r hj
    | choose i =>
      simp only [stepIns]
      cases hi : rows[i]? with
      | none =>
        refine quiet (.done (.ids (rows.map FRow.id))) s.count _ rfl ⟨rfl, fun j r hj => tr _ _ ?_⟩
        have hlt := (List.getElem?_eq_some_iff.1 hj).1
        have hge := List.getElem?_eq_none_iff.1 hi
        have := h1 j r hj
        rw [insStage, if_pos (by omega)] at this
        exact this
      | some r =>
        have hrow := h1 i r hi
        simp only [insStage, lt_irrefl, if_false] at hrow
        simp only [hrow.2.2.1]
        exact quiet (.ins (.has i (env.near s.cents r.v))) s.count _ rfl
          ⟨fun j r' hj => tr _ _ (h1 j r' hj), r, hi, rfl⟩
    | has i k =>
      obtain ⟨r, hi, hk⟩ := h2
      have hm : s.clusters.mem k = true := by rw [hk]; exact hr.all _
      simp only [stepIns, hm, if_true]
      exact quiet (.ins (.push i k)) s.count _ rfl ⟨fun j r' hj => tr _ _ (h1 j r' hj), r, hi, hk⟩
    | new i k => exact h2.elim
    | push i k =>
      obtain ⟨r, hi, hk⟩ := h2
      have hm : s.clusters.mem k = true := by rw [hk]; exact hr.all _
      obtain ⟨o, hko⟩ := Option.isSome_iff_exists.1 hm
      have hv := hr.valid k o (Dict.mem_of_get? hko)
      have hrow := h1 i r hi
      simp only [insStage, lt_irrefl, if_false] at hrow
      simp only [stepIns, hi, hko]
      refine key _ (.choose (i + 1)) i r hi ⟨rfl, rfl, by simp⟩ (link_only rfl rfl rfl rfl hv) (Function.update_self ..)
        ?_ ⟨_, ha⟩ ?_ trivial
      · intro p hp j hj
        rw [ha] at hp; cases hp
        simp only [insStage]
        by_cases e : j < i
        · rw [if_pos e, if_pos (by omega)]
        · rw [if_neg e, if_neg (by omega)]
      · rw [insStage, if_pos (by omega)]
        exact ⟨hrow.1, hrow.2.1, hrow.2.2.1, place (by rw [← hk]; exact hko) hv hrow.2.2.2 rfl rfl⟩
  | done x =>
    have e0 : s.step env ops t = s := by simp only [step, ho, ha]
    rw [e0]
    exact ⟨h, ⟨rfl, rfl, rfl⟩, fun x _ => .refl x s⟩
  | _ => rw [ha] at h; exact h.elim

/-! ## Updates -/

/-- The first `p` entries of the dictionary of clusters have lists without the id. -/
def Clear (s : TConc V M D) (id : Id) (p : Nat) : Prop :=
  ∀ (q : Nat) (k r : Nat), q < p → s.clusters[q]? = some (k, r) → id ∉ s.content r

theorem Clear.same {p : Nat} (h : Clear s id p) (e : Same id s s') (f : s'.clusters = s.clusters) : Clear s' id p :=
  fun q k r hq hk hr => h q k r hq (by rw [← f]; exact hk) ((e.mem r).1 hr)

theorem Clear.less {p : Nat} (h : Clear s id p) (e : Less s s') (f : s'.clusters = s.clusters) : Clear s' id p :=
  fun q k r hq hk hr => h q k r hq (by rw [← f]; exact hk) (e.mem hr)

theorem Clear.next {p k r : Nat} (h : Clear s id p) (hk : s.clusters[p]? = some (k, r)) (hr : id ∉ s.content r) :
    Clear s id (p + 1) := by
  intro q k' r' hq hk'
  by_cases e : q = p
  · subst e
    rw [hk] at hk'; cases hk'; exact hr
  · exact h q k' r' (by omega) hk'

theorem Clear.all {p : Nat} (h : Clear s id p) (hs : Single s id) (hp : s.clusters[p]? = none) : Nowhere s id := by
  intro r hr
  obtain ⟨k, hk⟩ := hs.listed r hr
  obtain ⟨q, hq⟩ := List.mem_iff_getElem?.1 hk
  have h1 := List.getElem?_eq_none_iff.1 hp
  have h2 := (List.getElem?_eq_some_iff.1 hq).1
  exact h q k r (by omega) hq hr

/-- What is done of an update at a statement, apart from the storage. -/
def UpdProg (env : IConcEnv V D) (id : Id) (v : V) (s : TConc V M D) : TUpd → Prop
  | .cache => (s.cache.get? id).isSome ∧ Single s id
  | .iter => s.cache.get? id = some v ∧ Single s id
  | .loop n p => s.cache.get? id = some v ∧ Single s id ∧ n = s.clusters.length ∧ Clear s id p
  | .test n p r => s.cache.get? id = some v ∧ Single s id ∧ n = s.clusters.length ∧ Clear s id p ∧
      ∃ k, s.clusters[p]? = some (k, r)
  | .remL r => s.cache.get? id = some v ∧ Single s id ∧ id ∈ s.content r
  | .choose => s.cache.get? id = some v ∧ Nowhere s id
  | .has k | .push k => s.cache.get? id = some v ∧ Nowhere s id ∧ k = env.near s.cents v
  | .new _ => False

theorem UpdProg.same {env : IConcEnv V D} {v : V} {p : TUpd} (h : UpdProg env id v s p) (e : Same id s s')
    (f : Fixed s s') : UpdProg env id v s' p := by
  cases p with
  | cache => exact ⟨by rw [e.cache]; exact h.1, h.2.same e f.clusters⟩
  | iter => exact ⟨e.cache.trans h.1, h.2.same e f.clusters⟩
  | loop n p => exact ⟨e.cache.trans h.1, h.2.1.same e f.clusters, by rw [f.clusters]; exact h.2.2.1,
      h.2.2.2.same e f.clusters⟩
  | test n p r => exact ⟨e.cache.trans h.1, h.2.1.same e f.clusters, by rw [f.clusters]; exact h.2.2.1,
      h.2.2.2.1.same e f.clusters, by rw [f.clusters]; exact h.2.2.2.2⟩
  | remL r => exact ⟨e.cache.trans h.1, h.2.1.same e f.clusters, (e.mem r).2 h.2.2⟩
  | choose => exact ⟨e.cache.trans h.1, h.2.same e⟩
  | has k => exact ⟨e.cache.trans h.1, h.2.1.same e, by rw [f.cents]; exact h.2.2⟩
  | push k => exact ⟨e.cache.trans h.1, h.2.1.same e, by rw [f.cents]; exact h.2.2⟩
  | new k => exact h

/-- The storage and the list of ids during an update of a stored id. -/
def UpdBase (id : Id) (v : V) (m : Option M) (s0 s : TConc V M D) : Prop :=
  (s0.store.get? id).isSome ∧ s.store.get? id = some (v, m) ∧ s.ids.count id = s0.ids.count id

theorem UpdBase.same {v : V} {m : Option M} {s0 : TConc V M D} (h : UpdBase id v m s0 s) (e : Same id s s') :
    UpdBase id v m s0 s' := ⟨h.1, e.store.trans h.2.1, e.ids.trans h.2.2⟩

/-- An updating thread at a place. -/
def AtUpd (env : IConcEnv V D) (id : Id) (v : V) (m : Option M) (s0 s : TConc V M D) : TAt V M D → Prop
  | .start => Same id s0 s
  | .upd p => UpdBase id v m s0 s ∧ UpdProg env id v s p
  | .done (.flag true) => UpdBase id v m s0 s ∧ s.cache.get? id = some v ∧ Placed s id (env.near s.cents v)
  | .done (.flag false) => s0.store.get? id = none ∧ Same id s0 s
  | _ => False

theorem AtUpd.same {env : IConcEnv V D} {v : V} {m : Option M} {s0 : TConc V M D} {a : TAt V M D}
    (h : AtUpd env id v m s0 s a) (e : Same id s s') (f : Fixed s s') : AtUpd env id v m s0 s' a := by
  cases a with
  | start => exact Same.trans h e
  | upd p => exact ⟨h.1.same e, h.2.same e f⟩
  | done x =>
    cases x with
    | flag b =>
      cases b
      · exact ⟨h.1, h.2.trans e⟩
      · exact ⟨h.1.same e, e.cache.trans h.2.1, by rw [f.cents]; exact h.2.2.same e f.clusters⟩
    | _ => exact h
  | _ => exact h

theorem upd_step [LinearOrder D] {env : IConcEnv V D} {ops : Nat → FOp V M} {id : Id} {v : V} {m : Option M} {t : Nat}
    {s0 : TConc V M D} (ho : ops t = .update id v m) (hr : Ready env s)
    (h0 : (s0.store.get? id).isSome → (s0.cache.get? id).isSome) (hs0 : Single s0 id)
    (hc0 : s.clusters = s0.clusters) (h : AtUpd env id v m s0 s (s.thr t)) :
    AtUpd env id v m s0 (s.step env ops t) ((s.step env ops t).thr t) ∧ Fixed s (s.step env ops t) ∧
      OnlyAt id s (s.step env ops t) := by
  have key : ∀ (a : TAt V M D) (s' : TConc V M D), s'.thr t = a → Fixed s s' → OnlyAt id s s' →
      AtUpd env id v m s0 s' a → AtUpd env id v m s0 s' (s'.thr t) ∧ Fixed s s' ∧ OnlyAt id s s' := by
    intro a s' ht f oa h'
    exact ⟨by rw [ht]; exact h', f, oa⟩
  have quiet : ∀ (a : TAt V M D) (s' : TConc V M D), s' = { s with thr := Function.update s.thr t a } →
      AtUpd env id v m s0 s a → AtUpd env id v m s0 s' (s'.thr t) ∧ Fixed s s' ∧ OnlyAt id s s' := by
    rintro a s' rfl h'
    exact key a _ (Function.update_self ..) ⟨rfl, rfl, rfl⟩ (fun x _ => same_thr x s s.count _)
      (h'.same (same_thr id s s.count _) ⟨rfl, rfl, rfl⟩)
  cases ha : s.thr t with
  | start =>
    rw [ha] at h
    simp only [step, ho, ha]
    have hsm : Same id s0 s := h
    by_cases hm : s.store.mem id
    · simp only [hm, if_true]
      have hst : (s0.store.get? id).isSome := by rw [← hsm.store]; exact hm
      refine key (.upd .cache) _ (Function.update_self ..) ⟨rfl, rfl, rfl⟩ ?_ ⟨⟨hst, ?_, hsm.ids⟩, ?_, ?_⟩
      · intro x hx
        exact ⟨by simp only [Dict.get?_set, if_neg hx], rfl, rfl, fun _ => rfl⟩
      · simp only [Dict.get?_set, if_true]
      · change (s.cache.get? id).isSome
        rw [hsm.cache]; exact h0 hst
      · have h2 := hs0.same hsm hc0
        exact ⟨h2.once, h2.uniq, h2.listed⟩
    · simp only [hm, Bool.false_eq_true, if_false]
      refine quiet (.done (.flag false)) _ rfl ⟨?_, hsm⟩
      rw [← hsm.store]
      cases hg : s.store.get? id with
      | none => rfl
      | some x => exact absurd (by unfold Dict.mem; rw [hg]; rfl) hm
  | upd p =>
    rw [ha] at h
    obtain ⟨hb, hp⟩ := h
    simp only [step, ho, ha]
    cases p with
    | cache =>
      refine key (.upd .iter) _ (Function.update_self ..) ⟨rfl, rfl, rfl⟩ ?_ ⟨hb, ?_, ?_⟩
      · intro x hx
        exact ⟨rfl, by simp only [stepUpd, Dict.get?_set, if_neg hx], rfl, fun _ => rfl⟩
      · simp only [stepUpd, Dict.get?_set, if_true]
      · exact ⟨hp.2.once, hp.2.uniq, hp.2.listed⟩
    | iter =>
      exact quiet (.upd (.loop s.clusters.length 0)) _ rfl ⟨hb, hp.1, hp.2, rfl, fun q _ _ hq => absurd hq (by omega)⟩
    | loop n p =>
      obtain ⟨h1, h2, h3, h4⟩ := hp
      simp only [stepUpd, h3, ne_eq, not_true_eq_false, if_false]
      cases hk : s.clusters[p]? with
      | none => exact quiet (.upd .choose) _ rfl ⟨hb, h1, h4.all h2 hk⟩
      | some x =>
        obtain ⟨k, r⟩ := x
        exact quiet (.upd (.test s.clusters.length p r)) _ rfl ⟨hb, h1, h2, rfl, h4, k, hk⟩
    | test n p r =>
      obtain ⟨h1, h2, h3, h4, k, hk⟩ := hp
      simp only [stepUpd]
      by_cases hm : id ∈ s.content r
      · simp only [hm, if_true]
        exact quiet (.upd (.remL r)) _ rfl ⟨hb, h1, h2, hm⟩
      · simp only [hm, if_false]
        exact quiet (.upd (.loop n (p + 1))) _ rfl ⟨hb, h1, h2, h3, h4.next hk hm⟩
    | remL r =>
      obtain ⟨h1, h2, h3⟩ := hp
      simp only [stepUpd, h3, if_true]
      refine key (.upd .choose) _ (Function.update_self ..) ⟨rfl, rfl, by simp⟩ (unlink_only rfl rfl rfl rfl)
        ⟨hb, h1, fun r' hr' => ?_⟩
      have hc := List.count_pos_iff.2 hr'
      rw [unlink_count (s := s) (o := r) rfl] at hc
      split at hc
      · rename_i e; subst e
        have := h2.once r'
        omega
      · rename_i e
        exact e (h2.uniq r' r (List.count_pos_iff.1 hc) h3)
    | choose => exact quiet (.upd (.has (env.near s.cents v))) _ rfl ⟨hb, hp.1, hp.2, rfl⟩
    | has k =>
      have hm : s.clusters.mem k = true := by rw [hp.2.2]; exact hr.all _
      simp only [stepUpd, hm, if_true]
      exact quiet (.upd (.push k)) _ rfl ⟨hb, hp⟩
    | push k =>
      obtain ⟨h1, h2, h3⟩ := hp
      have hm : s.clusters.mem k = true := by rw [h3]; exact hr.all _
      obtain ⟨o, hko⟩ := Option.isSome_iff_exists.1 hm
      have hv := hr.valid k o (Dict.mem_of_get? hko)
      simp only [stepUpd, hko]
      exact key (.done (.flag true)) _ (Function.update_self ..) ⟨rfl, rfl, by simp⟩ (link_only rfl rfl rfl rfl hv)
        ⟨hb, h1, place (by rw [← h3]; exact hko) hv h2 rfl rfl⟩
    | new k => exact hp.elim
  | done x =>
    have e0 : s.step env ops t = s := by simp only [step, ho, ha]
    rw [e0]
    exact ⟨h, ⟨rfl, rfl, rfl⟩, fun x _ => .refl x s⟩
  | _ => rw [ha] at h; exact h.elim

/-! ## Deletions -/

/-- What is done of an id when its deletion has come to a statement. -/
def DelProg (s : TConc V M D) (id : Id) : TDel → Prop
  | .stor => True
  | .has => s.store.get? id = none ∧ Single s id ∧ s.ids.count id ≤ 1
  | .rem => s.store.get? id = none ∧ Single s id ∧ s.ids.count id = 1
  | .pop => s.store.get? id = none ∧ Single s id ∧ s.ids.count id = 0
  | .iter => s.store.get? id = none ∧ Single s id ∧ s.ids.count id = 0 ∧ s.cache.get? id = none
  | .loop n p => s.store.get? id = none ∧ Single s id ∧ s.ids.count id = 0 ∧ s.cache.get? id = none ∧
      n = s.clusters.length ∧ Clear s id p
  | .test n p r => s.store.get? id = none ∧ Single s id ∧ s.ids.count id = 0 ∧ s.cache.get? id = none ∧
      n = s.clusters.length ∧ Clear s id p ∧ ∃ k, s.clusters[p]? = some (k, r)
  | .remL n p r => s.store.get? id = none ∧ Single s id ∧ s.ids.count id = 0 ∧ s.cache.get? id = none ∧
      n = s.clusters.length ∧ Clear s id p ∧ (∃ k, s.clusters[p]? = some (k, r)) ∧ id ∈ s.content r

theorem DelProg.same {p : TDel} (h : DelProg s id p) (e : Same id s s') (f : s'.clusters = s.clusters) :
    DelProg s' id p := by
  cases p with
  | stor => trivial
  | has => exact ⟨e.store.trans h.1, h.2.1.same e f, by rw [e.ids]; exact h.2.2⟩
  | rem => exact ⟨e.store.trans h.1, h.2.1.same e f, by rw [e.ids]; exact h.2.2⟩
  | pop => exact ⟨e.store.trans h.1, h.2.1.same e f, by rw [e.ids]; exact h.2.2⟩
  | iter => exact ⟨e.store.trans h.1, h.2.1.same e f, by rw [e.ids]; exact h.2.2.1, e.cache.trans h.2.2.2⟩
  | loop n p =>
    obtain ⟨h1, h2, h3, h4, h5, h6⟩ := h
    exact ⟨e.store.trans h1, h2.same e f, by rw [e.ids]; exact h3, e.cache.trans h4, by rw [f]; exact h5, h6.same e f⟩
  | test n p r =>
    obtain ⟨h1, h2, h3, h4, h5, h6, h7⟩ := h
    exact ⟨e.store.trans h1, h2.same e f, by rw [e.ids]; exact h3, e.cache.trans h4, by rw [f]; exact h5, h6.same e f,
      by rw [f]; exact h7⟩
  | remL n p r =>
    obtain ⟨h1, h2, h3, h4, h5, h6, h7, h8⟩ := h
    exact ⟨e.store.trans h1, h2.same e f, by rw [e.ids]; exact h3, e.cache.trans h4, by rw [f]; exact h5, h6.same e f,
      by rw [f]; exact h7, (e.mem r).2 h8⟩

/-- The reply so far: `True` if the ids so far are different and were all stored at the beginning. -/
def OkIs (s0 : TConc V M D) (l : List Id) (ok : Bool) : Prop :=
  ok = true ↔ l.Nodup ∧ ∀ id ∈ l, (s0.store.get? id).isSome

/-- A deletion of `l` that has come to a statement for id number `i`. -/
structure DelAt (l : List Id) (s0 s : TConc V M D) (i : Nat) (ok : Bool) (p : TDel) : Prop where
  past : ∀ id ∈ l.take i, Gone s id
  future : ∀ id ∈ l, id ∉ l.take i → (p = .stor ∨ l[i]? ≠ some id) → Same id s0 s
  lt : p ≠ .stor → i < l.length
  now : ∀ id, l[i]? = some id → DelProg s id p
  reply : OkIs s0 (l.take (if p = .stor then i else i + 1)) ok

/-- A deleting thread at a place. -/
def AtDel (l : List Id) (s0 s : TConc V M D) : TAt V M D → Prop
  | .start => ∀ id ∈ l, Same id s0 s
  | .del i ok p => DelAt l s0 s i ok p
  | .delLen ok | .delCount ok _ | .done (.flag ok) => (∀ id ∈ l, Gone s id) ∧ OkIs s0 l ok
  | _ => False

theorem AtDel.same {l : List Id} {s0 : TConc V M D} {a : TAt V M D} (h : AtDel l s0 s a)
    (e : ∀ id ∈ l, Same id s s') (f : s'.clusters = s.clusters) : AtDel l s0 s' a := by
  cases a with
  | start => exact fun id hid => (h id hid).trans (e id hid)
  | del i ok p =>
    obtain ⟨h1, h2, h3, h4, h5⟩ := h
    exact ⟨fun id hid => (h1 id hid).same (e id (List.mem_of_mem_take hid)),
      fun id hid a b => (h2 id hid a b).trans (e id hid), h3,
      fun id hid => (h4 id hid).same (e id (List.mem_of_getElem? hid)) f, h5⟩
  | delLen ok => exact ⟨fun id hid => (h.1 id hid).same (e id hid), h.2⟩
  | delCount ok n => exact ⟨fun id hid => (h.1 id hid).same (e id hid), h.2⟩
  | done x =>
    cases x with
    | flag b => exact ⟨fun id hid => (h.1 id hid).same (e id hid), h.2⟩
    | _ => exact h
  | _ => exact h

theorem take_snoc {l : List Id} {i : Nat} {x : Id} (h : l[i]? = some x) : l.take (i + 1) = l.take i ++ [x] := by
  rw [List.take_add_one, h]; rfl

theorem del_step [LinearOrder D] {env : IConcEnv V D} {ops : Nat → FOp V M} {l : List Id} {t : Nat}
    {s0 : TConc V M D} (ho : ops t = .delete l) (hs0 : ∀ id, Single s0 id) (hi0 : ∀ id, s0.ids.count id ≤ 1)
    (hk1 : s.store.keys.Nodup) (hk2 : s.cache.keys.Nodup)
    (hc0 : s.clusters = s0.clusters) (h : AtDel l s0 s (s.thr t)) :
    AtDel l s0 (s.step env ops t) ((s.step env ops t).thr t) ∧ Fixed s (s.step env ops t) ∧
      Less s (s.step env ops t) ∧ ∀ x, x ∉ l → Same x s (s.step env ops t) := by
  have quiet : ∀ (a : TAt V M D) (n : Nat) (s' : TConc V M D),
      s' = { s with count := n, thr := Function.update s.thr t a } → AtDel l s0 s a →
      AtDel l s0 s' (s'.thr t) ∧ Fixed s s' ∧ Less s s' ∧ ∀ x, x ∉ l → Same x s s' := by
    rintro a n s' rfl h'
    refine ⟨?_, ⟨rfl, rfl, rfl⟩, quiet_less rfl rfl rfl rfl, fun x _ => same_thr x s n _⟩
    rw [show ({ s with count := n, thr := Function.update s.thr t a } : TConc V M D).thr t = a from
      Function.update_self ..]
    exact h'.same (fun id _ => same_thr id s n _) rfl
  cases ha : s.thr t with
  | start =>
    rw [ha] at h
    simp only [step, ho, ha]
    exact quiet (.del 0 true .stor) s.count _ rfl ⟨by simp, fun id hid _ _ => h id hid, fun h => absurd rfl h,
      fun _ _ => trivial, by simp [OkIs]⟩
  | delLen ok =>
    rw [ha] at h
    simp only [step, ho, ha]
    exact quiet (.delCount ok s.ids.length) s.count _ rfl h
  | delCount ok n =>
    rw [ha] at h
    simp only [step, ho, ha]
    exact quiet (.done (.flag ok)) n _ rfl h
  | done x =>
    have e0 : s.step env ops t = s := by simp only [step, ho, ha]
    rw [e0]
    exact ⟨h, ⟨rfl, rfl, rfl⟩, quiet_less rfl rfl rfl rfl, fun x _ => .refl x s⟩
  | del i ok p =>
    rw [ha] at h
    simp only [step, ho, ha]
    cases hi : l[i]? with
    | none =>
      simp only [stepDel, hi]
      have hge := List.getElem?_eq_none_iff.1 hi
      have hp : p = .stor := by
        by_contra hne
        have := h.lt hne
        omega
      have htake : l.take i = l := List.take_of_length_le hge
      refine quiet (.delLen ok) s.count _ rfl ⟨fun id hid => h.past id (by rw [htake]; exact hid), ?_⟩
      have := h.reply
      rw [if_pos hp, htake] at this
      exact this
    | some x =>
      have hlt := (List.getElem?_eq_some_iff.1 hi).1
      have hnow := h.now x hi
      -- a step to another statement for the same id
      have key : ∀ (s' : TConc V M D) (ok' : Bool) (p' : TDel), s'.thr t = .del i ok' p' → Fixed s s' → Less s s' →
          OnlyAt x s s' → p' ≠ .stor → DelProg s' x p' → OkIs s0 (l.take (i + 1)) ok' →
          AtDel l s0 s' (s'.thr t) ∧ Fixed s s' ∧ Less s s' ∧ ∀ y, y ∉ l → Same y s s' := by
        intro s' ok' p' ht f le oa hp' hprog hok
        refine ⟨?_, f, le, fun y hy => oa y fun e => hy (e ▸ List.mem_of_getElem? hi)⟩
        rw [ht]
        refine ⟨fun id hid => (h.past id hid).less le, fun id hid h1 h2 => ?_, fun _ => hlt, fun id hid => ?_, ?_⟩
        · have hne : id ≠ x := by
            rintro rfl
            rcases h2 with h2 | h2
            · exact hp' h2
            · exact h2 hi
          refine (h.future id hid h1 (.inr ?_)).trans (oa id hne)
          rw [hi]; exact fun e => hne (Option.some.inj e).symm
        · rw [hi] at hid; cases hid; exact hprog
        · rw [if_neg hp']; exact hok
      have qkey : ∀ (p' : TDel), p' ≠ .stor → p ≠ .stor → DelProg s x p' → ∀ s' : TConc V M D,
          s' = { s with thr := Function.update s.thr t (.del i ok p') } →
          AtDel l s0 s' (s'.thr t) ∧ Fixed s s' ∧ Less s s' ∧ ∀ y, y ∉ l → Same y s s' := by
        rintro p' hp' hp hprog s' rfl
        refine key _ ok p' (Function.update_self ..) ⟨rfl, rfl, rfl⟩ (quiet_less rfl rfl rfl rfl)
          (fun y _ => same_thr y s s.count _) hp' (hprog.same (same_thr x s s.count _) rfl) ?_
        have := h.reply
        rwa [if_neg hp] at this
      have hok : p ≠ .stor → OkIs s0 (l.take (i + 1)) ok := fun hp => by
        have := h.reply
        rwa [if_neg hp] at this
      cases p with
      | stor =>
        simp only [stepDel, hi]
        have hx : (x ∈ l.take i → Gone s x) ∧ (x ∉ l.take i → Same x s0 s) :=
          ⟨h.past x, fun h' => h.future x (List.mem_of_getElem? hi) h' (.inl rfl)⟩
        refine key _ _ .has (Function.update_self ..) ⟨rfl, rfl, rfl⟩ ⟨fun y hy => GConc.pop_none hy, fun y hy => hy,
          fun y => le_refl _, fun y r => le_refl _⟩ (fun y hy => ⟨Dict.get?_pop_ne _ hy, rfl, rfl, fun _ => rfl⟩) (by simp)
          ⟨?_, ?_, ?_⟩ ?_
        · simp only [Dict.get?_pop hk1, if_true]
        · have : Single s x := by
            by_cases hm : x ∈ l.take i
            · exact (hx.1 hm).single
            · exact (hs0 x).same (hx.2 hm) hc0
          exact ⟨this.once, this.uniq, this.listed⟩
        · change s.ids.count x ≤ 1
          by_cases hm : x ∈ l.take i
          · rw [(hx.1 hm).ids]; omega
          · rw [(hx.2 hm).ids]; exact hi0 x
        · have hr := h.reply
          rw [if_pos rfl] at hr
          rw [take_snoc hi]
          unfold OkIs at hr ⊢
          rw [Bool.and_eq_true, hr, List.nodup_append]
          have hmem : s.store.mem x = true ↔ x ∉ l.take i ∧ (s0.store.get? x).isSome := by
            unfold Dict.mem
            by_cases hm : x ∈ l.take i
            · rw [(hx.1 hm).store]; simp [hm]
            · rw [(hx.2 hm).store]; simp [hm]
          rw [hmem]
          constructor
          · rintro ⟨⟨h1, h2⟩, h3, h4⟩
            refine ⟨⟨h1, by simp, fun a ha b hb => ?_⟩, fun id hid => ?_⟩
            · rw [List.mem_singleton] at hb; subst hb
              exact fun e => h3 (e ▸ ha)
            · rcases List.mem_append.1 hid with hid | hid
              · exact h2 id hid
              · rw [List.mem_singleton.1 hid]; exact h4
          · rintro ⟨⟨h1, _, h2⟩, h3⟩
            exact ⟨⟨h1, fun id hid => h3 id (List.mem_append_left _ hid)⟩,
              fun hm => h2 x hm x (by simp) rfl, h3 x (by simp)⟩
      | has =>
        simp only [stepDel, hi]
        by_cases hm : x ∈ s.ids
        · simp only [hm, if_true]
          refine qkey .rem (by simp) (by simp) ⟨hnow.1, hnow.2.1, ?_⟩ _ rfl
          have := List.count_pos_iff.2 hm
          have := hnow.2.2
          omega
        · simp only [hm, if_false]
          exact qkey .pop (by simp) (by simp) ⟨hnow.1, hnow.2.1, List.count_eq_zero.2 hm⟩ _ rfl
      | rem =>
        have hm : x ∈ s.ids := List.count_pos_iff.1 (by rw [hnow.2.2]; omega)
        simp only [stepDel, hi, hm, if_true]
        refine key _ ok .pop (Function.update_self ..) ⟨rfl, rfl, rfl⟩ ⟨fun y hy => hy, fun y hy => hy,
          fun y => List.Sublist.count_le y List.erase_sublist, fun y r => le_refl _⟩
          (fun y hy => ⟨rfl, rfl, List.count_erase_of_ne hy, fun _ => rfl⟩) (by simp) ⟨hnow.1, ?_, ?_⟩ (hok (by simp))
        · exact ⟨hnow.2.1.once, hnow.2.1.uniq, hnow.2.1.listed⟩
        · have : (s.ids.erase x).count x = s.ids.count x - 1 := List.count_erase_self
          have h2 := hnow.2.2
          change (s.ids.erase x).count x = 0
          omega
      | pop =>
        simp only [stepDel, hi]
        refine key _ ok .iter (Function.update_self ..) ⟨rfl, rfl, rfl⟩ ⟨fun y hy => hy, fun y hy => GConc.pop_none hy,
          fun y => le_refl _, fun y r => le_refl _⟩ (fun y hy => ⟨rfl, Dict.get?_pop_ne _ hy, rfl, fun _ => rfl⟩) (by simp)
          ⟨hnow.1, ?_, hnow.2.2, ?_⟩ (hok (by simp))
        · exact ⟨hnow.2.1.once, hnow.2.1.uniq, hnow.2.1.listed⟩
        · simp only [Dict.get?_pop hk2, if_true]
      | iter =>
        simp only [stepDel, hi]
        exact qkey (.loop s.clusters.length 0) (by simp) (by simp) ⟨hnow.1, hnow.2.1, hnow.2.2.1, hnow.2.2.2, rfl,
          fun q _ _ hq => absurd hq (by omega)⟩ _ rfl
      | loop n q =>
        obtain ⟨h1, h2, h3, h4, h5, h6⟩ := hnow
        simp only [stepDel, hi, h5, ne_eq, not_true_eq_false, if_false]
        cases hk : s.clusters[q]? with
        | some y =>
          obtain ⟨k, r⟩ := y
          exact qkey (.test s.clusters.length q r) (by simp) (by simp) ⟨h1, h2, h3, h4, rfl, h6, k, hk⟩ _ rfl
        | none =>
          have hg : Gone s x := ⟨h1, h4, h3, h6.all h2 hk⟩
          refine quiet (.del (i + 1) ok .stor) s.count _ rfl ⟨fun id hid => ?_, fun id hid h7 _ => ?_,
            fun h => absurd rfl h, fun _ _ => trivial, ?_⟩
          · rw [take_snoc hi] at hid
            rcases List.mem_append.1 hid with hid | hid
            · exact h.past id hid
            · rw [List.mem_singleton.1 hid]; exact hg
          · rw [take_snoc hi] at h7
            refine h.future id hid (fun h' => h7 (List.mem_append_left _ h')) (.inr ?_)
            rw [hi]
            exact fun e => h7 (List.mem_append_right _ (by rw [Option.some.inj e]; simp))
          · rw [if_pos rfl]; exact hok (by simp)
      | test n q r =>
        obtain ⟨h1, h2, h3, h4, h5, h6, k, hk⟩ := hnow
        simp only [stepDel, hi]
        by_cases hm : x ∈ s.content r
        · simp only [hm, if_true]
          exact qkey (.remL n q r) (by simp) (by simp) ⟨h1, h2, h3, h4, h5, h6, ⟨k, hk⟩, hm⟩ _ rfl
        · simp only [hm, if_false]
          exact qkey (.loop n (q + 1)) (by simp) (by simp) ⟨h1, h2, h3, h4, h5, h6.next hk hm⟩ _ rfl
      | remL n q r =>
        obtain ⟨h1, h2, h3, h4, h5, h6, ⟨k, hk⟩, h8⟩ := hnow
        simp only [stepDel, hi, h8, if_true]
        have le : Less s { s with lists := s.lists.modify r (fun y => removeFirst y x)
                                  thr := Function.update s.thr t (.del i ok (.loop n (q + 1))) } :=
          unlink_less (id := x) (o := r) rfl rfl rfl rfl
        refine key _ ok (.loop n (q + 1)) (Function.update_self ..) ⟨rfl, rfl, by simp⟩ le
          (unlink_only rfl rfl rfl rfl) (by simp) ⟨h1, h2.less le rfl, h3, h4, h5, (h6.less le rfl).next hk ?_⟩
          (hok (by simp))
        intro hr'
        have hc := List.count_pos_iff.2 hr'
        rw [unlink_count (s := s) (o := r) rfl, if_pos rfl] at hc
        have := h2.once r
        omega
  | _ => rw [ha] at h; exact h.elim

end TConc
end Valori
