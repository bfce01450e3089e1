import Verif.Model.HnswConc
import Verif.Lemmas.Dict
import Verif.Lemmas.Ivf
import Verif.Lemmas.Index

/-!
# Lemmas about threads that insert, search, update and delete on one HNSW index
-/

namespace Valori
open Spec (Hit)
variable {V M D : Type}

/-- The ids whose vector or metadata a call writes. -/
def opWrites : FOp V M → Id → Prop
  | .insert rows, id => id ∈ rows.map FRow.id
  | .update i _ _, id => id = i
  | _, _ => False

/-- The ids that a call inserts. -/
def opInserts : FOp V M → Id → Prop
  | .insert rows, id => id ∈ rows.map FRow.id
  | _, _ => False

/-- The ids that a call deletes. -/
def opDeletes : FOp V M → Id → Prop
  | .delete l, id => id ∈ l
  | _, _ => False

namespace GConc

theorem run_snocG [LinearOrder D] (env : HParEnv V D) (ops : Nat → FOp V M) (s : GConc V M D) (sched : List Nat)
    (t : Nat) : s.run env ops (sched ++ [t]) = (s.run env ops sched).step env ops t := by
  simp [run, List.foldl_append]

/-! ## What a statement does to the shared state -/

/-- The effect of one statement on storage, vectors and levels, when it writes only ids of `A`, makes nodes only for
ids of `N` and removes only ids of `R`. -/
inductive Eff (A N R : Id → Prop) (s s' : GConc V M D) : Prop where
  | quiet (h1 : s'.store = s.store) (h2 : s'.vectors = s.vectors) (h3 : s'.levels = s.levels)
  | putStore (id : Id) (x : V × Option M) (h : A id) (h1 : s'.store = s.store.set id x) (h2 : s'.vectors = s.vectors)
      (h3 : s'.levels = s.levels)
  | putVec (id : Id) (v : V) (h : A id) (h1 : s'.store = s.store) (h2 : s'.vectors = s.vectors.set id v)
      (h3 : s'.levels = s.levels)
  | grow (h1 : s'.store = s.store) (h2 : s'.vectors = s.vectors) (h3 : s'.levels = s.levels ++ [[]])
  | addNode (id : Id) (l n : Nat) (d : Dict Id Nat) (h : N id) (hl : s.levels[l]? = some d) (h1 : s'.store = s.store)
      (h2 : s'.vectors = s.vectors) (h3 : s'.levels = s.levels.set l (d.set id n))
  | popStore (id : Id) (h : R id) (h1 : s'.store = s.store.pop id) (h2 : s'.vectors = s.vectors)
      (h3 : s'.levels = s.levels)
  | popVec (id : Id) (h : R id) (h1 : s'.store = s.store) (h2 : s'.vectors = s.vectors.pop id)
      (h3 : s'.levels = s.levels)
  | dropNode (id : Id) (l : Nat) (d : Dict Id Nat) (h : R id) (hl : s.levels[l]? = some d) (h1 : s'.store = s.store)
      (h2 : s'.vectors = s.vectors) (h3 : s'.levels = s.levels.set l (d.pop id))

theorem Eff.mono {A A' N N' R R' : Id → Prop} {s s' : GConc V M D} (h : Eff A N R s s') (hA : ∀ id, A id → A' id)
    (hN : ∀ id, N id → N' id) (hR : ∀ id, R id → R' id) : Eff A' N' R' s s' := by
  cases h with
  | quiet h1 h2 h3 => exact .quiet h1 h2 h3
  | putStore id x h h1 h2 h3 => exact .putStore id x (hA _ h) h1 h2 h3
  | putVec id v h h1 h2 h3 => exact .putVec id v (hA _ h) h1 h2 h3
  | grow h1 h2 h3 => exact .grow h1 h2 h3
  | addNode id l n d h hl h1 h2 h3 => exact .addNode id l n d (hN _ h) hl h1 h2 h3
  | popStore id h h1 h2 h3 => exact .popStore id (hR _ h) h1 h2 h3
  | popVec id h h1 h2 h3 => exact .popVec id (hR _ h) h1 h2 h3
  | dropNode id l d h hl h1 h2 h3 => exact .dropNode id l d (hR _ h) hl h1 h2 h3

theorem ins_eff (env : HParEnv V D) (rows : List (FRow V M)) (s : GConc V M D) (t i : Nat) (p : HIns) {r : FRow V M}
    (hr : rows[i]? = some r) :
    Eff (· = r.id) (· = r.id) (fun _ => False) s (stepIns env rows s t i p) := by
  unfold stepIns
  simp only [hr]
  cases p with
  | store => exact .putStore _ _ rfl rfl rfl rfl
  | vec => exact .putVec _ _ rfl rfl rfl rfl
  | grow => exact .grow rfl rfl rfl
  | node l =>
    simp only
    split
    · exact .quiet rfl rfl rfl
    · split
      · exact .quiet rfl rfl rfl
      · rename_i d hd
        split
        · exact .quiet rfl rfl rfl
        · exact .addNode _ l _ d rfl hd rfl rfl rfl
  | has l todo =>
    cases todo with
    | nil => exact .quiet rfl rfl rfl
    | cons nb todo =>
      simp only
      split
      · exact .quiet rfl rfl rfl
      · split <;> exact .quiet rfl rfl rfl
  | sample l =>
    simp only
    split
    · exact .quiet rfl rfl rfl
    · split <;> exact .quiet rfl rfl rfl
  | push l nb todo => simp only; split <;> exact .quiet rfl rfl rfl
  | backHas l nb todo => simp only; split <;> exact .quiet rfl rfl rfl
  | backPush l nb todo => simp only; split <;> exact .quiet rfl rfl rfl
  | _ => exact .quiet rfl rfl rfl

theorem del_eff (l : List Id) (s : GConc V M D) (t i : Nat) (ok : Bool) (p : GDel) {id : Id} (hr : l[i]? = some id) :
    Eff (fun _ => False) (fun _ => False) (· = id) s (stepDel l s t i ok p) := by
  unfold stepDel
  simp only [hr]
  cases p with
  | stor => exact .popStore _ rfl rfl rfl rfl
  | del =>
    simp only
    split
    · exact .popVec _ rfl rfl rfl rfl
    · exact .quiet rfl rfl rfl
  | drop j =>
    simp only
    split
    · exact .quiet rfl rfl rfl
    · rename_i d hd
      split
      · exact .dropNode _ j d rfl hd rfl rfl rfl
      · exact .quiet rfl rfl rfl
  | nbDel j r x nb =>
    simp only
    split
    · exact .quiet rfl rfl rfl
    · split <;> exact .quiet rfl rfl rfl
  | level j => simp only; split <;> exact .quiet rfl rfl rfl
  | take j => simp only; split <;> exact .quiet rfl rfl rfl
  | nbr j r x => simp only; split <;> exact .quiet rfl rfl rfl
  | nbHas j r x nb => simp only; split <;> exact .quiet rfl rfl rfl
  | _ => exact .quiet rfl rfl rfl

theorem step_eff [LinearOrder D] (env : HParEnv V D) (ops : Nat → FOp V M) (s : GConc V M D) (t : Nat) :
    Eff (opWrites (ops t)) (opInserts (ops t)) (opDeletes (ops t)) s (s.step env ops t) := by
  unfold step
  cases ho : ops t with
  | insert rows =>
    cases hp : s.thr t with
    | ins i p =>
      simp only
      cases hr : rows[i]? with
      | none => unfold stepIns; simp only [hr]; exact .quiet rfl rfl rfl
      | some r =>
        have hm : r.id ∈ rows.map FRow.id := List.mem_map.2 ⟨r, List.mem_of_getElem? hr, rfl⟩
        exact (ins_eff env rows s t i p hr).mono (fun _ e => by subst e; exact hm) (fun _ e => by subst e; exact hm)
          (fun _ e => e.elim)
    | _ => exact .quiet rfl rfl rfl
  | search q k => cases hp : s.thr t <;> exact .quiet rfl rfl rfl
  | update id v m =>
    cases hp : s.thr t with
    | start =>
      simp only
      split
      · exact .putStore id _ rfl rfl rfl rfl
      · exact .quiet rfl rfl rfl
    | updSet => exact .putVec id _ rfl rfl rfl rfl
    | _ => exact .quiet rfl rfl rfl
  | delete l =>
    cases hp : s.thr t with
    | del i ok p =>
      simp only
      cases hr : l[i]? with
      | none => unfold stepDel; simp only [hr]; exact .quiet rfl rfl rfl
      | some id =>
        exact (del_eff l s t i ok p hr).mono (fun _ e => e.elim) (fun _ e => e.elim)
          (fun _ e => by subst e; exact List.mem_of_getElem? hr)
    | _ => exact .quiet rfl rfl rfl

theorem step_thr [LinearOrder D] (env : HParEnv V D) (ops : Nat → FOp V M) (s : GConc V M D) {t t' : Nat}
    (h : t' ≠ t) : (s.step env ops t).thr t' = s.thr t' := by
  unfold step
  cases ho : ops t with
  | insert rows =>
    cases hp : s.thr t with
    | ins i p =>
      simp only
      unfold stepIns
      cases hr : rows[i]? with
      | none => simp [h]
      | some r =>
        cases p with
        | has l todo => cases todo <;> simp only <;> (repeat' split) <;> simp [h]
        | _ => simp only; (repeat' split) <;> simp [h]
    | _ => simp [h]
  | search q k => cases hp : s.thr t <;> simp [h]
  | update id v m => cases hp : s.thr t <;> simp only <;> (repeat' split) <;> simp [h]
  | delete l =>
    cases hp : s.thr t with
    | del i ok p =>
      simp only
      unfold stepDel
      cases hr : l[i]? with
      | none => simp [h]
      | some id => cases p <;> simp only <;> (repeat' split) <;> simp [h]
    | _ => simp [h]

/-! ## Consequences of an effect -/

theorem nodeRef_grow {s s' : GConc V M D} (h : s'.levels = s.levels ++ [[]]) (l : Nat) (id : Id) :
    s'.nodeRef l id = s.nodeRef l id := by
  unfold nodeRef
  rw [h]
  by_cases hl : l < s.levels.length
  · rw [List.getElem?_append_left hl]
  · rw [List.getElem?_append_right (by omega), List.getElem?_eq_none (l := s.levels) (by omega)]
    by_cases h0 : l - s.levels.length = 0
    · simp [h0]
    · rw [List.getElem?_eq_none (by simp; omega)]

theorem nodeRef_set {s s' : GConc V M D} {l : Nat} {d d' : Dict Id Nat} (hl : s.levels[l]? = some d)
    (h : s'.levels = s.levels.set l d') (l' : Nat) (id : Id) :
    s'.nodeRef l' id = if l' = l then d'.get? id else s.nodeRef l' id := by
  unfold nodeRef
  rw [h]
  have hlt : l < s.levels.length := (List.getElem?_eq_some_iff.1 hl).1
  by_cases e : l' = l
  · subst e; simp [hlt]
  · rw [List.getElem?_set_ne (fun e' => e e'.symm), if_neg e]

theorem nodeRef_of {s : GConc V M D} {l : Nat} {d : Dict Id Nat} (hl : s.levels[l]? = some d) (id : Id) :
    s.nodeRef l id = d.get? id := by simp [nodeRef, hl]

theorem nodeRef_eq {s s' : GConc V M D} (h : s'.levels = s.levels) (l : Nat) (id : Id) :
    s'.nodeRef l id = s.nodeRef l id := by simp [nodeRef, h]

/-- Two states agree on an id. -/
structure SameAt (id : Id) (s s' : GConc V M D) : Prop where
  store : s'.store.get? id = s.store.get? id
  vectors : s'.vectors.get? id = s.vectors.get? id
  node : ∀ l, s'.nodeRef l id = s.nodeRef l id

theorem SameAt.trans {id : Id} {a b c : GConc V M D} (h : SameAt id a b) (h' : SameAt id b c) : SameAt id a c :=
  ⟨h'.store.trans h.store, h'.vectors.trans h.vectors, fun l => (h'.node l).trans (h.node l)⟩

variable {A N R : Id → Prop} {s s' : GConc V M D}

theorem ne_of_not {P : Id → Prop} {a b : Id} (h : ¬ P a) (h' : P b) : a ≠ b := fun e => h (e ▸ h')

theorem Eff.node (h : Eff A N R s s') {id : Id} (hn : ¬ N id) (hr : ¬ R id) (l : Nat) :
    s'.nodeRef l id = s.nodeRef l id := by
  cases h with
  | grow h1 h2 h3 => exact nodeRef_grow h3 l id
  | addNode i j n d h hl h1 h2 h3 =>
    have hne : id ≠ i := fun e => hn (e ▸ h)
    rw [nodeRef_set hl h3, Dict.get?_set, if_neg hne, ← nodeRef_of hl]
    split
    · next e => rw [e]
    · rfl
  | dropNode i j d h hl h1 h2 h3 =>
    have hne : id ≠ i := fun e => hr (e ▸ h)
    rw [nodeRef_set hl h3, Dict.get?_pop_ne _ hne, ← nodeRef_of hl]
    split
    · next e => rw [e]
    · rfl
  | _ => exact nodeRef_eq ‹_› l id

theorem Eff.same (h : Eff A N R s s') {id : Id} (ha : ¬ A id) (hn : ¬ N id) (hr : ¬ R id) : SameAt id s s' := by
  refine ⟨?_, ?_, h.node hn hr⟩
  · cases h with
    | putStore i x h h1 h2 h3 => rw [h1, Dict.get?_set, if_neg (ne_of_not ha h)]
    | popStore i h h1 h2 h3 => rw [h1, Dict.get?_pop_ne _ (ne_of_not hr h)]
    | _ => rw [‹s'.store = s.store›]
  · cases h with
    | putVec i x h h1 h2 h3 => rw [h2, Dict.get?_set, if_neg (ne_of_not ha h)]
    | popVec i h h1 h2 h3 => rw [h2, Dict.get?_pop_ne _ (ne_of_not hr h)]
    | _ => rw [‹s'.vectors = s.vectors›]

/-- Dictionaries have each key once. -/
structure KeysOnce (s : GConc V M D) : Prop where
  store : s.store.keys.Nodup
  vectors : s.vectors.keys.Nodup
  levels : ∀ d ∈ s.levels, d.keys.Nodup

theorem Eff.keys (h : Eff A N R s s') (hk : KeysOnce s) : KeysOnce s' := by
  refine ⟨?_, ?_, ?_⟩
  · cases h with
    | putStore i x h h1 h2 h3 => rw [h1]; exact Dict.nodup_set hk.store _ _
    | popStore i h h1 h2 h3 => rw [h1]; exact Dict.nodup_pop hk.store _
    | _ => rw [‹s'.store = s.store›]; exact hk.store
  · cases h with
    | putVec i x h h1 h2 h3 => rw [h2]; exact Dict.nodup_set hk.vectors _ _
    | popVec i h h1 h2 h3 => rw [h2]; exact Dict.nodup_pop hk.vectors _
    | _ => rw [‹s'.vectors = s.vectors›]; exact hk.vectors
  · cases h with
    | grow h1 h2 h3 =>
      rw [h3]; intro d hd
      rcases List.mem_append.1 hd with hd | hd
      · exact hk.levels d hd
      · rw [List.mem_singleton.1 hd]; exact List.nodup_nil
    | addNode i j n d h hl h1 h2 h3 =>
      rw [h3]; intro d' hd
      rcases List.mem_or_eq_of_mem_set hd with hd | rfl
      · exact hk.levels _ hd
      · exact Dict.nodup_set (hk.levels d (List.mem_of_getElem? hl)) _ _
    | dropNode i j d h hl h1 h2 h3 =>
      rw [h3]; intro d' hd
      rcases List.mem_or_eq_of_mem_set hd with hd | rfl
      · exact hk.levels _ hd
      · exact Dict.nodup_pop (hk.levels d (List.mem_of_getElem? hl)) _
    | _ => rw [‹s'.levels = s.levels›]; exact hk.levels

theorem pop_none {κ α : Type} [DecidableEq κ] {d : Dict κ α} {k k' : κ} (h : d.get? k = none) :
    (d.pop k').get? k = none := by
  rw [Dict.get?_eq_none] at h ⊢
  rw [Dict.keys_pop]
  exact fun hm => h (List.mem_of_mem_erase hm)

/-- What is absent stays absent unless somebody writes it. -/
theorem Eff.noStore (h : Eff A N R s s') {id : Id} (ha : ¬ A id) (hs : s.store.get? id = none) :
    s'.store.get? id = none := by
  cases h with
  | putStore i x h h1 h2 h3 => rw [h1, Dict.get?_set, if_neg (ne_of_not ha h), hs]
  | popStore i h h1 h2 h3 => rw [h1]; exact pop_none hs
  | _ => rw [‹s'.store = s.store›, hs]

theorem Eff.noVec (h : Eff A N R s s') {id : Id} (ha : ¬ A id) (hs : s.vectors.get? id = none) :
    s'.vectors.get? id = none := by
  cases h with
  | putVec i x h h1 h2 h3 => rw [h2, Dict.get?_set, if_neg (ne_of_not ha h), hs]
  | popVec i h h1 h2 h3 => rw [h2]; exact pop_none hs
  | _ => rw [‹s'.vectors = s.vectors›, hs]

theorem Eff.noNode (h : Eff A N R s s') {id : Id} (hn : ¬ N id) {l : Nat} (hs : s.nodeRef l id = none) :
    s'.nodeRef l id = none := by
  cases h with
  | grow h1 h2 h3 => rw [nodeRef_grow h3, hs]
  | addNode i j n d h hl h1 h2 h3 =>
    rw [nodeRef_set hl h3, Dict.get?_set, if_neg (ne_of_not hn h), ← nodeRef_of hl]
    split
    · next e => rw [← e, hs]
    · exact hs
  | dropNode i j d h hl h1 h2 h3 =>
    rw [nodeRef_set hl h3]
    split
    · next e => subst e; exact pop_none (by rw [← nodeRef_of hl, hs])
    · exact hs
  | _ => rw [nodeRef_eq ‹_›, hs]

theorem Eff.levels (h : Eff A N R s s') : s.levels.length ≤ s'.levels.length := by
  cases h with
  | grow h1 h2 h3 => simp [h3]
  | addNode i j n d h hl h1 h2 h3 => simp [h3]
  | dropNode i j d h hl h1 h2 h3 => simp [h3]
  | _ => rw [‹s'.levels = s.levels›]

/-! ## Insertions -/

/-- A row is in the storage, in the index and in the levels `0 .. lv`. -/
def RowIn (s : GConc V M D) (r : FRow V M) (lv : Nat) : Prop :=
  s.store.get? r.id = some (r.v, r.m) ∧ s.vectors.get? r.id = some r.v ∧ ∀ l ≤ lv, (s.nodeRef l r.id).isSome

/-- What is done of a row when its insertion has come to a statement. -/
def InsProg (s : GConc V M D) (r : FRow V M) (lv : Nat) : HIns → Prop
  | .store => True
  | .vec => s.store.get? r.id = some (r.v, r.m)
  | .len | .count _ | .test | .grow => s.store.get? r.id = some (r.v, r.m) ∧ s.vectors.get? r.id = some r.v
  | .node l => s.store.get? r.id = some (r.v, r.m) ∧ s.vectors.get? r.id = some r.v ∧
      ∀ l' < l, (s.nodeRef l' r.id).isSome
  | _ => RowIn s r lv

theorem RowIn.same {r : FRow V M} {lv : Nat} (h : RowIn s r lv) (e : SameAt r.id s s') : RowIn s' r lv :=
  ⟨by rw [e.store]; exact h.1, by rw [e.vectors]; exact h.2.1, fun l hl => by rw [e.node]; exact h.2.2 l hl⟩

theorem InsProg.same {r : FRow V M} {lv : Nat} {p : HIns} (h : InsProg s r lv p) (e : SameAt r.id s s') :
    InsProg s' r lv p := by
  cases p with
  | store => trivial
  | vec => exact e.store.trans h
  | len => exact ⟨e.store.trans h.1, e.vectors.trans h.2⟩
  | count n => exact ⟨e.store.trans h.1, e.vectors.trans h.2⟩
  | test => exact ⟨e.store.trans h.1, e.vectors.trans h.2⟩
  | grow => exact ⟨e.store.trans h.1, e.vectors.trans h.2⟩
  | node l => exact ⟨e.store.trans h.1, e.vectors.trans h.2.1, fun l' hl => by rw [e.node]; exact h.2.2 l' hl⟩
  | _ => exact RowIn.same (s := s) h e

/-- What is done when an inserting thread is at a place. -/
def AtIns (env : HParEnv V D) (rows : List (FRow V M)) (t : Nat) (s : GConc V M D) : GAt M D → Prop
  | .start => True
  | .ins i p => (∀ j r, j < i → rows[j]? = some r → RowIn s r (env.level t j)) ∧
      ∀ r, rows[i]? = some r → InsProg s r (env.level t i) p
  | .done (.ids l) => l = rows.map FRow.id ∧ ∀ j r, rows[j]? = some r → RowIn s r (env.level t j)
  | .done .raised => True
  | _ => False

theorem AtIns.same {env : HParEnv V D} {rows : List (FRow V M)} {t : Nat} {a : GAt M D} (h : AtIns env rows t s a)
    (e : ∀ id ∈ rows.map FRow.id, SameAt id s s') : AtIns env rows t s' a := by
  have hm : ∀ {j : Nat} {r : FRow V M}, rows[j]? = some r → r.id ∈ rows.map FRow.id := fun hr =>
    List.mem_map.2 ⟨_, List.mem_of_getElem? hr, rfl⟩
  cases a with
  | start => trivial
  | ins i p =>
    exact ⟨fun j r hj hr => (h.1 j r hj hr).same (e _ (hm hr)), fun r hr => (h.2 r hr).same (e _ (hm hr))⟩
  | done x =>
    cases x with
    | ids l => exact ⟨h.1, fun j r hr => (h.2 j r hr).same (e _ (hm hr))⟩
    | raised => trivial
    | hits l => exact h
    | flag b => exact h
  | _ => exact h

/-- The current row after one statement of its insertion. -/
theorem ins_row (env : HParEnv V D) {rows : List (FRow V M)} {t i : Nat} {p : HIns} {r : FRow V M}
    (hr : rows[i]? = some r) (h : InsProg s r (env.level t i) p) :
    (stepIns env rows s t i p).thr t = .done .raised ∨
    (∃ p', (stepIns env rows s t i p).thr t = .ins i p' ∧ InsProg (stepIns env rows s t i p) r (env.level t i) p') ∨
    ((stepIns env rows s t i p).thr t = .ins (i + 1) .store ∧ RowIn (stepIns env rows s t i p) r (env.level t i)) := by
  unfold stepIns
  simp only [hr]
  cases p with
  | store =>
    right; left
    exact ⟨.vec, by simp, by simp [InsProg]⟩
  | vec =>
    right; left
    refine ⟨.len, by simp, ?_⟩
    exact ⟨h, by simp⟩
  | len => exact .inr (.inl ⟨_, Function.update_self .., h⟩)
  | count n => exact .inr (.inl ⟨.test, by simp, h⟩)
  | test =>
    right; left
    refine ⟨_, Function.update_self .., ?_⟩
    by_cases hl : s.levels.length ≤ env.level t i
    · rw [if_pos hl]; exact h
    · rw [if_neg hl]; exact ⟨h.1, h.2, by simp⟩
  | grow => exact .inr (.inl ⟨.test, by simp, h⟩)
  | node l =>
    obtain ⟨h1, h2, h3⟩ := h
    simp only
    by_cases hl : env.level t i < l
    · simp only [hl, if_true]
      right; left
      exact ⟨.readMax, by simp, h1, h2, fun l' hl' => h3 l' (by omega)⟩
    · simp only [hl, if_false]
      cases hd : s.levels[l]? with
      | none => left; simp
      | some d =>
        right; left
        simp only
        by_cases hm : d.mem r.id
        · simp only [hm, if_true]
          refine ⟨.node (l + 1), by simp, h1, h2, fun l' hl' => ?_⟩
          by_cases e : l' = l
          · subst e
            change (s.nodeRef l' r.id).isSome
            rw [nodeRef_of hd]; exact hm
          · exact h3 l' (by omega)
        · simp only [hm]
          refine ⟨.node (l + 1), by simp, h1, h2, fun l' hl' => ?_⟩
          simp only [Bool.false_eq_true, if_false]
          rw [nodeRef_set (s := s) (l := l) hd rfl]
          by_cases e : l' = l
          · simp [e]
          · rw [if_neg e]; exact h3 l' (by omega)
  | readMax => exact .inr (.inl ⟨_, Function.update_self .., h⟩)
  | setMax n => exact .inr (.inl ⟨.sample 0, by simp, h⟩)
  | sample l =>
    simp only
    by_cases hl : env.level t i < l
    · simp only [hl, if_true]
      right; right
      exact ⟨by simp, h⟩
    · simp only [hl, if_false]
      cases hd : s.levels[l]? with
      | none => left; simp
      | some d => right; left; exact ⟨_, Function.update_self .., h⟩
  | has l todo =>
    cases todo with
    | nil => exact .inr (.inl ⟨.sample (l + 1), by simp, h⟩)
    | cons nb todo =>
      simp only
      by_cases e : nb = r.id
      · simp only [e, if_true]; exact .inr (.inl ⟨.has l todo, by simp, h⟩)
      · simp only [e, if_false]
        cases hd : s.nodeRef l nb with
        | none => left; simp
        | some o =>
          right; left
          refine ⟨_, Function.update_self .., ?_⟩
          by_cases hc : r.id ∈ s.content o
          · rw [if_pos hc]; exact h
          · rw [if_neg hc]; exact h
  | push l nb todo =>
    simp only
    cases hd : s.nodeRef l nb with
    | none => left; simp
    | some o => right; left; exact ⟨.backHas l nb todo, by simp, h⟩
  | backHas l nb todo =>
    simp only
    cases hd : s.nodeRef l r.id with
    | none => left; simp
    | some o =>
      right; left
      refine ⟨_, Function.update_self .., ?_⟩
      by_cases hc : nb ∈ s.content o
      · rw [if_pos hc]; exact h
      · rw [if_neg hc]; exact h
  | backPush l nb todo =>
    simp only
    cases hd : s.nodeRef l r.id with
    | none => left; simp
    | some o => right; left; exact ⟨.has l todo, by simp, h⟩

theorem ins_step [LinearOrder D] {env : HParEnv V D} {ops : Nat → FOp V M} {rows : List (FRow V M)} {t : Nat}
    (ho : ops t = .insert rows) (hn : (rows.map FRow.id).Nodup) (h : AtIns env rows t s (s.thr t)) :
    AtIns env rows t (s.step env ops t) ((s.step env ops t).thr t) := by
  cases ha : s.thr t with
  | start =>
    simp only [step, ho, ha, Function.update_self]
    exact ⟨by simp, fun r _ => trivial⟩
  | ins i p =>
    rw [ha] at h
    have e0 : s.step env ops t = stepIns env rows s t i p := by simp only [step, ho, ha]
    rw [e0]
    cases hr : rows[i]? with
    | none =>
      have hge : rows.length ≤ i := List.getElem?_eq_none_iff.1 hr
      unfold stepIns
      simp only [hr, Function.update_self]
      refine ⟨rfl, fun j r hj => ?_⟩
      have hlt := (List.getElem?_eq_some_iff.1 hj).1
      exact h.1 j r (by omega) hj
    | some r =>
      have he := ins_eff env rows s t i p hr
      have old : ∀ j r', j < i → rows[j]? = some r' → RowIn (stepIns env rows s t i p) r' (env.level t j) := by
        intro j r' hj hr'
        have hne : r'.id ≠ r.id := by
          intro e
          have h1 : (rows.map FRow.id)[j]? = some r'.id := by simp [hr']
          have h2 : (rows.map FRow.id)[i]? = some r'.id := by simp [hr, e]
          have hji := (List.nodup_iff_getElem?_ne_getElem?.1 hn) j i hj
            (by rw [List.length_map]; exact (List.getElem?_eq_some_iff.1 hr).1)
          exact hji (h1.trans h2.symm)
        exact (h.1 j r' hj hr').same (he.same hne hne (fun x => x))
      rcases ins_row env hr (h.2 r hr) with h1 | ⟨p', h1, h2⟩ | ⟨h1, h2⟩
      · rw [h1]; trivial
      · rw [h1]
        exact ⟨old, fun r' hr' => by rw [hr] at hr'; cases hr'; exact h2⟩
      · rw [h1]
        refine ⟨fun j r' hj hr' => ?_, fun r' _ => trivial⟩
        by_cases e : j = i
        · subst e; rw [hr] at hr'; cases hr'; exact h2
        · exact old j r' (by omega) hr'
  | done x =>
    rw [ha] at h
    have e0 : s.step env ops t = s := by simp only [step, ho, ha]
    rw [e0, ha]; exact h
  | _ => rw [ha] at h; exact h.elim

/-! ## Deletions -/

/-- An id is nowhere in the index nor in the storage. -/
def Gone (s : GConc V M D) (id : Id) : Prop :=
  s.store.get? id = none ∧ s.vectors.get? id = none ∧ ∀ l, s.nodeRef l id = none

/-- What is done of an id when its deletion has come to a statement. -/
def DelProg (s : GConc V M D) (id : Id) : GDel → Prop
  | .stor => True
  | .test | .del => s.store.get? id = none
  | .len | .count _ => s.store.get? id = none ∧ s.vectors.get? id = none
  | .level l | .take l | .nbr l _ _ | .nbTest l _ _ _ | .nbHas l _ _ _ | .nbDel l _ _ _ | .drop l =>
    s.store.get? id = none ∧ s.vectors.get? id = none ∧ ∀ l' < l, s.nodeRef l' id = none

theorem Gone.eff {id : Id} (h : Gone s id) (e : Eff A N R s s') (ha : ¬ A id) (hn : ¬ N id) : Gone s' id :=
  ⟨e.noStore ha h.1, e.noVec ha h.2.1, fun l => e.noNode hn (h.2.2 l)⟩

theorem DelProg.eff {id : Id} {p : GDel} (h : DelProg s id p) (e : Eff A N R s s') (ha : ¬ A id) (hn : ¬ N id) :
    DelProg s' id p := by
  cases p with
  | stor => trivial
  | test => exact e.noStore ha h
  | del => exact e.noStore ha h
  | len => exact ⟨e.noStore ha h.1, e.noVec ha h.2⟩
  | count n => exact ⟨e.noStore ha h.1, e.noVec ha h.2⟩
  | _ => exact ⟨e.noStore ha h.1, e.noVec ha h.2.1, fun l' hl => e.noNode hn (h.2.2 l' hl)⟩

/-- What is done when a deleting thread is at a place, for the ids that nobody writes. -/
def AtDel (W : Id → Prop) (l : List Id) (s : GConc V M D) : GAt M D → Prop
  | .start => True
  | .del i _ p => (∀ j id, j < i → l[j]? = some id → ¬ W id → Gone s id) ∧
      ∀ id, l[i]? = some id → ¬ W id → DelProg s id p
  | .done (.flag _) => ∀ id ∈ l, ¬ W id → Gone s id
  | .done .raised => True
  | _ => False

theorem AtDel.eff {W : Id → Prop} {l : List Id} {a : GAt M D} (h : AtDel W l s a) (e : Eff A N R s s')
    (ha : ∀ id, A id → W id) (hn : ∀ id, N id → W id) : AtDel W l s' a := by
  cases a with
  | start => trivial
  | del i ok p =>
    exact ⟨fun j id hj hr hw => (h.1 j id hj hr hw).eff e (fun x => hw (ha _ x)) (fun x => hw (hn _ x)),
      fun id hr hw => (h.2 id hr hw).eff e (fun x => hw (ha _ x)) (fun x => hw (hn _ x))⟩
  | done x =>
    cases x with
    | flag b => exact fun id hm hw => (h id hm hw).eff e (fun x => hw (ha _ x)) (fun x => hw (hn _ x))
    | raised => trivial
    | hits l => exact h
    | ids l => exact h
  | _ => exact h

theorem del_row (hk : KeysOnce s) {l : List Id} {t i : Nat} {ok : Bool} {p : GDel} {id : Id} (hr : l[i]? = some id) :
    (stepDel l s t i ok p).thr t = .done .raised ∨
    (∃ ok' p', (stepDel l s t i ok p).thr t = .del i ok' p' ∧
      (DelProg s id p → DelProg (stepDel l s t i ok p) id p')) ∨
    (∃ ok', (stepDel l s t i ok p).thr t = .del (i + 1) ok' .stor ∧
      (DelProg s id p → Gone (stepDel l s t i ok p) id)) := by
  unfold stepDel
  simp only [hr]
  cases p with
  | stor =>
    right; left
    refine ⟨_, .test, Function.update_self .., fun _ => ?_⟩
    simp only [DelProg]
    rw [Dict.get?_pop hk.store]; simp
  | test =>
    right; left
    refine ⟨_, _, Function.update_self .., fun h => ?_⟩
    by_cases hm : s.vectors.mem id
    · rw [if_pos hm]; exact h
    · rw [if_neg hm]
      refine ⟨h, ?_, by simp⟩
      rw [Dict.mem_eq] at hm
      simpa using hm
  | del =>
    simp only
    by_cases hm : s.vectors.mem id
    · simp only [hm, if_true]
      right; left
      refine ⟨_, .len, Function.update_self .., fun h => ⟨h, ?_⟩⟩
      simp only
      rw [Dict.get?_pop hk.vectors]; simp
    · simp only [hm]; left; simp
  | len => exact .inr (.inl ⟨_, _, Function.update_self .., fun h => h⟩)
  | count n => exact .inr (.inl ⟨_, .level 0, Function.update_self .., fun h => ⟨h.1, h.2, by simp⟩⟩)
  | level j =>
    simp only
    cases hd : s.levels[j]? with
    | none =>
      right; right
      refine ⟨_, Function.update_self .., fun h => ⟨h.1, h.2.1, fun l' => ?_⟩⟩
      change s.nodeRef l' id = none
      by_cases hl : l' < j
      · exact h.2.2 l' hl
      · have := List.getElem?_eq_none_iff.1 hd
        simp only [nodeRef]
        rw [List.getElem?_eq_none (by omega)]; rfl
    | some d =>
      right; left
      refine ⟨_, _, Function.update_self .., fun h => ?_⟩
      by_cases hm : d.mem id
      · rw [if_pos hm]; exact h
      · rw [if_neg hm]
        refine ⟨h.1, h.2.1, fun l' hl => ?_⟩
        change s.nodeRef l' id = none
        by_cases e : l' = j
        · subst e
          rw [nodeRef_of hd]
          rw [Dict.mem_eq] at hm
          simpa using hm
        · exact h.2.2 l' (by omega)
  | take j =>
    simp only
    cases hd : s.nodeRef j id with
    | none => left; simp
    | some o => exact .inr (.inl ⟨_, .nbr j o 0, Function.update_self .., fun h => h⟩)
  | nbr j o x =>
    simp only
    cases hd : (s.content o)[x]? with
    | none => exact .inr (.inl ⟨_, .drop j, Function.update_self .., fun h => h⟩)
    | some nb => exact .inr (.inl ⟨_, .nbTest j o x nb, Function.update_self .., fun h => h⟩)
  | nbTest j o x nb =>
    right; left
    refine ⟨_, _, Function.update_self .., fun h => ?_⟩
    by_cases hc : (s.nodeRef j nb).isSome
    · rw [if_pos hc]; exact h
    · rw [if_neg hc]; exact h
  | nbHas j o x nb =>
    simp only
    cases hd : s.nodeRef j nb with
    | none => left; simp
    | some o' =>
      right; left
      refine ⟨_, _, Function.update_self .., fun h => ?_⟩
      by_cases hc : id ∈ s.content o'
      · rw [if_pos hc]; exact h
      · rw [if_neg hc]; exact h
  | nbDel j o x nb =>
    simp only
    cases hd : s.nodeRef j nb with
    | none => left; simp
    | some o' =>
      simp only
      by_cases hm : id ∈ s.content o'
      · simp only [hm, if_true]
        exact .inr (.inl ⟨_, .nbr j o (x + 1), Function.update_self .., fun h => h⟩)
      · simp only [hm, if_false]; left; simp
  | drop j =>
    simp only
    cases hd : s.levels[j]? with
    | none => left; simp
    | some d =>
      simp only
      by_cases hm : d.mem id
      · simp only [hm, if_true]
        right; left
        refine ⟨_, .level (j + 1), Function.update_self .., fun h => ⟨h.1, h.2.1, fun l' hl => ?_⟩⟩
        rw [nodeRef_set (s := s) hd rfl]
        by_cases e : l' = j
        · rw [if_pos e, Dict.get?_pop (hk.levels d (List.mem_of_getElem? hd))]; simp
        · rw [if_neg e]; exact h.2.2 l' (by omega)
      · simp only [hm]; left; simp

theorem del_step [LinearOrder D] {env : HParEnv V D} {ops : Nat → FOp V M} {W : Id → Prop} {l : List Id} {t : Nat}
    (ho : ops t = .delete l) (hk : KeysOnce s) (h : AtDel W l s (s.thr t)) :
    AtDel W l (s.step env ops t) ((s.step env ops t).thr t) := by
  cases ha : s.thr t with
  | start =>
    simp only [step, ho, ha, Function.update_self]
    exact ⟨by simp, fun r _ _ => trivial⟩
  | del i ok p =>
    rw [ha] at h
    have e0 : s.step env ops t = stepDel l s t i ok p := by simp only [step, ho, ha]
    rw [e0]
    cases hr : l[i]? with
    | none =>
      have hge : l.length ≤ i := List.getElem?_eq_none_iff.1 hr
      unfold stepDel
      simp only [hr, Function.update_self]
      intro id hm hw
      obtain ⟨j, hj⟩ := List.mem_iff_getElem?.1 hm
      have hlt := (List.getElem?_eq_some_iff.1 hj).1
      exact h.1 j id (by omega) hj hw
    | some id =>
      have he := del_eff l s t i ok p hr
      have old : ∀ j id', j < i → l[j]? = some id' → ¬ W id' → Gone (stepDel l s t i ok p) id' :=
        fun j id' hj hr' hw => (h.1 j id' hj hr' hw).eff he (fun x => x) (fun x => x)
      rcases del_row (t := t) (ok := ok) (p := p) hk hr with h1 | ⟨ok', p', h1, h2⟩ | ⟨ok', h1, h2⟩
      · rw [h1]; trivial
      · rw [h1]
        exact ⟨old, fun id' hr' hw => by rw [hr] at hr'; cases hr'; exact h2 (h.2 id hr hw)⟩
      · rw [h1]
        refine ⟨fun j id' hj hr' hw => ?_, fun id' _ _ => trivial⟩
        by_cases e : j = i
        · subst e; rw [hr] at hr'; cases hr'; exact h2 (h.2 id hr hw)
        · exact old j id' (by omega) hr' hw
  | done x =>
    rw [ha] at h
    have e0 : s.step env ops t = s := by simp only [step, ho, ha]
    rw [e0, ha]; exact h
  | _ => rw [ha] at h; exact h.elim

/-! ## Updates -/

/-- What is done when an updating thread is at a place, if nobody else touches the id. -/
def AtUpd (id : Id) (v : V) (m : Option M) (s0 s : GConc V M D) : GAt M D → Prop
  | .start => s.store.get? id = s0.store.get? id ∧ s.vectors.get? id = s0.vectors.get? id
  | .updTest => (s0.store.get? id).isSome ∧ s.store.get? id = some (v, m) ∧ s.vectors.get? id = s0.vectors.get? id
  | .updSet => (s0.store.get? id).isSome ∧ s.store.get? id = some (v, m) ∧ s.vectors.get? id = s0.vectors.get? id ∧
      (s0.vectors.get? id).isSome
  | .done r => (r = .flag true ∧ (s0.store.get? id).isSome ∧ s.store.get? id = some (v, m) ∧
        s.vectors.get? id = (s0.vectors.get? id).map fun _ => v) ∨
      (r = .flag false ∧ s0.store.get? id = none ∧ s.store.get? id = none ∧
        s.vectors.get? id = s0.vectors.get? id)
  | _ => False

theorem AtUpd.same {id : Id} {v : V} {m : Option M} {s0 : GConc V M D} {a : GAt M D} (h : AtUpd id v m s0 s a)
    (e : SameAt id s s') : AtUpd id v m s0 s' a := by
  cases a <;> simp only [AtUpd, e.store, e.vectors] at h ⊢ <;> exact h

theorem upd_step [LinearOrder D] {env : HParEnv V D} {ops : Nat → FOp V M} {id : Id} {v : V} {m : Option M}
    {s0 : GConc V M D} {t : Nat} (ho : ops t = .update id v m) (h : AtUpd id v m s0 s (s.thr t)) :
    AtUpd id v m s0 (s.step env ops t) ((s.step env ops t).thr t) := by
  cases ha : s.thr t with
  | start =>
    rw [ha] at h
    simp only [step, ho, ha]
    by_cases hm : s.store.mem id
    · simp only [hm, if_true, Function.update_self]
      exact ⟨by rw [← h.1]; exact hm, by simp, h.2⟩
    · rw [if_neg hm]
      simp only [Function.update_self]
      rw [Dict.mem_eq] at hm
      have hn : s.store.get? id = none := by simpa using hm
      exact .inr ⟨rfl, by rw [← h.1]; exact hn, hn, h.2⟩
  | updTest =>
    rw [ha] at h
    obtain ⟨h1, h2, h3⟩ := h
    simp only [step, ho, ha, Function.update_self]
    by_cases hm : s.vectors.mem id
    · rw [if_pos hm]; exact ⟨h1, h2, h3, by rw [← h3]; exact hm⟩
    · rw [if_neg hm]
      rw [Dict.mem_eq] at hm
      have hn : s.vectors.get? id = none := by simpa using hm
      exact .inl ⟨rfl, h1, h2, by rw [← h3]; simp [hn]⟩
  | updSet =>
    rw [ha] at h
    obtain ⟨h1, h2, h3, h4⟩ := h
    simp only [step, ho, ha, Function.update_self]
    refine .inl ⟨rfl, h1, h2, ?_⟩
    obtain ⟨w, hw⟩ := Option.isSome_iff_exists.1 h4
    simp [hw]
  | done x =>
    rw [ha] at h
    have e0 : s.step env ops t = s := by simp only [step, ho, ha]
    rw [e0, ha]; exact h
  | _ => rw [ha] at h; exact h.elim

/-! ## Searches -/

section
variable [LinearOrder D]

/-- `k` is between the number wanted and zero. -/
def KOk (k₀ k : Int) : Prop := k ≤ k₀ ∧ (0 ≤ k₀ → 0 ≤ k)

/-- What holds of a search at a statement, when `C` holds of all candidates and `H` of all results. -/
def SrGood (C : Id × D → Prop) (H : Hit D M → Prop) (k₀ : Int) : GSr M D → Prop
  | .limit => True
  | .topMax k | .topLen k _ | .top k _ | .iter k _ | .next k _ _ | .entry k _ _ => KOk k₀ k
  | .walk k _ cands todo found | .nbrs k _ cands todo found _ | .nbr k _ cands todo found _ _
  | .vec k _ cands todo found _ _ _ => KOk k₀ k ∧ (∀ x ∈ cands, C x) ∧ (∀ x ∈ todo, C x) ∧ ∀ x ∈ found, C x
  | .info todo acc => (∀ x ∈ todo, C x) ∧ (∀ h ∈ acc, H h) ∧
      (acc.map Hit.dist ++ todo.map Prod.snd).Pairwise (· ≤ ·) ∧ (0 ≤ k₀ → acc.length + todo.length ≤ k₀.toNat)

/-- The same for the place of a searching thread. -/
def AtGood (C : Id × D → Prop) (H : Hit D M → Prop) (k₀ : Int) : GAt M D → Prop
  | .start => True
  | .srch p => SrGood C H k₀ p
  | .done (.hits l) => (∀ h ∈ l, H h) ∧ (l.map Hit.dist).Pairwise (· ≤ ·) ∧ (0 ≤ k₀ → l.length ≤ k₀.toNat)
  | .done .raised => True
  | _ => False

theorem SrGood.mono {C C' : Id × D → Prop} {H H' : Hit D M → Prop} {k₀ : Int} {p : GSr M D} (h : SrGood C H k₀ p)
    (hC : ∀ x, C x → C' x) (hH : ∀ x, H x → H' x) : SrGood C' H' k₀ p := by
  cases p with
  | walk k cl cands todo found =>
    exact ⟨h.1, fun x hx => hC x (h.2.1 x hx), fun x hx => hC x (h.2.2.1 x hx), fun x hx => hC x (h.2.2.2 x hx)⟩
  | nbrs k cl cands todo found n =>
    exact ⟨h.1, fun x hx => hC x (h.2.1 x hx), fun x hx => hC x (h.2.2.1 x hx), fun x hx => hC x (h.2.2.2 x hx)⟩
  | nbr k cl cands todo found r j =>
    exact ⟨h.1, fun x hx => hC x (h.2.1 x hx), fun x hx => hC x (h.2.2.1 x hx), fun x hx => hC x (h.2.2.2 x hx)⟩
  | vec k cl cands todo found r j nb =>
    exact ⟨h.1, fun x hx => hC x (h.2.1 x hx), fun x hx => hC x (h.2.2.1 x hx), fun x hx => hC x (h.2.2.2 x hx)⟩
  | info todo acc =>
    exact ⟨fun x hx => hC x (h.1 x hx), fun x hx => hH x (h.2.1 x hx), h.2.2⟩
  | _ => exact h

theorem AtGood.mono {C C' : Id × D → Prop} {H H' : Hit D M → Prop} {k₀ : Int} {a : GAt M D} (h : AtGood C H k₀ a)
    (hC : ∀ x, C x → C' x) (hH : ∀ x, H x → H' x) : AtGood C' H' k₀ a := by
  cases a with
  | srch p => exact SrGood.mono (p := p) h hC hH
  | done r =>
    cases r with
    | hits l => exact ⟨fun x hx => hH x (h.1 x hx), h.2⟩
    | _ => exact h
  | _ => exact h

theorem slice_good {C : Id × D → Prop} {got : List (Id × D)} (h : ∀ x ∈ got, C x) (k : Int) :
    ∀ x ∈ sliceTo (pySortBy Prod.snd got) k, C x := fun x hx =>
  h x ((pySortBy_perm _ _).mem_iff.1 ((sliceTo_sublist _ _).subset hx))

theorem sr_good {env : HParEnv V D} {q : V} {C : Id × D → Prop} {H : Hit D M → Prop} {k₀ : Int} {p : GSr M D}
    (hC : ∀ id v d, s.vectors.get? id = some v → env.dist q v = .ok d → C (id, d))
    (hH : ∀ id d v m, s.store.get? id = some (v, m) → C (id, d) → H ⟨id, d, m⟩)
    (h : SrGood C H k₀ p) : AtGood C H k₀ (stepSr env q k₀ s p) := by
  cases p with
  | limit => exact ⟨by omega, by omega⟩
  | topMax k => exact h
  | topLen k mx => exact h
  | top k cl =>
    simp only [stepSr]
    split
    · trivial
    · split
      · exact ⟨h, by simp, by simp, by simp⟩
      · exact h
  | iter k cl => simp only [stepSr]; split <;> [trivial; exact h]
  | next k cl n =>
    simp only [stepSr]
    split
    · trivial
    · split
      · trivial
      · split <;> [trivial; exact h]
  | entry k cl e =>
    simp only [stepSr]
    split
    · trivial
    · rename_i v hv
      split
      · trivial
      · rename_i d hd
        have hc : ∀ x ∈ [(e, d)], C x := fun x hx => by rw [List.mem_singleton.1 hx]; exact hC e v d hv hd
        exact ⟨h, hc, hc, by simp⟩
  | walk k cl cands todo found =>
    obtain ⟨h1, h2, h3, h4⟩ := h
    cases todo with
    | nil =>
      simp only [stepSr]
      cases cl with
      | zero =>
        have hcf : ∀ x ∈ cands ++ found, C x := fun x hx => (List.mem_append.1 hx).elim (h2 x) (h4 x)
        refine ⟨slice_good hcf k, by simp, ?_, ?_⟩
        · simp only [List.map_nil, List.nil_append, List.pairwise_map]
          exact (pySortBy_sorted _ _).sublist (sliceTo_sublist _ _)
        · intro hk
          rw [sliceTo_nonneg _ (h1.2 hk)]
          have := h1.1
          simp only [List.length_nil, List.length_take]
          omega
      | succ cl => exact ⟨h1, slice_good h4 _, slice_good h4 _, by simp⟩
    | cons x todo =>
      obtain ⟨n, dx⟩ := x
      have h3' : ∀ x ∈ todo, C x := fun x hx => h3 x (List.mem_cons_of_mem _ hx)
      simp only [stepSr]
      split
      · trivial
      · split
        · exact ⟨h1, h2, h3', h4⟩
        · exact ⟨h1, h2, h3', h4⟩
  | nbrs k cl cands todo found n => simp only [stepSr]; split <;> [trivial; exact h]
  | nbr k cl cands todo found r j =>
    simp only [stepSr]
    split
    · exact h
    · split <;> exact h
  | vec k cl cands todo found r j nb =>
    obtain ⟨h1, h2, h3, h4⟩ := h
    simp only [stepSr]
    split
    · trivial
    · rename_i v hv
      split
      · trivial
      · rename_i d hd
        refine ⟨h1, h2, h3, fun x hx => ?_⟩
        rcases List.mem_append.1 hx with hx | hx
        · exact h4 x hx
        · rw [List.mem_singleton.1 hx]; exact hC nb v d hv hd
  | info todo acc =>
    obtain ⟨h1, h2, h3, h4⟩ := h
    cases todo with
    | nil =>
      simp only [stepSr]
      exact ⟨h2, by simpa using h3, by simpa using h4⟩
    | cons x todo =>
      obtain ⟨id, d⟩ := x
      simp only [stepSr]
      split
      · trivial
      · rename_i v m hv
        refine ⟨fun x hx => h1 x (List.mem_cons_of_mem _ hx), fun y hy => ?_, ?_, ?_⟩
        · rcases List.mem_append.1 hy with hy | hy
          · exact h2 y hy
          · rw [List.mem_singleton.1 hy]; exact hH id d v m hv (h1 _ (List.mem_cons_self ..))
        · simpa using h3
        · intro hk
          have := h4 hk
          simp only [List.length_append, List.length_cons, List.length_nil] at this ⊢
          omega

theorem search_step {env : HParEnv V D} {ops : Nat → FOp V M} {q : V} {k₀ : Int} {t : Nat}
    {C : Id × D → Prop} {H : Hit D M → Prop} (ho : ops t = .search q k₀)
    (hC : ∀ id v d, s.vectors.get? id = some v → env.dist q v = .ok d → C (id, d))
    (hH : ∀ id d v m, s.store.get? id = some (v, m) → C (id, d) → H ⟨id, d, m⟩)
    (h : AtGood C H k₀ (s.thr t)) : AtGood C H k₀ ((s.step env ops t).thr t) := by
  cases ha : s.thr t with
  | start =>
    simp only [step, ho, ha, Function.update_self]
    split
    · exact ⟨by simp, by simp, by simp⟩
    · trivial
  | srch p =>
    rw [ha] at h
    simp only [step, ho, ha, Function.update_self]
    exact sr_good hC hH h
  | done r =>
    rw [ha] at h
    have e0 : s.step env ops t = s := by simp only [step, ho, ha]
    rw [e0, ha]; exact h
  | _ => rw [ha] at h; exact h.elim

end

end GConc
end Valori
