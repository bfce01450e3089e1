import Verif.Spec.FlatRest
import Verif.Lemmas.Dict
import Mathlib.Data.List.Induction

/-!
# What threads on a flat index do to one id (C244)
-/

namespace Valori.FConc
variable {V M D : Type} {s s' s0 : FConc V M D} {id : Id} {ops : Nat → FOp V M} {env : FlatEnv V D}

theorem Same.rfl' (id : Id) (s : FConc V M D) : Same id s s := ⟨rfl, rfl, rfl⟩

theorem Same.trans {s'' : FConc V M D} (h : Same id s s') (h' : Same id s' s'') : Same id s s'' :=
  ⟨h'.store.trans h.store, h'.cache.trans h.cache, h'.ids.trans h.ids⟩

theorem Gone.same (h : Gone s id) (e : Same id s s') : Gone s' id :=
  ⟨e.store.trans h.store, e.cache.trans h.cache, e.ids.trans h.ids⟩

theorem count_removeFirst (l : List Id) (x y : Id) :
    (removeFirst l x).count y = l.count y - if y = x then 1 else 0 := by
  by_cases e : y = x
  · subst e; simp [removeFirst]
  · simp [removeFirst, List.count_erase, Ne.symm e, e]

/-! ## The places of the threads -/

/-- Some thread inserts a row with this id and vector. -/
def Brings (ops : Nat → FOp V M) (id : Id) (v : V) : Prop :=
  ∃ t rows r, ops t = .insert rows ∧ r ∈ rows ∧ r.id = id ∧ r.v = v

/-- An inserting thread. -/
def AtIns (rows : List (FRow V M)) (s : FConc V M D) : FAt V M D → Prop
  | .start => ∀ r ∈ rows, Gone s r.id
  | .row i => (∀ r ∈ rows.take i, In s r.id r.v r.m) ∧ ∀ r ∈ rows.drop i, Gone s r.id
  | .append i => ∃ r, rows[i]? = some r ∧ (∀ x ∈ rows.take i, In s x.id x.v x.m) ∧
      (s.store.get? r.id = some (r.v, r.m) ∧ s.cache.get? r.id = none ∧ s.ids.count r.id = 0) ∧
      ∀ x ∈ rows.drop (i + 1), Gone s x.id
  | .cache i => ∃ r, rows[i]? = some r ∧ (∀ x ∈ rows.take i, In s x.id x.v x.m) ∧
      (s.store.get? r.id = some (r.v, r.m) ∧ s.ids.count r.id = 1) ∧
      ∀ x ∈ rows.drop (i + 1), Gone s x.id
  | .len x | .count _ x | .done x => x = .ids (rows.map FRow.id) ∧ ∀ r ∈ rows, In s r.id r.v r.m
  | _ => False

/-- An updating thread. -/
def AtUpd (id : Id) (v : V) (m : Option M) (s0 s : FConc V M D) : FAt V M D → Prop
  | .start => Same id s0 s
  | .updCache => (s0.store.get? id).isSome ∧ s.store.get? id = some (v, m) ∧ (s.cache.get? id).isSome ∧
      s.ids.count id = 1
  | .done x => x = .flag (s0.store.get? id).isSome ∧ ((s0.store.get? id).isSome → In s id v m) ∧
      (s0.store.get? id = none → Gone s id)
  | _ => False

/-- What `success` says after the deletion of the first `i` ids. -/
def OkIff (l : List Id) (s0 : FConc V M D) (i : Nat) (ok : Bool) : Prop :=
  ok = true ↔ (l.take i).Nodup ∧ ∀ x ∈ l.take i, (s0.store.get? x).isSome

/-- A thread in the deletion of id number `i`. -/
structure Mid (l : List Id) (s0 s : FConc V M D) (i : Nat) (ok : Bool) (id : Id) : Prop where
  at_ : l[i]? = some id
  past : ∀ x ∈ l.take i, x ≠ id → Gone s x
  todo : ∀ x ∈ l, x ∉ l.take (i + 1) → Same x s0 s
  ok : OkIff l s0 (i + 1) ok
  store : s.store.get? id = none

/-- A deleting thread. -/
def AtDel (l : List Id) (s0 s : FConc V M D) : FAt V M D → Prop
  | .start => ∀ x ∈ l, Same x s0 s
  | .del i ok => (∀ x ∈ l.take i, Gone s x) ∧ (∀ x ∈ l, x ∉ l.take i → Same x s0 s) ∧ OkIff l s0 i ok
  | .delTest i ok => ∃ id, Mid l s0 s i ok id ∧ s.ids.count id ≤ 1 ∧ (id ∈ s.ids → (s.cache.get? id).isSome)
  | .delRemove i ok => ∃ id, Mid l s0 s i ok id ∧ s.ids.count id = 1 ∧ (s.cache.get? id).isSome
  | .delPop i ok => ∃ id, Mid l s0 s i ok id ∧ s.ids.count id = 0
  | .len x | .count _ x | .done x => (∀ y ∈ l, Gone s y) ∧
      ∃ ok, x = .flag ok ∧ (ok = true ↔ l.Nodup ∧ ∀ y ∈ l, (s0.store.get? y).isSome)
  | _ => False

/-- A searching thread: what it puts into the cache is the vector of a row that is being inserted. -/
def AtSr (ops : Nat → FOp V M) (s : FConc V M D) : FAt V M D → Prop
  | .fetch _ _ _ id => id ∈ s.ids ∧ ∃ v, Brings ops id v
  | .put _ _ _ id v => id ∈ s.ids ∧ Brings ops id v
  | _ => True

def AtOp (ops : Nat → FOp V M) (s0 s : FConc V M D) (op : FOp V M) (a : FAt V M D) : Prop :=
  match op with
  | .insert rows => AtIns rows s a
  | .update id v m => AtUpd id v m s0 s a
  | .delete l => AtDel l s0 s a
  | .search _ _ => AtSr ops s a

structure Inv (ops : Nat → FOp V M) (s0 s : FConc V M D) : Prop where
  storeKeys : s.store.keys.Nodup
  cacheKeys : s.cache.keys.Nodup
  idle : ∀ id, (∀ t, ¬ opTouches (ops t) id) → Same id s0 s
  thr : ∀ t, AtOp ops s0 s (ops t) (s.thr t)

/-! ## What a step does to an id that the thread does not touch -/

/-- Nothing, or it puts the vector of a row that is being inserted into the cache. -/
def Harmless (ops : Nat → FOp V M) (id : Id) (s s' : FConc V M D) : Prop :=
  s'.store.get? id = s.store.get? id ∧ s'.ids.count id = s.ids.count id ∧
    (s'.cache.get? id = s.cache.get? id ∨ id ∈ s.ids ∧ ∃ v, s'.cache.get? id = some v ∧ Brings ops id v)

theorem Same.harmless (h : Same id s s') : Harmless ops id s s' := ⟨h.store, h.ids, .inl h.cache⟩

theorem run_snocF (sched : List Nat) (t : Nat) :
    s.run env ops (sched ++ [t]) = (s.run env ops sched).step env ops t := by
  simp [run, List.foldl_append]

theorem step_thrF {t t' : Nat} (h : t' ≠ t) : (s.step env ops t).thr t' = s.thr t' := by
  unfold step
  cases ops t with
  | insert rows => cases ha : s.thr t <;> simp only [stepInsert] <;> (try split) <;> simp [h]
  | search q k =>
    cases ha : s.thr t with
    | info todo acc => cases todo <;> simp only [stepSearch] <;> (try split) <;> simp [h]
    | _ => simp only [stepSearch] <;> (try split) <;> simp [h]
  | update id v m => cases ha : s.thr t <;> simp only [stepUpdate] <;> (try split) <;> simp [h]
  | delete l =>
    cases ha : s.thr t <;> simp only [stepDelete] <;> (try split) <;> (try split) <;> simp [h]

theorem step_keysF (t : Nat) (h : s.store.keys.Nodup) (h' : s.cache.keys.Nodup) :
    (s.step env ops t).store.keys.Nodup ∧ (s.step env ops t).cache.keys.Nodup := by
  unfold step
  cases ops t with
  | insert rows =>
    cases ha : s.thr t <;> simp only [stepInsert] <;> (try split) <;>
      exact ⟨by first | exact h | exact Dict.nodup_set h _ _, by first | exact h' | exact Dict.nodup_set h' _ _⟩
  | search q k =>
    cases ha : s.thr t with
    | info todo acc => cases todo <;> simp only [stepSearch] <;> (try split) <;> exact ⟨h, h'⟩
    | _ => simp only [stepSearch] <;> (try split) <;> exact ⟨h, by first | exact h' | exact Dict.nodup_set h' _ _⟩
  | update id v m =>
    cases ha : s.thr t <;> simp only [stepUpdate] <;> (try split) <;>
      exact ⟨by first | exact h | exact Dict.nodup_set h _ _, by first | exact h' | exact Dict.nodup_set h' _ _⟩
  | delete l =>
    cases ha : s.thr t <;> simp only [stepDelete] <;> (try split) <;> (try split) <;>
      exact ⟨by first | exact h | exact Dict.nodup_pop h _, by first | exact h' | exact Dict.nodup_pop h' _⟩

theorem step_other {t : Nat} (hi : Inv ops s0 s) (hn : ¬ opTouches (ops t) id) :
    Harmless ops id s (s.step env ops t) := by
  have hthr := hi.thr t
  unfold step
  cases ho : ops t with
  | insert rows =>
    rw [ho] at hn
    have hne : ∀ (i : Nat) (r : FRow V M), rows[i]? = some r → id ≠ r.id := fun i r hr e =>
      hn (.inl (List.mem_map.2 ⟨r, List.mem_of_getElem? hr, e.symm⟩))
    refine Same.harmless ?_
    cases ha : s.thr t with
    | row i =>
      simp only [stepInsert]
      split
      · rename_i r hr
        exact ⟨by simp [Dict.get?_set, (hne i r hr)], rfl, rfl⟩
      · exact ⟨rfl, rfl, rfl⟩
    | append i =>
      simp only [stepInsert]
      split
      · rename_i r hr
        exact ⟨rfl, rfl, by simp [List.count_append, (hne i r hr).symm]⟩
      · exact ⟨rfl, rfl, rfl⟩
    | cache i =>
      simp only [stepInsert]
      split
      · rename_i r hr
        exact ⟨rfl, by simp [Dict.get?_set, (hne i r hr)], rfl⟩
      · exact ⟨rfl, rfl, rfl⟩
    | _ => exact ⟨rfl, rfl, rfl⟩
  | search q k =>
    rw [ho] at hthr
    cases ha : s.thr t with
    | info todo acc => cases todo <;> simp only [stepSearch] <;> (try split) <;> exact Same.harmless ⟨rfl, rfl, rfl⟩
    | put k' i got x v =>
      rw [ha] at hthr
      simp only [stepSearch]
      refine ⟨rfl, rfl, ?_⟩
      by_cases e : id = x
      · subst e; exact .inr ⟨hthr.1, v, by simp, hthr.2⟩
      · exact .inl (by simp [Dict.get?_set, e])
    | _ => simp only [stepSearch] <;> (try split) <;> exact Same.harmless ⟨rfl, rfl, rfl⟩
  | update x v m =>
    rw [ho] at hn
    have hne : id ≠ x := fun e => hn (.inl e)
    refine Same.harmless ?_
    cases ha : s.thr t <;> simp only [stepUpdate] <;> (try split) <;> first
      | exact ⟨rfl, rfl, rfl⟩
      | exact ⟨by simp [Dict.get?_set, hne], rfl, rfl⟩
      | exact ⟨rfl, by simp [Dict.get?_set, hne], rfl⟩
  | delete l =>
    rw [ho] at hn
    have hne : ∀ (i : Nat) (x : Id), l[i]? = some x → id ≠ x := fun i x hr e => hn (.inr (e ▸ List.mem_of_getElem? hr))
    refine Same.harmless ?_
    cases ha : s.thr t with
    | del i ok =>
      simp only [stepDelete]
      split
      · exact ⟨rfl, rfl, rfl⟩
      · rename_i x hx; exact ⟨Dict.get?_pop_ne _ (hne i x hx), rfl, rfl⟩
    | delRemove i ok =>
      simp only [stepDelete]
      split
      · exact ⟨rfl, rfl, rfl⟩
      · rename_i x hx
        split
        · exact ⟨rfl, rfl, by simp [count_removeFirst, hne i x hx]⟩
        · exact ⟨rfl, rfl, rfl⟩
    | delPop i ok =>
      simp only [stepDelete]
      split
      · exact ⟨rfl, rfl, rfl⟩
      · rename_i x hx; exact ⟨rfl, Dict.get?_pop_ne _ (hne i x hx), rfl⟩
    | _ => simp only [stepDelete] <;> (try split) <;> exact ⟨rfl, rfl, rfl⟩

/-! ## Steps of other threads -/

theorem In.harmless {v : V} {m : Option M} (h : In s id v m) (e : Harmless ops id s s')
    (hb : ∀ w, Brings ops id w → w = v) : In s' id v m := by
  obtain ⟨h1, h2, h3 | ⟨-, w, h3, h4⟩⟩ := e
  · exact ⟨h1.trans h.store, h3.trans h.cache, h2.trans h.ids⟩
  · exact ⟨h1.trans h.store, by rw [h3, hb w h4], h2.trans h.ids⟩

theorem Gone.harmless (h : Gone s id) (e : Harmless ops id s s') : Gone s' id := by
  obtain ⟨h1, h2, h3 | ⟨h3, -⟩⟩ := e
  · exact ⟨h1.trans h.store, h3.trans h.cache, h2.trans h.ids⟩
  · exact absurd h3 (List.count_eq_zero.1 h.ids)

theorem AtIns.other {rows : List (FRow V M)} {a : FAt V M D} (h : AtIns rows s a)
    (hx : ∀ r ∈ rows, Harmless ops r.id s s') (hb : ∀ r ∈ rows, ∀ w, Brings ops r.id w → w = r.v) :
    AtIns rows s' a := by
  have hin : ∀ r ∈ rows, In s r.id r.v r.m → In s' r.id r.v r.m := fun r hr h => h.harmless (hx r hr) (hb r hr)
  have hgo : ∀ r ∈ rows, Gone s r.id → Gone s' r.id := fun r hr h => h.harmless (hx r hr)
  cases a with
  | start => exact fun r hr => hgo r hr (h r hr)
  | row i => exact ⟨fun r hr => hin r (List.mem_of_mem_take hr) (h.1 r hr),
      fun r hr => hgo r (List.mem_of_mem_drop hr) (h.2 r hr)⟩
  | append i =>
    obtain ⟨r, hr, h1, ⟨h2, h3, h4⟩, h5⟩ := h
    obtain ⟨e1, e2, e3⟩ := hx r (List.mem_of_getElem? hr)
    refine ⟨r, hr, fun r hr => hin r (List.mem_of_mem_take hr) (h1 r hr), ⟨e1.trans h2, ?_, e2.trans h4⟩,
      fun r hr => hgo r (List.mem_of_mem_drop hr) (h5 r hr)⟩
    rcases e3 with e3 | ⟨e3, -⟩
    · exact e3.trans h3
    · exact absurd e3 (List.count_eq_zero.1 h4)
  | cache i =>
    obtain ⟨r, hr, h1, ⟨h2, h3⟩, h5⟩ := h
    obtain ⟨e1, e2, -⟩ := hx r (List.mem_of_getElem? hr)
    exact ⟨r, hr, fun r hr => hin r (List.mem_of_mem_take hr) (h1 r hr), ⟨e1.trans h2, e2.trans h3⟩,
      fun r hr => hgo r (List.mem_of_mem_drop hr) (h5 r hr)⟩
  | len x => exact ⟨h.1, fun r hr => hin r hr (h.2 r hr)⟩
  | count n x => exact ⟨h.1, fun r hr => hin r hr (h.2 r hr)⟩
  | done x => exact ⟨h.1, fun r hr => hin r hr (h.2 r hr)⟩
  | _ => exact h.elim

theorem AtUpd.other {v : V} {m : Option M} {a : FAt V M D} (h : AtUpd id v m s0 s a) (e : Same id s s') :
    AtUpd id v m s0 s' a := by
  cases a with
  | start => exact Same.trans h e
  | updCache => exact ⟨h.1, e.store.trans h.2.1, by rw [e.cache]; exact h.2.2.1, e.ids.trans h.2.2.2⟩
  | done x =>
    refine ⟨h.1, fun hs => ?_, fun hs => (h.2.2 hs).same e⟩
    have := h.2.1 hs
    exact ⟨e.store.trans this.store, e.cache.trans this.cache, e.ids.trans this.ids⟩
  | _ => exact h.elim

theorem Mid.step {l : List Id} {i : Nat} {ok : Bool} (h : Mid l s0 s i ok id) (e : ∀ x ∈ l, x ≠ id → Same x s s')
    (hs : s'.store.get? id = s.store.get? id) : Mid l s0 s' i ok id := by
  refine ⟨h.at_, fun x hx hne => (h.past x hx hne).same (e x (List.mem_of_mem_take hx) hne),
    fun x hx hn => (h.todo x hx hn).trans (e x hx ?_), h.ok, hs.trans h.store⟩
  rintro rfl
  exact hn (by rw [List.take_add_one, h.at_]; simp)

theorem Mid.other {l : List Id} {i : Nat} {ok : Bool} (h : Mid l s0 s i ok id) (e : ∀ x ∈ l, Same x s s') :
    Mid l s0 s' i ok id :=
  h.step (fun x hx _ => e x hx) (e id (List.mem_of_getElem? h.at_)).store

theorem Same.listed (e : Same id s s') : id ∈ s'.ids ↔ id ∈ s.ids := by
  rw [← List.count_pos_iff, ← List.count_pos_iff, e.ids]

theorem AtDel.other {l : List Id} {a : FAt V M D} (h : AtDel l s0 s a) (e : ∀ x ∈ l, Same x s s') :
    AtDel l s0 s' a := by
  cases a with
  | start => exact fun x hx => (h x hx).trans (e x hx)
  | del i ok => exact ⟨fun x hx => (h.1 x hx).same (e x (List.mem_of_mem_take hx)),
      fun x hx hn => (h.2.1 x hx hn).trans (e x hx), h.2.2⟩
  | delTest i ok =>
    obtain ⟨x, h1, h2, h3⟩ := h
    have ex := e x (List.mem_of_getElem? h1.at_)
    exact ⟨x, h1.other e, by rw [ex.ids]; exact h2, fun hm => by rw [ex.cache]; exact h3 (ex.listed.1 hm)⟩
  | delRemove i ok =>
    obtain ⟨x, h1, h2, h3⟩ := h
    have ex := e x (List.mem_of_getElem? h1.at_)
    exact ⟨x, h1.other e, by rw [ex.ids]; exact h2, by rw [ex.cache]; exact h3⟩
  | delPop i ok =>
    obtain ⟨x, h1, h2⟩ := h
    exact ⟨x, h1.other e, by rw [(e x (List.mem_of_getElem? h1.at_)).ids]; exact h2⟩
  | len x => exact ⟨fun y hy => (h.1 y hy).same (e y hy), h.2⟩
  | count n x => exact ⟨fun y hy => (h.1 y hy).same (e y hy), h.2⟩
  | done x => exact ⟨fun y hy => (h.1 y hy).same (e y hy), h.2⟩
  | _ => exact h.elim

/-! ## A step of an inserting thread -/

theorem rows_split {rows : List (FRow V M)} {i : Nat} {r : FRow V M} (hn : (rows.map FRow.id).Nodup)
    (hr : rows[i]? = some r) :
    rows.take (i + 1) = rows.take i ++ [r] ∧ rows.drop i = r :: rows.drop (i + 1) ∧
      (∀ x ∈ rows.take i, x.id ≠ r.id) ∧ ∀ x ∈ rows.drop (i + 1), x.id ≠ r.id := by
  obtain ⟨hi, rfl⟩ := List.getElem?_eq_some_iff.1 hr
  have h1 : rows.drop i = rows[i] :: rows.drop (i + 1) := List.drop_eq_getElem_cons hi
  refine ⟨by rw [List.take_add_one, hr]; rfl, h1, ?_⟩
  have h2 : rows = rows.take i ++ rows[i] :: rows.drop (i + 1) := by rw [← h1, List.take_append_drop]
  rw [h2, List.map_append, List.map_cons, List.nodup_append, List.nodup_cons] at hn
  obtain ⟨-, ⟨a, -⟩, b⟩ := hn
  exact ⟨fun x hx e => b _ (List.mem_map_of_mem hx) _ List.mem_cons_self e,
    fun x hx e => a (e ▸ List.mem_map_of_mem hx)⟩

theorem In.same {v : V} {m : Option M} (h : In s id v m) (e : Same id s s') : In s' id v m :=
  ⟨e.store.trans h.store, e.cache.trans h.cache, e.ids.trans h.ids⟩

theorem ins_own {t : Nat} {rows : List (FRow V M)} (ho : ops t = .insert rows) (hn : (rows.map FRow.id).Nodup)
    (h : AtIns rows s (s.thr t)) : AtIns rows (s.step env ops t) ((s.step env ops t).thr t) := by
  unfold step
  rw [ho]
  cases ha : s.thr t with
  | start =>
    rw [ha] at h
    simp only [stepInsert, Function.update_self]
    exact ⟨by simp, fun r hr => (h r (by simpa using hr)).same ⟨rfl, rfl, rfl⟩⟩
  | row i =>
    rw [ha] at h
    cases hr : rows[i]? with
    | none =>
      simp only [stepInsert, hr, Function.update_self]
      refine ⟨rfl, ?_⟩
      rw [AtIns, List.take_of_length_le (List.getElem?_eq_none_iff.1 hr)] at h
      exact fun r hr => (h.1 r hr).same ⟨rfl, rfl, rfl⟩
    | some r =>
      simp only [stepInsert, hr, Function.update_self]
      obtain ⟨-, e2, e3, e4⟩ := rows_split hn hr
      rw [AtIns, e2] at h
      have hg := h.2 r List.mem_cons_self
      refine ⟨r, hr, fun x hx => (h.1 x hx).same ⟨by simp [Dict.get?_set, e3 x hx], rfl, rfl⟩,
        ⟨by simp, hg.cache, hg.ids⟩,
        fun x hx => (h.2 x (List.mem_cons_of_mem _ hx)).same ⟨by simp [Dict.get?_set, e4 x hx], rfl, rfl⟩⟩
  | append i =>
    rw [ha] at h
    obtain ⟨r, hr, h1, ⟨h2, h3, h4⟩, h5⟩ := h
    simp only [stepInsert, hr, Function.update_self]
    obtain ⟨-, -, e3, e4⟩ := rows_split hn hr
    exact ⟨r, hr, fun x hx => (h1 x hx).same ⟨rfl, rfl, by simp [List.count_append, (e3 x hx).symm]⟩,
      ⟨h2, by simp [List.count_append, h4]⟩,
      fun x hx => (h5 x hx).same ⟨rfl, rfl, by simp [List.count_append, (e4 x hx).symm]⟩⟩
  | cache i =>
    rw [ha] at h
    obtain ⟨r, hr, h1, ⟨h2, h3⟩, h5⟩ := h
    simp only [stepInsert, hr, Function.update_self]
    obtain ⟨e1, -, e3, e4⟩ := rows_split hn hr
    refine ⟨fun x hx => ?_, fun x hx => (h5 x hx).same ⟨rfl, by simp [Dict.get?_set, e4 x hx], rfl⟩⟩
    rw [e1, List.mem_append] at hx
    rcases hx with hx | hx
    · exact (h1 x hx).same ⟨rfl, by simp [Dict.get?_set, e3 x hx], rfl⟩
    · rw [List.mem_singleton] at hx; subst hx
      exact ⟨h2, by simp, h3⟩
  | len x =>
    rw [ha] at h
    simp only [stepInsert, Function.update_self]
    exact ⟨h.1, fun r hr => (h.2 r hr).same ⟨rfl, rfl, rfl⟩⟩
  | count n x =>
    rw [ha] at h
    simp only [stepInsert, Function.update_self]
    exact ⟨h.1, fun r hr => (h.2 r hr).same ⟨rfl, rfl, rfl⟩⟩
  | done x => rw [ha] at h; simp only [stepInsert, ha]; exact h
  | _ => rw [ha] at h; exact h.elim

/-! ## A step of an updating thread -/

theorem upd_own {t : Nat} {v : V} {m : Option M} (ho : ops t = .update id v m) (hs : Settled s0)
    (h : AtUpd id v m s0 s (s.thr t)) : AtUpd id v m s0 (s.step env ops t) ((s.step env ops t).thr t) := by
  have h2 := hs.ids id
  have h3 := hs.agree id
  unfold step
  rw [ho]
  cases ha : s.thr t with
  | start =>
    rw [ha] at h
    cases he : s0.store.get? id with
    | none =>
      have hm : s.store.mem id = false := by rw [Dict.mem_eq, h.store, he]; rfl
      simp only [stepUpdate, hm, Function.update_self, Bool.false_eq_true, if_false]
      refine ⟨by rw [he]; rfl, fun x => by simp [he] at x, fun _ => ⟨h.store.trans he, h.cache.trans ?_, h.ids.trans ?_⟩⟩
      · rw [h3, he]; rfl
      · rw [h2, he]; rfl
    | some x =>
      have hm : s.store.mem id = true := by rw [Dict.mem_eq, h.store, he]; rfl
      simp only [stepUpdate, hm, Function.update_self, if_true]
      refine ⟨by rw [he]; rfl, by simp, ?_, ?_⟩
      · rw [h.cache, h3, he]; rfl
      · rw [h.ids, h2, he]; rfl
  | updCache =>
    rw [ha] at h
    simp only [stepUpdate, Function.update_self]
    exact ⟨by rw [h.1], fun _ => ⟨h.2.1, by simp, h.2.2.2⟩, fun e => by have h1 := h.1; rw [e] at h1; cases h1⟩
  | done x => rw [ha] at h; simp only [stepUpdate, ha]; exact h
  | _ => rw [ha] at h; exact h.elim

/-! ## A step of a deleting thread -/

theorem del_own {t : Nat} {l : List Id} (ho : ops t = .delete l) (hs : Settled s0) (hk : s.store.keys.Nodup)
    (hk' : s.cache.keys.Nodup) (h : AtDel l s0 s (s.thr t)) :
    AtDel l s0 (s.step env ops t) ((s.step env ops t).thr t) := by
  unfold step
  rw [ho]
  cases ha : s.thr t with
  | start =>
    rw [ha] at h
    simp only [stepDelete, Function.update_self]
    exact ⟨by simp, fun x hx _ => (h x hx).trans ⟨rfl, rfl, rfl⟩, by simp [OkIff]⟩
  | del i ok =>
    rw [ha] at h
    cases hr : l[i]? with
    | none =>
      simp only [stepDelete, hr, Function.update_self]
      rw [AtDel, OkIff, List.take_of_length_le (List.getElem?_eq_none_iff.1 hr)] at h
      exact ⟨fun x hx => (h.1 x hx).same ⟨rfl, rfl, rfl⟩, ok, rfl, h.2.2⟩
    | some id =>
      obtain ⟨h1, h2, h3⟩ := h
      have ht : l.take (i + 1) = l.take i ++ [id] := by rw [List.take_add_one, hr]; rfl
      have hm : id ∈ l := List.mem_of_getElem? hr
      simp only [stepDelete, hr, Function.update_self]
      refine ⟨id, ⟨hr, fun x hx hne => (h1 x hx).same ⟨Dict.get?_pop_ne _ hne, rfl, rfl⟩, fun x hx hn => ?_, ?_, ?_⟩, ?_⟩
      · rw [ht, List.mem_append, List.mem_singleton, not_or] at hn
        exact (h2 x hx hn.1).trans ⟨Dict.get?_pop_ne _ hn.2, rfl, rfl⟩
      · unfold OkIff at h3 ⊢
        rw [Bool.and_eq_true, h3, ht, Dict.mem_eq, List.nodup_append]
        by_cases hi : id ∈ l.take i
        · constructor
          · rintro ⟨-, e⟩; rw [(h1 id hi).store] at e; cases e
          · rintro ⟨⟨-, -, e⟩, -⟩; exact absurd rfl (e id hi id (by simp))
        · rw [(h2 id hm hi).store]
          constructor
          · rintro ⟨⟨e1, e2⟩, e3⟩
            refine ⟨⟨e1, by simp, ?_⟩, ?_⟩
            · rintro a ha b hb rfl
              rw [List.mem_singleton] at hb; subst hb; exact hi ha
            · intro x hx
              rw [List.mem_append, List.mem_singleton] at hx
              rcases hx with hx | rfl
              · exact e2 x hx
              · exact e3
          · rintro ⟨⟨e1, -, -⟩, e2⟩
            exact ⟨⟨e1, fun x hx => e2 x (by simp [hx])⟩, e2 id (by simp)⟩
      · simp [Dict.get?_pop hk]
      · by_cases hi : id ∈ l.take i
        · have := (h1 id hi).ids
          exact ⟨by simp only [this]; omega, fun hc => absurd hc (List.count_eq_zero.1 this)⟩
        · have e := h2 id hm hi
          have e2 := hs.ids id
          refine ⟨?_, fun hc => ?_⟩
          · simp only [e.ids, e2]; split <;> omega
          · have : 0 < s.ids.count id := List.count_pos_iff.2 hc
            rw [e.ids, e2] at this
            simp only [e.cache, hs.agree id, Option.isSome_map]
            by_contra hc'; simp [hc'] at this
  | delTest i ok =>
    rw [ha] at h
    obtain ⟨id, h1, h2, h3⟩ := h
    simp only [stepDelete, h1.at_, Function.update_self]
    split
    · rename_i hc
      refine ⟨id, h1.other fun x _ => ⟨rfl, rfl, rfl⟩, ?_, h3 hc⟩
      have : 0 < s.ids.count id := List.count_pos_iff.2 hc
      show s.ids.count id = 1
      omega
    · rename_i hc
      exact ⟨id, h1.other fun x _ => ⟨rfl, rfl, rfl⟩, List.count_eq_zero.2 hc⟩
  | delRemove i ok =>
    rw [ha] at h
    obtain ⟨id, h1, h2, h3⟩ := h
    have hc : id ∈ s.ids := List.count_pos_iff.1 (by omega)
    simp only [stepDelete, h1.at_, hc, if_true, Function.update_self]
    exact ⟨id, h1.step (fun x _ hne => ⟨rfl, rfl, by simp [count_removeFirst, hne]⟩) rfl,
      by simp [count_removeFirst, h2]⟩
  | delPop i ok =>
    rw [ha] at h
    obtain ⟨id, h1, h2⟩ := h
    have ht : l.take (i + 1) = l.take i ++ [id] := by rw [List.take_add_one, h1.at_]; rfl
    simp only [stepDelete, h1.at_, Function.update_self]
    refine ⟨fun x hx => ?_, fun x hx hn => (h1.todo x hx hn).trans ⟨rfl, Dict.get?_pop_ne _ ?_, rfl⟩, h1.ok⟩
    · by_cases e : x = id
      · subst e; exact ⟨h1.store, by simp [Dict.get?_pop hk'], h2⟩
      · rw [ht, List.mem_append, List.mem_singleton] at hx
        exact (h1.past x (hx.resolve_right e) e).same ⟨rfl, Dict.get?_pop_ne _ e, rfl⟩
    · rintro rfl; exact hn (by rw [ht]; simp)
  | len x =>
    rw [ha] at h
    simp only [stepDelete, Function.update_self]
    exact ⟨fun y hy => (h.1 y hy).same ⟨rfl, rfl, rfl⟩, h.2⟩
  | count n x =>
    rw [ha] at h
    simp only [stepDelete, Function.update_self]
    exact ⟨fun y hy => (h.1 y hy).same ⟨rfl, rfl, rfl⟩, h.2⟩
  | done x => rw [ha] at h; simp only [stepDelete, ha]; exact h
  | _ => rw [ha] at h; exact h.elim

/-! ## A step of a searching thread -/

theorem AtIns.stored {rows : List (FRow V M)} {a : FAt V M D} (h : AtIns rows s a) {r : FRow V M} (hr : r ∈ rows) :
    s.store.get? r.id = none ∨ s.store.get? r.id = some (r.v, r.m) := by
  cases a with
  | start => exact .inl (h r hr).store
  | row i =>
    rw [← List.take_append_drop i rows, List.mem_append] at hr
    exact hr.elim (fun hr => .inr (h.1 r hr).store) fun hr => .inl (h.2 r hr).store
  | append i =>
    obtain ⟨x, hx, h1, h2, h3⟩ := h
    obtain ⟨hi, rfl⟩ := List.getElem?_eq_some_iff.1 hx
    rw [← List.take_append_drop i rows, List.mem_append, List.drop_eq_getElem_cons hi, List.mem_cons] at hr
    rcases hr with hr | rfl | hr
    · exact .inr (h1 r hr).store
    · exact .inr h2.1
    · exact .inl (h3 r hr).store
  | cache i =>
    obtain ⟨x, hx, h1, h2, h3⟩ := h
    obtain ⟨hi, rfl⟩ := List.getElem?_eq_some_iff.1 hx
    rw [← List.take_append_drop i rows, List.mem_append, List.drop_eq_getElem_cons hi, List.mem_cons] at hr
    rcases hr with hr | rfl | hr
    · exact .inr (h1 r hr).store
    · exact .inr h2.1
    · exact .inl (h3 r hr).store
  | len x => exact .inr (h.2 r hr).store
  | count n x => exact .inr (h.2 r hr).store
  | done x => exact .inr (h.2 r hr).store
  | _ => exact h.elim

theorem Settled.listed (hs : Settled s0) (h : id ∈ s0.ids) : (s0.cache.get? id).isSome := by
  have h1 := List.count_pos_iff.2 h
  rw [hs.ids] at h1
  rw [hs.agree, Option.isSome_map]
  by_contra hc; simp [hc] at h1

theorem AtUpd.listed {v : V} {m : Option M} {a : FAt V M D} (hs : Settled s0) (h : AtUpd id v m s0 s a)
    (hl : id ∈ s.ids) : (s.cache.get? id).isSome := by
  cases a with
  | start => rw [h.cache]; exact hs.listed ((Same.listed h).1 hl)
  | updCache => exact h.2.2.1
  | done x =>
    cases he : s0.store.get? id with
    | none => exact absurd hl (List.count_eq_zero.1 (h.2.2 he).ids)
    | some y => rw [(h.2.1 (by rw [he]; rfl)).cache]; rfl
  | _ => exact h.elim

theorem AtDel.listed {l : List Id} {a : FAt V M D} (hs : Settled s0) (h : AtDel l s0 s a) (hm : id ∈ l)
    (hl : id ∈ s.ids) : (s.cache.get? id).isSome := by
  have same : Same id s0 s → (s.cache.get? id).isSome := fun e => by rw [e.cache]; exact hs.listed (e.listed.1 hl)
  have gone : Gone s id → (s.cache.get? id).isSome := fun e => absurd hl (List.count_eq_zero.1 e.ids)
  have mid : ∀ {i ok x}, Mid l s0 s i ok x → (id = x → (s.cache.get? id).isSome) → (s.cache.get? id).isSome := by
    intro i ok x h hx
    by_cases e : id = x
    · exact hx e
    · by_cases ht : id ∈ l.take (i + 1)
      · rw [List.take_add_one, h.at_, List.mem_append] at ht
        exact gone (h.past id (ht.resolve_right (by simpa using e)) e)
      · exact same (h.todo id hm ht)
  cases a with
  | start => exact same (h id hm)
  | del i ok =>
    by_cases ht : id ∈ l.take i
    · exact gone (h.1 id ht)
    · exact same (h.2.1 id hm ht)
  | delTest i ok => obtain ⟨x, h1, -, h3⟩ := h; exact mid h1 (by rintro rfl; exact h3 hl)
  | delRemove i ok => obtain ⟨x, h1, -, h3⟩ := h; exact mid h1 (by rintro rfl; exact h3)
  | delPop i ok =>
    obtain ⟨x, h1, h2⟩ := h
    exact mid h1 (by rintro rfl; exact absurd hl (List.count_eq_zero.1 h2))
  | len x => exact gone (h.1 id hm)
  | count n x => exact gone (h.1 id hm)
  | done x => exact gone (h.1 id hm)
  | _ => exact h.elim

theorem Inv.brings (hi : Inv ops s0 s) (hs : Settled s0) (hl : id ∈ s.ids) (hc : s.cache.get? id = none) :
    ∃ v, Brings ops id v := by
  by_contra hb
  have hn : (s.cache.get? id).isSome := by
    by_cases ht : ∃ t, opTouches (ops t) id
    · obtain ⟨t, ht⟩ := ht
      have h := hi.thr t
      cases ho : ops t with
      | insert rows =>
        rw [ho] at ht
        obtain ⟨r, hr, rfl⟩ := List.mem_map.1 (ht.resolve_right (fun x => x))
        exact absurd ⟨r.v, t, rows, r, ho, hr, rfl, rfl⟩ hb
      | search q k => rw [ho] at ht; rcases ht with x | x <;> exact x.elim
      | update x v m =>
        rw [ho] at ht h
        have : id = x := ht.resolve_right (fun x => x)
        subst this
        exact AtUpd.listed hs h hl
      | delete l =>
        rw [ho] at ht h
        exact AtDel.listed hs h (ht.resolve_left (fun x => x)) hl
    · have e := hi.idle id fun t h => ht ⟨t, h⟩
      rw [e.cache]; exact hs.listed (e.listed.1 hl)
  rw [hc] at hn; cases hn

theorem rank_sr (env : FlatEnv V D) (q : V) (k : Int) (got : List (Id × V)) :
    AtSr ops s (rank env q k got) := by
  unfold rank
  split
  · trivial
  · split <;> trivial

theorem sr_own {t : Nat} {q : V} {k : Int} (ho : ops t = .search q k) (hs : Settled s0) (hi : Inv ops s0 s) :
    AtSr ops (s.step env ops t) ((s.step env ops t).thr t) := by
  have h := hi.thr t
  unfold step
  rw [ho] at h ⊢
  cases ha : s.thr t with
  | start => simp only [stepSearch, Function.update_self]; split <;> trivial
  | scan k' i got =>
    simp only [stepSearch]
    split
    · simp only [Function.update_self]; exact rank_sr _ _ _ _
    · rename_i id hid
      simp only [Function.update_self]
      split
      · trivial
      · rename_i hm
        have hl := List.mem_of_getElem? hid
        refine ⟨hl, hi.brings hs hl ?_⟩
        rw [Dict.mem_eq] at hm
        simpa using hm
  | fetch k' i got id =>
    rw [ha] at h
    obtain ⟨hl, w, t', rows, r, h1, h2, rfl, h4⟩ := h
    simp only [stepSearch]
    split
    · simp only [Function.update_self]; trivial
    · rename_i v m hst
      simp only [Function.update_self]
      refine ⟨hl, t', rows, r, h1, h2, rfl, ?_⟩
      have h5 := hi.thr t'
      rw [h1] at h5
      rcases AtIns.stored h5 h2 with e | e <;> rw [hst] at e <;> simp at e
      exact e.1.symm
  | info todo acc =>
    cases todo <;> simp only [stepSearch] <;> (try split) <;> simp only [Function.update_self] <;> trivial
  | read k' i got id => simp only [stepSearch]; split <;> simp only [Function.update_self] <;> trivial
  | _ => simp only [stepSearch, Function.update_self, ha] <;> trivial

/-! ## The invariant -/

theorem Apart.value (hap : Apart ops s0) {t : Nat} {rows : List (FRow V M)} (ho : ops t = .insert rows) {r : FRow V M}
    (hr : r ∈ rows) {w : V} (hb : Brings ops r.id w) : w = r.v := by
  obtain ⟨t', rows', r', h1, h2, h3, rfl⟩ := hb
  have : t' = t := hap.owner t' t r.id (by rw [h1]; exact .inl (List.mem_map.2 ⟨r', h2, h3⟩))
    (by rw [ho]; exact .inl (List.mem_map_of_mem hr))
  subst this
  rw [ho] at h1; cases h1
  rw [List.inj_on_of_nodup_map (hap.rows t' rows ho) h2 hr h3]

theorem Inv.step (hi : Inv ops s0 s) (hs : Settled s0) (hap : Apart ops s0) (t : Nat) :
    Inv ops s0 (s.step env ops t) := by
  have hk := step_keysF (env := env) (ops := ops) (s := s) t hi.storeKeys hi.cacheKeys
  have hsame : ∀ {id}, ¬ opTouches (ops t) id → (∀ t', ¬ opInserts (ops t') id) → Same id s (s.step env ops t) := by
    intro id hn hni
    obtain ⟨h1, h2, h3 | ⟨-, v, -, t', rows, r, h4, h5, rfl, -⟩⟩ := step_other (env := env) hi hn
    · exact ⟨h1, h3, h2⟩
    · exact absurd (show opInserts (ops t') r.id by rw [h4]; exact List.mem_map_of_mem h5) (hni t')
  have hins : ∀ {t' id}, opInserts (ops t') id → opTouches (ops t') id := by
    intro t' id h
    cases ho : ops t' <;> simp only [ho, opInserts, opTouches, opWrites] at h ⊢
    exact .inl h
  refine ⟨hk.1, hk.2, fun id hn => (hi.idle id hn).trans (hsame (hn t) fun t' h => hn t' (hins h)), fun t' => ?_⟩
  have h := hi.thr t'
  by_cases e : t' = t
  · subst e
    cases ho : ops t' with
    | insert rows => rw [ho] at h; exact ins_own ho (hap.rows t' rows ho) h
    | search q k => exact sr_own ho hs hi
    | update id v m => rw [ho] at h; exact upd_own ho hs h
    | delete l => rw [ho] at h; exact del_own ho hs hi.storeKeys hi.cacheKeys h
  · rw [step_thrF e]
    have hnot : ∀ {id}, opTouches (ops t') id → ¬ opTouches (ops t) id := fun h1 h2 => e (hap.owner _ _ _ h1 h2)
    cases ho : ops t' with
    | insert rows =>
      rw [ho] at h
      refine AtIns.other h (fun r hr => step_other hi (hnot ?_)) fun r hr w hb => hap.value ho hr hb
      rw [ho]; exact .inl (List.mem_map_of_mem hr)
    | search q k =>
      rw [ho] at h
      have keep : ∀ {id v}, id ∈ s.ids → Brings ops id v → id ∈ (s.step env ops t).ids := by
        intro id v hl hb
        obtain ⟨t'', rows, r, h1, h2, rfl, -⟩ := hb
        have ht'' : opTouches (ops t'') r.id := by rw [h1]; exact .inl (List.mem_map_of_mem h2)
        by_cases e' : t'' = t
        · subst e'
          have hp := hi.thr t''
          unfold FConc.step
          rw [h1] at hp ⊢
          cases ha : s.thr t'' <;> simp only [stepInsert] <;> (try split) <;> simp [hl]
        · have := (step_other (env := env) hi (fun h2 => e' (hap.owner t'' t _ ht'' h2))).2.1
          rw [← List.count_pos_iff, this, List.count_pos_iff]; exact hl
      cases ha : s.thr t' with
      | fetch k' i got id => rw [ha] at h; obtain ⟨h1, v, h2⟩ := h; exact ⟨keep h1 h2, v, h2⟩
      | put k' i got id v => rw [ha] at h; exact ⟨keep h.1 h.2, h.2⟩
      | _ => trivial
    | update id v m =>
      rw [ho] at h
      have ht' : opTouches (ops t') id := by rw [ho]; exact .inl rfl
      refine AtUpd.other h (hsame (hnot ht') fun t'' h' => ?_)
      have := hap.owner _ _ _ (hins h') ht'
      subst this
      rw [ho] at h'; exact h'
    | delete l =>
      rw [ho] at h
      refine AtDel.other h fun id hid => ?_
      have ht' : opTouches (ops t') id := by rw [ho]; exact .inr hid
      refine hsame (hnot ht') fun t'' h' => ?_
      have := hap.owner _ _ _ (hins h') ht'
      subst this
      rw [ho] at h'; exact h'

theorem run_invF (h0 : ∀ t, s0.thr t = .start) (hs : Settled s0) (hap : Apart ops s0) (sched : List Nat) :
    Inv ops s0 (s0.run env ops sched) := by
  induction sched using List.reverseRecOn with
  | nil =>
    refine ⟨hs.storeKeys, hs.cacheKeys, fun id _ => Same.rfl' id s0, fun t => ?_⟩
    show AtOp ops s0 s0 (ops t) (s0.thr t)
    rw [h0 t]
    cases ho : ops t with
    | insert rows =>
      intro r hr
      have he := hap.fresh t r.id (by rw [ho]; exact List.mem_map_of_mem hr)
      exact ⟨he, by rw [hs.agree, he]; rfl, by rw [hs.ids, he]; rfl⟩
    | search q k => trivial
    | update id v m => exact Same.rfl' id s0
    | delete l => exact fun x _ => Same.rfl' x s0
  | append_singleton sched t ih => rw [run_snocF]; exact ih.step hs hap t

end Valori.FConc
