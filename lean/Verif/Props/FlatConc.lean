import Verif.Model.FlatConc
import Verif.Props.ParInsert
import Verif.Props.Flat
import Mathlib.Data.List.Induction

/-!
# C205, C206, C207: searches beside other threads on one flat index
-/

namespace Valori.Props

open Valori Spec

variable {V M D : Type}

/-! ## What a search answers that has the index for itself -/

/-- A storage that is a map from ids to vectors and metadata. -/
def plainStore (V M : Type) : Backend (Dict Id (V × Option M)) V M where
  init s := s
  close _ := []
  store s id v m := (.ok true, s.set id (v, m))
  retrieve s id := (.ok (s.get? id), s)
  delete s id := (.ok (s.mem id), s.pop id)
  update s id v m := if s.mem id then (.ok true, s.set id (v, m)) else (.ok false, s)
  list s lim := (.ok (match lim with | none => s.keys | some n => sliceTo s.keys n), s)
  count s := some s.length

/-- The answer of `search(q, k)` (the sequential model of C01) if nobody else uses the index. -/
def alone (env : FlatEnv V D) (s : FConc V M D) (q : V) (k : Int) : FRes M D :=
  match (Flat.search env (plainStore V M) 1 q k ⟨s.ids, s.cache, s.count, true⟩ s.store).1 with
  | .ok l => .hits l
  | .error _ => .raised

/-- The vectors of a list of ids in the storage. -/
def loaded (st : Dict Id (V × Option M)) (ids : List Id) : List (Id × V) :=
  ids.filterMap fun id => (st.get? id).map fun x => (id, x.1)

/-- The cache holds no vector that differs from the one in the storage. -/
def Coherent (st : Dict Id (V × Option M)) (c : Dict Id V) : Prop :=
  ∀ id v, c.get? id = some v → ∃ m, st.get? id = some (v, m)

theorem loadVecs_plain (st : Dict Id (V × Option M)) (ids : List Id) (c : Dict Id V)
    (h : Coherent st c) :
    ∃ c', loadVecs (plainStore V M) ids c st = (.ok (loaded st ids), c', st) := by
  induction ids generalizing c with
  | nil => exact ⟨c, rfl⟩
  | cons id rest ih =>
    unfold loadVecs
    cases hc : c.get? id with
    | some v =>
      obtain ⟨m, hm⟩ := h id v hc
      obtain ⟨c', hc'⟩ := ih c h
      exact ⟨c', by simp [hc', loaded, hm]⟩
    | none =>
      simp only [plainStore]
      cases hs : st.get? id with
      | none =>
        obtain ⟨c', hc'⟩ := ih c h
        exact ⟨c', by simpa [loaded, hs, plainStore] using hc'⟩
      | some x =>
        have hco : Coherent st (c.set id x.1) := by
          intro id' v' hv
          rw [Dict.get?_set] at hv
          split at hv
          · rename_i e
            subst e
            obtain rfl := Option.some.inj hv
            exact ⟨x.2, hs⟩
          · exact h id' v' hv
        obtain ⟨c', hc'⟩ := ih _ hco
        refine ⟨c', ?_⟩
        simp only [plainStore] at hc'
        simp [hc', loaded, hs]

theorem fetchMeta_plain (st : Dict Id (V × Option M)) (l : List (Id × D))
    (h : ∀ p ∈ l, (st.get? p.1).isSome) :
    fetchMeta (plainStore V M) l st =
      (.ok (l.map fun p => ⟨p.1, p.2, (st.get? p.1).bind Prod.snd⟩), st) := by
  induction l with
  | nil => rfl
  | cons p rest ih =>
    obtain ⟨id, d⟩ := p
    obtain ⟨x, hx⟩ := Option.isSome_iff_exists.1 (h (id, d) (by simp))
    have := ih (fun p hp => h p (by simp [hp]))
    unfold fetchMeta
    simp only [plainStore, hx]
    simp only [plainStore] at this
    simp [this, hx]

/-- What is left to do gives this answer, if the storage stays as it is. -/
def settle (st : Dict Id (V × Option M)) : FAt V M D → FRes M D
  | .done r => r
  | .info todo acc => .hits (acc ++ todo.map fun p => ⟨p.1, p.2, (st.get? p.1).bind Prod.snd⟩)
  | _ => .raised

theorem ranked_loaded (env : FlatEnv V D) (q : V) (k : Int) (st : Dict Id (V × Option M)) (ids : List Id) :
    ∀ p ∈ Flat.ranked env q k (loaded st ids), (st.get? p.1).isSome := by
  intro p hp
  unfold Flat.ranked at hp
  obtain ⟨i, -, hi⟩ := List.mem_filterMap.1 hp
  obtain ⟨x, hx, rfl⟩ := Option.map_eq_some_iff.1 hi
  obtain ⟨id, -, hid⟩ := List.mem_filterMap.1 (List.mem_of_getElem? hx)
  obtain ⟨y, hy, rfl⟩ := Option.map_eq_some_iff.1 hid
  simp [hy]

theorem alone_eq (env : FlatEnv V D) (s : FConc V M D) (q : V) (k : Int)
    (h : Coherent s.store s.cache) :
    alone env s q k = if s.ids.isEmpty then .hits [] else
      settle s.store (FConc.rank env q (min k (s.ids.length : Int)) (loaded s.store s.ids)) := by
  obtain ⟨c', hc'⟩ := loadVecs_plain s.store s.ids s.cache h
  unfold alone Flat.search
  by_cases he : s.ids.isEmpty
  · simp [he]
  · simp only [he, hc', FConc.rank]
    by_cases h1 : (loaded s.store s.ids).isEmpty
    · simp [h1, settle]
    · by_cases h2 : Flat.checkOk env q ((loaded s.store s.ids).map Prod.snd)
      · simp only [h1, h2, fetchMeta_plain _ _ (ranked_loaded env q _ s.store s.ids)]
        simp [settle]
      · simp [h1, h2, settle]

/-! ## Inserts and searches only -/

/-- The rows a thread inserts. -/
def rowsOf (ops : Nat → FOp V M) (t : Nat) : List (FRow V M) :=
  match ops t with
  | .insert rows => rows
  | _ => []

/-- Every thread inserts or searches. -/
def InsertsAndSearches (ops : Nat → FOp V M) : Prop :=
  ∀ t, (∃ rows, ops t = .insert rows) ∨ ∃ q k, ops t = .search q k

/-- The index before the threads start: the uuids are new and different, the cache agrees with the
storage. -/
structure CStart (ops : Nat → FOp V M) (s : FConc V M D) : Prop where
  thr : ∀ t, s.thr t = .start
  fresh : FreshRows (rowsOf ops) s.ids
  new : ∀ t, ∀ r ∈ rowsOf ops t, s.store.get? r.id = none
  coh : Coherent s.store s.cache

/-- What the storage may hold under an id. -/
def Final (ops : Nat → FOp V M) (s0 : FConc V M D) (id : Id) (x : V × Option M) : Prop :=
  s0.store.get? id = some x ∨ ∃ t, ∃ r ∈ rowsOf ops t, r.id = id ∧ x = (r.v, r.m)

theorem Final.unique {ops : Nat → FOp V M} {s0 : FConc V M D} (h0 : CStart ops s0) {id : Id}
    {x y : V × Option M} (hx : Final ops s0 id x) (hy : Final ops s0 id y) : x = y := by
  rcases hx with hx | ⟨t, r, hr, h1, h2⟩ <;> rcases hy with hy | ⟨t', r', hr', h1', h2'⟩
  · rw [hx] at hy; exact Option.some.inj hy
  · rw [← h1', h0.new t' r' hr'] at hx; cases hx
  · rw [← h1, h0.new t r hr] at hy; cases hy
  · obtain ⟨i, hi⟩ := List.getElem?_of_mem hr
    obtain ⟨i', hi'⟩ := List.getElem?_of_mem hr'
    obtain ⟨rfl, rfl⟩ := h0.fresh.inj hi hi' (h1.trans h1'.symm)
    rw [hi] at hi'
    obtain rfl := Option.some.inj hi'
    rw [h2, h2']

/-- What a thread knows. -/
def ThrOk (ops : Nat → FOp V M) (s : FConc V M D) (t : Nat) : Prop :=
  match ops t, s.thr t with
  | .insert rows, .append i => ∀ r, rows[i]? = some r → s.store.get? r.id = some (r.v, r.m)
  | .insert rows, .cache i => ∀ r, rows[i]? = some r → s.store.get? r.id = some (r.v, r.m)
  | .search _ _, .scan _ i got => i ≤ s.ids.length ∧ got = loaded s.store (s.ids.take i)
  | .search _ _, .read _ i got id =>
    s.ids[i]? = some id ∧ got = loaded s.store (s.ids.take i) ∧ (s.cache.get? id).isSome
  | .search _ _, .fetch _ i got id => s.ids[i]? = some id ∧ got = loaded s.store (s.ids.take i)
  | .search _ _, .put _ i got id v =>
    s.ids[i]? = some id ∧ got = loaded s.store (s.ids.take i) ∧ ∃ m, s.store.get? id = some (v, m)
  | .search _ _, .info todo _ => ∀ p ∈ todo, (s.store.get? p.1).isSome
  | _, _ => True

/-- The invariant. -/
structure CInv (ops : Nat → FOp V M) (s0 s : FConc V M D) : Prop where
  val : ∀ id x, s.store.get? id = some x → Final ops s0 id x
  coh : Coherent s.store s.cache
  lst : ∀ id ∈ s.ids, (s.store.get? id).isSome ∨ ∀ t, ∀ r ∈ rowsOf ops t, r.id ≠ id
  thr : ∀ t, ThrOk ops s t

/-- `s'` comes after `s`. -/
structure Later (s s' : FConc V M D) : Prop where
  ids : s.ids <+: s'.ids
  store : ∀ id x, s.store.get? id = some x → s'.store.get? id = some x
  listed : ∀ id ∈ s.ids, s'.store.get? id = s.store.get? id
  cache : ∀ id, (s.cache.get? id).isSome → (s'.cache.get? id).isSome

theorem Later.refl (s : FConc V M D) : Later s s := ⟨List.prefix_rfl, fun _ _ h => h, fun _ _ => rfl, fun _ h => h⟩

theorem Later.loaded {s s' : FConc V M D} (h : Later s s') {i : Nat} (hi : i ≤ s.ids.length) :
    loaded s'.store (s'.ids.take i) = loaded s.store (s.ids.take i) := by
  obtain ⟨l, hl⟩ := h.ids
  rw [← hl, List.take_append_of_le_length hi]
  unfold Props.loaded
  refine List.filterMap_congr fun id hid => ?_
  rw [h.listed id (List.mem_of_mem_take hid)]

theorem Later.getElem {s s' : FConc V M D} (h : Later s s') {i : Nat} {id : Id} (hi : s.ids[i]? = some id) :
    s'.ids[i]? = some id := by
  obtain ⟨l, hl⟩ := h.ids
  have hlt : i < s.ids.length := (List.getElem?_eq_some_iff.1 hi).1
  rw [← hl, List.getElem?_append_left hlt]
  exact hi

theorem ThrOk.later {ops : Nat → FOp V M} {s s' : FConc V M D} {t : Nat} (h : Later s s')
    (ht : s'.thr t = s.thr t) (hok : ThrOk ops s t) : ThrOk ops s' t := by
  unfold ThrOk at hok ⊢
  rw [ht]
  have lt : ∀ {i : Nat} {id : Id}, s.ids[i]? = some id → i ≤ s.ids.length :=
    fun hi => ((List.getElem?_eq_some_iff.1 hi).1).le
  split at hok
  · exact fun r hr => h.store _ _ (hok r hr)
  · exact fun r hr => h.store _ _ (hok r hr)
  · exact ⟨hok.1.trans h.ids.length_le, by rw [h.loaded hok.1]; exact hok.2⟩
  · exact ⟨h.getElem hok.1, by rw [h.loaded (lt hok.1)]; exact hok.2.1, h.cache _ hok.2.2⟩
  · exact ⟨h.getElem hok.1, by rw [h.loaded (lt hok.1)]; exact hok.2⟩
  · obtain ⟨h1, h2, m, h3⟩ := hok
    exact ⟨h.getElem h1, by rw [h.loaded (lt h1)]; exact h2, m, h.store _ _ h3⟩
  · intro p hp
    obtain ⟨x, hx⟩ := Option.isSome_iff_exists.1 (hok p hp)
    rw [h.store _ _ hx]; rfl
  · trivial


theorem conc_other (env : FlatEnv V D) (ops : Nat → FOp V M) (s : FConc V M D) {t t' : Nat} (ht : t' ≠ t) :
    (s.step env ops t).thr t' = s.thr t' := by
  unfold FConc.step
  simp only
  split
  · unfold FConc.stepInsert
    repeat' split
    all_goals first | rfl | exact Function.update_of_ne ht _ _
  · unfold FConc.stepSearch
    repeat' split
    all_goals first | rfl | exact Function.update_of_ne ht _ _
  · unfold FConc.stepUpdate
    repeat' split
    all_goals first | rfl | exact Function.update_of_ne ht _ _
  · unfold FConc.stepDelete
    repeat' split
    all_goals first | rfl | exact Function.update_of_ne ht _ _

theorem CInv.next {ops : Nat → FOp V M} {s0 s s' : FConc V M D} (t : Nat) (h : CInv ops s0 s)
    (ho : ∀ t', t' ≠ t → s'.thr t' = s.thr t') (hl : Later s s')
    (hv : ∀ id x, s'.store.get? id = some x → Final ops s0 id x) (hc : Coherent s'.store s'.cache)
    (hls : ∀ id ∈ s'.ids, (s'.store.get? id).isSome ∨ ∀ t, ∀ r ∈ rowsOf ops t, r.id ≠ id)
    (h0 : ThrOk ops s' t) : Later s s' ∧ CInv ops s0 s' := by
  refine ⟨hl, hv, hc, hls, fun t' => ?_⟩
  by_cases e : t' = t
  · subst e; exact h0
  · exact (h.thr t').later hl (ho t' e)

/-- A step that only moves a thread. -/
theorem CInv.go {ops : Nat → FOp V M} {s0 s : FConc V M D} (t : Nat) (h : CInv ops s0 s)
    (a : FAt V M D) (c : Nat) (h0 : ThrOk ops { s with count := c, thr := Function.update s.thr t a } t) :
    Later s { s with count := c, thr := Function.update s.thr t a } ∧
      CInv ops s0 { s with count := c, thr := Function.update s.thr t a } :=
  h.next t (fun _ e => Function.update_of_ne e _ _)
    ⟨List.prefix_rfl, fun _ _ h => h, fun _ _ => rfl, fun _ h => h⟩ h.val h.coh h.lst h0

theorem CInv.setCache {ops : Nat → FOp V M} {s0 s : FConc V M D} (t : Nat) (h : CInv ops s0 s)
    (a : FAt V M D) (id : Id) (v : V) (hs : ∃ m, s.store.get? id = some (v, m))
    (h0 : ThrOk ops { s with cache := s.cache.set id v, thr := Function.update s.thr t a } t) :
    Later s { s with cache := s.cache.set id v, thr := Function.update s.thr t a } ∧
      CInv ops s0 { s with cache := s.cache.set id v, thr := Function.update s.thr t a } := by
  refine h.next t (fun _ e => Function.update_of_ne e _ _)
    ⟨List.prefix_rfl, fun _ _ h => h, fun _ _ => rfl, fun id' h' => ?_⟩ h.val ?_ h.lst h0
  · simp only [Dict.get?_set]
    split
    · rfl
    · exact h'
  · intro id' v' hv
    simp only [Dict.get?_set] at hv
    split at hv
    · rename_i e
      subst e
      obtain rfl := Option.some.inj hv
      exact hs
    · exact h.coh id' v' hv

theorem loaded_succ (st : Dict Id (V × Option M)) {ids : List Id} {i : Nat} {id : Id}
    (hi : ids[i]? = some id) : loaded st (ids.take (i + 1)) =
      loaded st (ids.take i) ++ ((st.get? id).map fun x => (id, x.1)).toList := by
  unfold loaded
  rw [List.take_add_one, hi, List.filterMap_append]
  cases h : st.get? id <;> simp [h]

theorem conc_step {env : FlatEnv V D} {ops : Nat → FOp V M} {s0 s : FConc V M D} (h0 : CStart ops s0)
    (hq : InsertsAndSearches ops) (h : CInv ops s0 s) (t : Nat) :
    Later s (s.step env ops t) ∧ CInv ops s0 (s.step env ops t) := by
  have hthr := h.thr t
  unfold FConc.step
  simp only
  rcases hq t with ⟨rows, hop⟩ | ⟨q, k, hop⟩
  · -- a thread that inserts
    have hrows : rowsOf ops t = rows := by simp [rowsOf, hop]
    rw [hop]
    unfold ThrOk at hthr
    rw [hop] at hthr
    simp only
    unfold FConc.stepInsert
    cases ha : s.thr t with
    | row i =>
      simp only
      cases hr : rows[i]? with
      | none => exact h.go t _ _ (by simp [ThrOk, hop])
      | some r =>
        have hrm : r ∈ rowsOf ops t := by rw [hrows]; exact List.mem_of_getElem? hr
        have hfin : Final ops s0 r.id (r.v, r.m) := .inr ⟨t, r, hrm, rfl, rfl⟩
        have hkeep : ∀ id x, s.store.get? id = some x → (s.store.set r.id (r.v, r.m)).get? id = some x := by
          intro id x hx
          rw [Dict.get?_set]
          split
          · rename_i e
            subst e
            rw [(h.val _ _ hx).unique h0 hfin]
          · exact hx
        refine h.next t (fun _ e => Function.update_of_ne e _ _)
          ⟨List.prefix_rfl, hkeep, ?_, fun _ h => h⟩ ?_ ?_ ?_ ?_
        · intro id hid
          rcases h.lst id hid with h1 | h1
          · obtain ⟨x, hx⟩ := Option.isSome_iff_exists.1 h1
            rw [hx]
            exact hkeep id x hx
          · simp only [Dict.get?_set, if_neg (Ne.symm (h1 t r hrm))]
        · intro id x hx
          simp only [Dict.get?_set] at hx
          split at hx
          · rename_i e
            subst e
            obtain rfl := Option.some.inj hx
            exact hfin
          · exact h.val id x hx
        · intro id v hv
          obtain ⟨m, hm⟩ := h.coh id v hv
          exact ⟨m, hkeep _ _ hm⟩
        · intro id hid
          rcases h.lst id hid with h1 | h1
          · left
            obtain ⟨x, hx⟩ := Option.isSome_iff_exists.1 h1
            rw [hkeep id x hx]; rfl
          · exact .inr h1
        · simp only [ThrOk, hop, Function.update_self]
          intro r' hr'
          rw [hr] at hr'
          obtain rfl := Option.some.inj hr'
          simp
    | append i =>
      simp only
      cases hr : rows[i]? with
      | none => exact ⟨Later.refl s, h⟩
      | some r =>
        rw [ha] at hthr
        have hst := hthr r hr
        refine h.next t (fun _ e => Function.update_of_ne e _ _)
          ⟨List.prefix_append _ _, fun _ _ h => h, fun _ _ => rfl, fun _ h => h⟩ h.val h.coh ?_ ?_
        · intro id hid
          rcases List.mem_append.1 hid with h1 | h1
          · exact h.lst id h1
          · rw [List.mem_singleton] at h1
            subst h1
            left
            rw [hst]; rfl
        · simp only [ThrOk, hop, Function.update_self]
          exact hthr
    | cache i =>
      simp only
      cases hr : rows[i]? with
      | none => exact ⟨Later.refl s, h⟩
      | some r =>
        rw [ha] at hthr
        exact h.setCache t _ _ _ ⟨_, hthr r hr⟩ (by simp [ThrOk, hop])
    | start => exact h.go t _ _ (by simp [ThrOk, hop])
    | len r => exact h.go t _ _ (by simp [ThrOk, hop])
    | count n r => exact h.go t _ _ (by simp [ThrOk, hop])
    | limit => exact ⟨Later.refl s, h⟩
    | scan => exact ⟨Later.refl s, h⟩
    | read => exact ⟨Later.refl s, h⟩
    | fetch => exact ⟨Later.refl s, h⟩
    | put => exact ⟨Later.refl s, h⟩
    | info => exact ⟨Later.refl s, h⟩
    | updCache => exact ⟨Later.refl s, h⟩
    | del => exact ⟨Later.refl s, h⟩
    | delTest => exact ⟨Later.refl s, h⟩
    | delRemove => exact ⟨Later.refl s, h⟩
    | delPop => exact ⟨Later.refl s, h⟩
    | done => exact ⟨Later.refl s, h⟩
  · -- a thread that searches
    rw [hop]
    unfold ThrOk at hthr
    rw [hop] at hthr
    simp only
    unfold FConc.stepSearch
    cases ha : s.thr t with
    | start =>
      simp only
      split
      · exact h.go t _ _ (by simp [ThrOk, hop])
      · exact h.go t _ _ (by simp [ThrOk, hop])
    | limit => exact h.go t _ _ (by simp [ThrOk, hop, loaded])
    | scan k' i got =>
      rw [ha] at hthr
      simp only at hthr ⊢
      cases hi : s.ids[i]? with
      | none =>
        have hge : s.ids.length ≤ i := List.getElem?_eq_none_iff.1 hi
        have hgot : got = loaded s.store s.ids := by
          rw [hthr.2, List.take_of_length_le hge]
        by_cases e1 : got.isEmpty
        · have hr : FConc.rank env q k' got = (.done (.hits []) : FAt V M D) := by simp [FConc.rank, e1]
          rw [hr]
          exact h.go t _ _ (by simp [ThrOk, hop])
        · by_cases e2 : Flat.checkOk env q (got.map Prod.snd)
          · have hr : FConc.rank env q k' got = (.info (Flat.ranked env q k' got) [] : FAt V M D) := by
              simp [FConc.rank, e1, e2]
            rw [hr]
            refine h.go t _ _ ?_
            simp only [ThrOk, hop, Function.update_self]
            rw [hgot]
            exact ranked_loaded env q _ s.store s.ids
          · have hr : FConc.rank env q k' got = (.done .raised : FAt V M D) := by
              simp [FConc.rank, e1, e2]
            rw [hr]
            exact h.go t _ _ (by simp [ThrOk, hop])
      | some id =>
        simp only
        split
        · rename_i hm
          exact h.go t _ _ (by
            simp only [ThrOk, hop, Function.update_self]
            exact ⟨hi, hthr.2, by rw [← Dict.mem_eq]; exact hm⟩)
        · exact h.go t _ _ (by
            simp only [ThrOk, hop, Function.update_self]
            exact ⟨hi, hthr.2⟩)
    | read k' i got id =>
      rw [ha] at hthr
      simp only at hthr ⊢
      obtain ⟨h1, h2, h3⟩ := hthr
      obtain ⟨v, hv⟩ := Option.isSome_iff_exists.1 h3
      obtain ⟨m, hm⟩ := h.coh id v hv
      rw [hv]
      refine h.go t _ _ ?_
      simp only [ThrOk, hop, Function.update_self]
      exact ⟨(List.getElem?_eq_some_iff.1 h1).1, by rw [loaded_succ _ h1, hm, h2]; rfl⟩
    | fetch k' i got id =>
      rw [ha] at hthr
      simp only at hthr ⊢
      obtain ⟨h1, h2⟩ := hthr
      cases hs : s.store.get? id with
      | none =>
        refine h.go t _ _ ?_
        simp only [ThrOk, hop, Function.update_self]
        exact ⟨(List.getElem?_eq_some_iff.1 h1).1, by rw [loaded_succ _ h1, hs, h2]; simp⟩
      | some x =>
        refine h.go t _ _ ?_
        simp only [ThrOk, hop, Function.update_self]
        exact ⟨h1, h2, x.2, hs⟩
    | put k' i got id v =>
      rw [ha] at hthr
      simp only at hthr ⊢
      obtain ⟨h1, h2, m, h3⟩ := hthr
      refine h.setCache t _ _ _ ⟨m, h3⟩ ?_
      simp only [ThrOk, hop, Function.update_self]
      exact ⟨(List.getElem?_eq_some_iff.1 h1).1, by rw [loaded_succ _ h1, h3, h2]; rfl⟩
    | info todo acc =>
      rw [ha] at hthr
      cases todo with
      | nil => exact h.go t _ _ (by simp [ThrOk, hop])
      | cons p todo =>
        obtain ⟨id, d⟩ := p
        obtain ⟨x, hx⟩ := Option.isSome_iff_exists.1 (hthr (id, d) (by simp))
        simp only [hx]
        refine h.go t _ _ ?_
        simp only [ThrOk, hop, Function.update_self]
        exact fun p hp => hthr p (by simp [hp])
    | row => exact ⟨Later.refl s, h⟩
    | append => exact ⟨Later.refl s, h⟩
    | cache => exact ⟨Later.refl s, h⟩
    | updCache => exact ⟨Later.refl s, h⟩
    | del => exact ⟨Later.refl s, h⟩
    | delTest => exact ⟨Later.refl s, h⟩
    | delRemove => exact ⟨Later.refl s, h⟩
    | delPop => exact ⟨Later.refl s, h⟩
    | len => exact ⟨Later.refl s, h⟩
    | count => exact ⟨Later.refl s, h⟩
    | done => exact ⟨Later.refl s, h⟩

/-- A moment (an initial part of the schedule) at which thread `t` makes a statement of its call. -/
def During (env : FlatEnv V D) (ops : Nat → FOp V M) (s0 : FConc V M D) (sched : List Nat) (t : Nat)
    (pre : List Nat) : Prop :=
  pre ++ [t] <+: sched ∧ ∀ r, (s0.run env ops pre).thr t ≠ .done r

theorem During.more {env : FlatEnv V D} {ops : Nat → FOp V M} {s0 : FConc V M D} {sched pre : List Nat}
    {t : Nat} (h : During env ops s0 sched t pre) (t' : Nat) : During env ops s0 (sched ++ [t']) t pre :=
  ⟨h.1.trans (List.prefix_append _ _), h.2⟩

/-- The answer that the call is bound to give, seen from the past of thread `t`. -/
def Past (env : FlatEnv V D) (ops : Nat → FOp V M) (s0 : FConc V M D) (sched : List Nat) (t : Nat) (q : V)
    (k : Int) (r : FRes M D) : Prop :=
  ∃ p1 p2, During env ops s0 sched t p1 ∧ During env ops s0 sched t p2 ∧ p1 <+: p2 ∧
    r = alone env (s0.run env ops p2) q (min k ((s0.run env ops p1).ids.length : Int))

theorem Past.more {env : FlatEnv V D} {ops : Nat → FOp V M} {s0 : FConc V M D} {sched : List Nat}
    {t : Nat} {q : V} {k : Int} {r : FRes M D} (h : Past env ops s0 sched t q k r) (t' : Nat) :
    Past env ops s0 (sched ++ [t']) t q k r := by
  obtain ⟨p1, p2, h1, h2, h3⟩ := h
  exact ⟨p1, p2, h1.more t', h2.more t', h3⟩

/-- What is known of a searching thread at each statement. -/
def Story (env : FlatEnv V D) (ops : Nat → FOp V M) (s0 : FConc V M D) (sched : List Nat) (t : Nat) (q : V)
    (k : Int) : FAt V M D → Prop
  | .scan k' _ _ | .read k' _ _ _ | .fetch k' _ _ _ | .put k' _ _ _ _ =>
    ∃ p1, During env ops s0 sched t p1 ∧ k' = min k ((s0.run env ops p1).ids.length : Int)
  | .info todo acc => Past env ops s0 sched t q k (settle (s0.run env ops sched).store (.info todo acc))
  | .done r => Past env ops s0 sched t q k r
  | _ => True

theorem run_snoc (env : FlatEnv V D) (ops : Nat → FOp V M) (s0 : FConc V M D) (sched : List Nat) (t : Nat) :
    s0.run env ops (sched ++ [t]) = (s0.run env ops sched).step env ops t := by
  simp [FConc.run, List.foldl_append]

theorem run_cinv {env : FlatEnv V D} {ops : Nat → FOp V M} {s0 : FConc V M D} (h0 : CStart ops s0)
    (hq : InsertsAndSearches ops) (sched : List Nat) : CInv ops s0 (s0.run env ops sched) := by
  induction sched using List.reverseRecOn with
  | nil =>
    refine ⟨fun id x h => .inl h, h0.coh, fun id hid => .inr fun t r hr e => h0.fresh.new t r hr (e ▸ hid), ?_⟩
    intro t
    rcases hq t with ⟨rows, hop⟩ | ⟨q, k, hop⟩ <;> simp [ThrOk, hop, FConc.run, h0.thr]
  | append_singleton sched t ih =>
    rw [run_snoc]
    exact (conc_step h0 hq ih t).2

theorem run_later {env : FlatEnv V D} {ops : Nat → FOp V M} {s0 : FConc V M D} (h0 : CStart ops s0)
    (hq : InsertsAndSearches ops) {p sched : List Nat} (hp : p <+: sched) :
    (s0.run env ops p).ids.length ≤ (s0.run env ops sched).ids.length := by
  obtain ⟨l, rfl⟩ := hp
  induction l using List.reverseRecOn with
  | nil => simp
  | append_singleton l t ih =>
    rw [← List.append_assoc, run_snoc]
    exact ih.trans (conc_step h0 hq (run_cinv h0 hq _) t).1.ids.length_le

theorem settle_later {s s' : FConc V M D} (h : Later s s') {todo : List (Id × D)}
    (ht : ∀ p ∈ todo, (s.store.get? p.1).isSome) (acc : List (Hit D M)) :
    settle s'.store (.info todo acc) = settle s.store (.info todo acc) := by
  simp only [settle]
  congr 2
  refine List.map_congr_left fun p hp => ?_
  obtain ⟨x, hx⟩ := Option.isSome_iff_exists.1 (ht p hp)
  rw [hx, h.store _ _ hx]

theorem story {env : FlatEnv V D} {ops : Nat → FOp V M} {s0 : FConc V M D} (h0 : CStart ops s0)
    (hq : InsertsAndSearches ops) (sched : List Nat) {t : Nat} {q : V} {k : Int} (hop : ops t = .search q k) :
    Story env ops s0 sched t q k ((s0.run env ops sched).thr t) := by
  induction sched using List.reverseRecOn with
  | nil => simp [FConc.run, h0.thr, Story]
  | append_singleton sched t' ih =>
    have hinv : CInv ops s0 (s0.run env ops sched) := run_cinv h0 hq sched
    obtain ⟨hl, -⟩ := conc_step (env := env) h0 hq hinv t'
    have hok := hinv.thr t
    have hrun := run_snoc env ops s0 sched t'
    -- a statement at which the story goes on as before
    have same : (s0.run env ops (sched ++ [t'])).thr t = (s0.run env ops sched).thr t →
        Story env ops s0 (sched ++ [t']) t q k ((s0.run env ops (sched ++ [t'])).thr t) := by
      intro e
      rw [e]
      unfold ThrOk at hok
      rw [hop] at hok
      cases ha : (s0.run env ops sched).thr t <;> rw [ha] at ih hok <;> simp only [Story] at ih ⊢
      case info todo acc =>
        rw [hrun, settle_later hl hok]
        exact ih.more t'
      case done r => exact ih.more t'
      all_goals
        obtain ⟨p1, h1, h2⟩ := ih
        exact ⟨p1, h1.more t', h2⟩
    by_cases ht : t' = t
    · subst ht
      have hdur : (∀ r, (s0.run env ops sched).thr t' ≠ .done r) →
          During env ops s0 (sched ++ [t']) t' sched := fun h => ⟨List.prefix_rfl, h⟩
      unfold ThrOk at hok
      rw [hop] at hok
      have e : s0.run env ops (sched ++ [t']) = FConc.stepSearch env q k (s0.run env ops sched)
          (fun a => Function.update (s0.run env ops sched).thr t' a) ((s0.run env ops sched).thr t') := by
        rw [hrun]; simp only [FConc.step, hop]
      generalize hs : s0.run env ops sched = s at *
      cases ha : s.thr t' with
      | start =>
        have hd : During env ops s0 (sched ++ [t']) t' sched := hdur (by rw [ha]; simp)
        rw [e, ha]
        simp only [FConc.stepSearch, Function.update_self]
        split
        · rename_i he
          refine ⟨sched, sched, hd, hd, List.prefix_rfl, ?_⟩
          rw [hs, alone_eq env s q _ hinv.coh, if_pos he]
        · trivial
      | limit =>
        have hd : During env ops s0 (sched ++ [t']) t' sched := hdur (by rw [ha]; simp)
        rw [e, ha]
        simp only [FConc.stepSearch, Function.update_self]
        exact ⟨sched, hd, by rw [hs]⟩
      | scan k' i got =>
        have hd : During env ops s0 (sched ++ [t']) t' sched := hdur (by rw [ha]; simp)
        rw [ha] at ih hok
        obtain ⟨p1, h1, h2⟩ := ih
        rw [e, ha]
        simp only [FConc.stepSearch]
        cases hi : s.ids[i]? with
        | some id =>
          simp only [Function.update_self]
          split
          · exact ⟨p1, h1.more t', h2⟩
          · exact ⟨p1, h1.more t', h2⟩
        | none =>
          have hge : s.ids.length ≤ i := List.getElem?_eq_none_iff.1 hi
          have hgot : got = loaded s.store s.ids := by rw [hok.2, List.take_of_length_le hge]
          have hp1 : p1 <+: sched := (List.prefix_append p1 [t']).trans h1.1
          have hlen : (s0.run env ops p1).ids.length ≤ s.ids.length := by
            rw [← hs]; exact run_later h0 hq hp1
          have hmin : min k' (s.ids.length : Int) = k' := by rw [h2]; omega
          have key : settle s.store (FConc.rank env q k' got : FAt V M D) = alone env s q k' := by
            rw [alone_eq env s q _ hinv.coh, hmin, hgot]
            split
            · rename_i he
              have : s.ids = [] := List.isEmpty_iff.1 he
              simp [this, loaded, FConc.rank, settle]
            · rfl
          have past : Past env ops s0 (sched ++ [t']) t' q k (settle s.store (FConc.rank env q k' got)) :=
            ⟨p1, sched, h1.more t', hd, hp1, by rw [key, hs, h2]⟩
          have hst : (s0.run env ops (sched ++ [t'])).store = s.store := by
            rw [e, ha]; simp only [FConc.stepSearch, hi]
          simp only [Function.update_self]
          by_cases e1 : got.isEmpty
          · have hr : FConc.rank env q k' got = (.done (.hits []) : FAt V M D) := by simp [FConc.rank, e1]
            rw [hr] at past ⊢
            exact past
          · by_cases e2 : Flat.checkOk env q (got.map Prod.snd)
            · have hr : FConc.rank env q k' got = (.info (Flat.ranked env q k' got) [] : FAt V M D) := by
                simp [FConc.rank, e1, e2]
              rw [hr] at past ⊢
              simp only [Story]
              rw [hst]
              exact past
            · have hr : FConc.rank env q k' got = (.done .raised : FAt V M D) := by
                simp [FConc.rank, e1, e2]
              rw [hr] at past ⊢
              exact past
      | read k' i got id =>
        rw [ha] at ih hok
        obtain ⟨p1, h1, h2⟩ := ih
        rw [e, ha]
        obtain ⟨v, hv⟩ := Option.isSome_iff_exists.1 hok.2.2
        simp only [FConc.stepSearch, hv, Function.update_self]
        exact ⟨p1, h1.more t', h2⟩
      | fetch k' i got id =>
        rw [ha] at ih hok
        obtain ⟨p1, h1, h2⟩ := ih
        rw [e, ha]
        simp only [FConc.stepSearch]
        cases hx : s.store.get? id with
        | none =>
          simp only [Function.update_self]
          exact ⟨p1, h1.more t', h2⟩
        | some x =>
          simp only [Function.update_self]
          exact ⟨p1, h1.more t', h2⟩
      | put k' i got id v =>
        rw [ha] at ih hok
        obtain ⟨p1, h1, h2⟩ := ih
        rw [e, ha]
        simp only [FConc.stepSearch, Function.update_self]
        exact ⟨p1, h1.more t', h2⟩
      | info todo acc =>
        rw [ha] at ih hok
        cases todo with
        | nil =>
          rw [e, ha]
          simp only [FConc.stepSearch, Function.update_self]
          simpa [Story, settle] using ih.more t'
        | cons p todo =>
          obtain ⟨id, d⟩ := p
          obtain ⟨x, hx⟩ := Option.isSome_iff_exists.1 (hok (id, d) (by simp))
          rw [e, ha]
          simp only [FConc.stepSearch, hx, Function.update_self]
          have := ih.more t'
          simp only [Story]
          rw [e, ha]
          simp only [FConc.stepSearch, hx]
          simpa [settle, hx, hs] using this
      | row => exact same (by rw [e, ha]; exact ha)
      | append => exact same (by rw [e, ha]; exact ha)
      | cache => exact same (by rw [e, ha]; exact ha)
      | updCache => exact same (by rw [e, ha]; exact ha)
      | del => exact same (by rw [e, ha]; exact ha)
      | delTest => exact same (by rw [e, ha]; exact ha)
      | delRemove => exact same (by rw [e, ha]; exact ha)
      | delPop => exact same (by rw [e, ha]; exact ha)
      | len => exact same (by rw [e, ha]; exact ha)
      | count => exact same (by rw [e, ha]; exact ha)
      | done => exact same (by rw [e, ha]; exact ha)
    · exact same (by rw [hrun]; exact conc_other env ops _ (Ne.symm ht))

/-! ## C205 -/

/-- **C205** (all `k`) A search beside threads that insert answers like a search that has the index for
itself at one moment during the call (`p2`), with `k` cut to the number of vectors at an earlier moment of
the call (`p1`). -/
theorem C205_flat_search_moments_partial (env : FlatEnv V D) (ops : Nat → FOp V M) (s0 : FConc V M D)
    (h0 : CStart ops s0) (hq : InsertsAndSearches ops) (sched : List Nat) (t : Nat) (q : V) (k : Int)
    (hop : ops t = .search q k) (r : FRes M D) (hr : (s0.run env ops sched).thr t = .done r) :
    ∃ p1 p2, During env ops s0 sched t p1 ∧ During env ops s0 sched t p2 ∧ p1 <+: p2 ∧
      r = alone env (s0.run env ops p2) q (min k ((s0.run env ops p1).ids.length : Int)) := by
  have := story (env := env) h0 hq sched hop
  rw [hr] at this
  exact this

/-- **C205** (partial: `k` not larger than the number of vectors at the start) A search beside threads that
insert and search answers exactly like a search that has the index for itself at one moment during the
call. -/
theorem C205_flat_search_partial (env : FlatEnv V D) (ops : Nat → FOp V M) (s0 : FConc V M D)
    (h0 : CStart ops s0) (hq : InsertsAndSearches ops) (sched : List Nat) (t : Nat) (q : V) (k : Int)
    (hk : k ≤ s0.ids.length) (hop : ops t = .search q k) (r : FRes M D)
    (hr : (s0.run env ops sched).thr t = .done r) :
    ∃ p, During env ops s0 sched t p ∧ r = alone env (s0.run env ops p) q k := by
  obtain ⟨p1, p2, -, h2, -, h4⟩ := C205_flat_search_moments_partial env ops s0 h0 hq sched t q k hop r hr
  have hlen : s0.ids.length ≤ (s0.run env ops p1).ids.length :=
    run_later (env := env) (p := []) h0 hq (List.nil_prefix)
  refine ⟨p2, h2, ?_⟩
  rw [h4, min_eq_left (by omega)]

/-- One stored vector; thread 0 inserts a nearer one, thread 1 searches. -/
def conc1 : FConc Nat Nat Nat := ⟨[("a", (10, none))], ["a"], [("a", 10)], 1, fun _ => .start⟩

def insertAndSearch (k : Int) : Nat → FOp Nat Nat
  | 0 => .insert [⟨"b", 20, some 7⟩]
  | 1 => .search 21 k
  | _ => .insert []

theorem insertAndSearch_start (k : Int) : CStart (insertAndSearch k) conc1 := by
  have hrows : ∀ t, rowsOf (insertAndSearch k) t = if t = 0 then [⟨"b", 20, some 7⟩] else [] := by
    intro t; rcases t with _ | _ | t <;> simp [rowsOf, insertAndSearch]
  refine ⟨fun _ => rfl, ⟨fun t => ?_, fun t t' h r hr r' hr' => ?_, fun t r hr => ?_⟩, fun t r hr => ?_, ?_⟩
  · rw [hrows]; split <;> simp
  · rw [hrows] at hr hr'
    split at hr
    · split at hr'
      · omega
      · simp at hr'
    · simp at hr
  · rw [hrows] at hr
    split at hr
    · simp at hr; subst hr; decide
    · simp at hr
  · rw [hrows] at hr
    split at hr
    · simp at hr; subst hr; decide
    · simp at hr
  · intro id v hv
    by_cases e : id = "a"
    · subst e
      simp [conc1, Dict.get?] at hv
      subst hv
      exact ⟨none, rfl⟩
    · simp [conc1, Dict.get?, Ne.symm e] at hv

theorem insertAndSearch_only (k : Int) : InsertsAndSearches (insertAndSearch k) := by
  intro t
  rcases t with _ | _ | t
  · exact .inl ⟨_, rfl⟩
  · exact .inr ⟨_, _, rfl⟩
  · exact .inl ⟨_, rfl⟩

/-- The search begins, the insert takes place, the search goes on. -/
def between : List Nat := [1, 1] ++ List.replicate 7 0 ++ List.replicate 8 1

/-- The hypotheses are met with an answer that depends on the moment. -/
example : (1 : Int) ≤ conc1.ids.length ∧
    (conc1.run exFlat (insertAndSearch 1) between).thr 1 = .done (.hits [⟨"b", 1, some 7⟩]) ∧
    alone exFlat conc1 21 1 = .hits [⟨"a", 11, none⟩] := by
  decide +kernel

/-- **C205 (refuted)** If `k` is larger than the number of vectors when the search begins, the answer can be
one that no moment justifies: the search for the two nearest returns the new vector only, although the
index held first one vector, the other one, and then both. -/
theorem C205_flat_search_refuted :
    (conc1.run exFlat (insertAndSearch 2) between).thr 1 = .done (.hits [⟨"b", 1, some 7⟩]) ∧
    ∀ p ∈ between.inits, alone exFlat (conc1.run exFlat (insertAndSearch 2) p) 21 2 ≠
      .hits [⟨"b", 1, some 7⟩] := by
  decide +kernel

/-! ## C206 -/

/-- Does the thread search? -/
def searches (ops : Nat → FOp V M) (t : Nat) : Bool :=
  match ops t with
  | .search _ _ => true
  | _ => false

/-- Equal for all who do not search. -/
structure SameForWriters (ops : Nat → FOp V M) (s s' : FConc V M D) : Prop where
  store : s.store = s'.store
  ids : s.ids = s'.ids
  count : s.count = s'.count
  thr : ∀ t, searches ops t = false → s.thr t = s'.thr t

theorem same_search {env : FlatEnv V D} {ops : Nat → FOp V M} {s s' : FConc V M D}
    (h : SameForWriters ops s s') {t : Nat} (ht : searches ops t = true) :
    SameForWriters ops (s.step env ops t) s' := by
  have ho : ∀ t', searches ops t' = false → (s.step env ops t).thr t' = s'.thr t' := by
    intro t' h'
    rw [conc_other env ops s (by rintro rfl; rw [ht] at h'; cases h')]
    exact h.thr t' h'
  unfold searches at ht
  split at ht
  · rename_i q k hop
    have e : s.step env ops t = FConc.stepSearch env q k s (fun a => Function.update s.thr t a) (s.thr t) := by
      simp only [FConc.step, hop]
    have h1 : ∀ a, (FConc.stepSearch env q k s (fun a => Function.update s.thr t a) a).store = s.store ∧
        (FConc.stepSearch env q k s (fun a => Function.update s.thr t a) a).ids = s.ids ∧
        (FConc.stepSearch env q k s (fun a => Function.update s.thr t a) a).count = s.count := by
      intro a
      unfold FConc.stepSearch
      repeat' split
      all_goals exact ⟨rfl, rfl, rfl⟩
    obtain ⟨e1, e2, e3⟩ := h1 (s.thr t)
    refine ⟨?_, ?_, ?_, ho⟩
    · rw [e, e1, h.store]
    · rw [e, e2, h.ids]
    · rw [e, e3, h.count]
  · cases ht

theorem same_other {env : FlatEnv V D} {ops : Nat → FOp V M} {s s' : FConc V M D}
    (h : SameForWriters ops s s') {t : Nat} (ht : searches ops t = false) :
    SameForWriters ops (s.step env ops t) (s'.step env ops t) := by
  have ho : ∀ t', t' ≠ t → searches ops t' = false →
      (s.step env ops t).thr t' = (s'.step env ops t).thr t' := by
    intro t' hne h'
    rw [conc_other env ops s hne, conc_other env ops s' hne]
    exact h.thr t' h'
  have hth := h.thr t ht
  have hmain : (s.step env ops t).store = (s'.step env ops t).store ∧
      (s.step env ops t).ids = (s'.step env ops t).ids ∧
      (s.step env ops t).count = (s'.step env ops t).count ∧
      (s.step env ops t).thr t = (s'.step env ops t).thr t := by
    obtain ⟨st, ids, ca, co, th⟩ := s
    obtain ⟨st', ids', ca', co', th'⟩ := s'
    obtain ⟨h1, h2, h3, -⟩ := h
    simp only at h1 h2 h3 hth
    subst h1 h2 h3
    unfold FConc.step
    simp only [← hth]
    cases hop : ops t with
    | search q k => simp [searches, hop] at ht
    | insert rows =>
      simp only
      unfold FConc.stepInsert
      cases ha : th t <;> simp only <;> (repeat' split) <;>
        simp only [Function.update_self, ← hth, ha, and_self]
    | update id v m =>
      simp only
      unfold FConc.stepUpdate
      cases ha : th t <;> simp only <;> (repeat' split) <;>
        simp only [Function.update_self, ← hth, ha, and_self]
    | delete dels =>
      simp only
      unfold FConc.stepDelete
      cases ha : th t <;> simp only <;> (repeat' split) <;>
        simp only [Function.update_self, ← hth, ha, and_self]
  refine ⟨hmain.1, hmain.2.1, hmain.2.2.1, fun t' h' => ?_⟩
  by_cases e : t' = t
  · subst e; exact hmain.2.2.2
  · exact ho t' e h'

/-- **C206** Searches do not disturb the others: whatever the threads do (insert, update, delete) and
whatever the schedule, storage, ids, count and the progress and replies of all threads that do not search
are those of the same schedule without the searching threads. -/
theorem C206_searches_harmless (env : FlatEnv V D) (ops : Nat → FOp V M) (s0 : FConc V M D)
    (sched : List Nat) :
    let s := s0.run env ops sched
    let s' := s0.run env ops (sched.filter fun t => !searches ops t)
    s.store = s'.store ∧ s.ids = s'.ids ∧ s.count = s'.count ∧
      ∀ t, searches ops t = false → s.thr t = s'.thr t := by
  have : SameForWriters ops (s0.run env ops sched)
      (s0.run env ops (sched.filter fun t => !searches ops t)) := by
    induction sched using List.reverseRecOn with
    | nil => exact ⟨rfl, rfl, rfl, fun _ _ => rfl⟩
    | append_singleton sched t ih =>
      rw [List.filter_append, run_snoc]
      cases ht : searches ops t with
      | true =>
        simp only [List.filter_cons, ht, Bool.not_true, Bool.false_eq_true, if_false, List.filter_nil,
          List.append_nil]
        exact same_search ih ht
      | false =>
        simp only [List.filter_cons, ht, Bool.not_false, if_true, List.filter_nil]
        rw [run_snoc]
        exact same_other ih ht
  exact ⟨this.store, this.ids, this.count, this.thr⟩

/-- A search interleaved with an insert: the insert alone makes seven statements. -/
example : (between.filter fun t => !searches (insertAndSearch 2) t) = List.replicate 7 0 ∧
    (conc1.run exFlat (insertAndSearch 2) between).ids = ["a", "b"] ∧
    (conc1.run exFlat (insertAndSearch 2) between).thr 0 = .done (.ids ["b"]) := by
  decide +kernel

/-! ## C207 -/

/-- The id was listed, the vector was in the cache or in the storage, the metadata were in the storage, each
at some moment during the call. -/
def WasListed (env : FlatEnv V D) (ops : Nat → FOp V M) (s0 : FConc V M D) (sched : List Nat) (t : Nat)
    (id : Id) : Prop :=
  ∃ p, During env ops s0 sched t p ∧ id ∈ (s0.run env ops p).ids

def HadVector (env : FlatEnv V D) (ops : Nat → FOp V M) (s0 : FConc V M D) (sched : List Nat) (t : Nat)
    (id : Id) (v : V) : Prop :=
  ∃ p, During env ops s0 sched t p ∧ ((s0.run env ops p).cache.get? id = some v ∨
    ∃ m, (s0.run env ops p).store.get? id = some (v, m))

def HadMeta (env : FlatEnv V D) (ops : Nat → FOp V M) (s0 : FConc V M D) (sched : List Nat) (t : Nat)
    (id : Id) (m : Option M) : Prop :=
  ∃ p, During env ops s0 sched t p ∧ ∃ v, (s0.run env ops p).store.get? id = some (v, m)

section
variable {env : FlatEnv V D} {ops : Nat → FOp V M} {s0 : FConc V M D} {sched : List Nat} {t : Nat}

theorem WasListed.more {id : Id} (h : WasListed env ops s0 sched t id) (t' : Nat) :
    WasListed env ops s0 (sched ++ [t']) t id := by
  obtain ⟨p, h1, h2⟩ := h
  exact ⟨p, h1.more t', h2⟩

theorem HadVector.more {id : Id} {v : V} (h : HadVector env ops s0 sched t id v) (t' : Nat) :
    HadVector env ops s0 (sched ++ [t']) t id v := by
  obtain ⟨p, h1, h2⟩ := h
  exact ⟨p, h1.more t', h2⟩

theorem HadMeta.more {id : Id} {m : Option M} (h : HadMeta env ops s0 sched t id m) (t' : Nat) :
    HadMeta env ops s0 (sched ++ [t']) t id m := by
  obtain ⟨p, h1, h2⟩ := h
  exact ⟨p, h1.more t', h2⟩
end

/-- What can be said of everything a searching thread holds. -/
def Sound (env : FlatEnv V D) (ops : Nat → FOp V M) (s0 : FConc V M D) (sched : List Nat) (t : Nat) (q : V) :
    FAt V M D → Prop
  | .scan _ _ got => ∀ x ∈ got, WasListed env ops s0 sched t x.1 ∧ HadVector env ops s0 sched t x.1 x.2
  | .read _ _ got id | .fetch _ _ got id =>
    (∀ x ∈ got, WasListed env ops s0 sched t x.1 ∧ HadVector env ops s0 sched t x.1 x.2) ∧
      WasListed env ops s0 sched t id
  | .put _ _ got id v =>
    (∀ x ∈ got, WasListed env ops s0 sched t x.1 ∧ HadVector env ops s0 sched t x.1 x.2) ∧
      WasListed env ops s0 sched t id ∧ HadVector env ops s0 sched t id v
  | .info todo acc =>
    (∀ x ∈ todo, WasListed env ops s0 sched t x.1 ∧
      ∃ v, HadVector env ops s0 sched t x.1 v ∧ x.2 = env.dist q v) ∧
    ∀ h ∈ acc, WasListed env ops s0 sched t h.id ∧
      (∃ v, HadVector env ops s0 sched t h.id v ∧ h.dist = env.dist q v) ∧ HadMeta env ops s0 sched t h.id h.md
  | .done (.hits l) => ∀ h ∈ l, WasListed env ops s0 sched t h.id ∧
      (∃ v, HadVector env ops s0 sched t h.id v ∧ h.dist = env.dist q v) ∧ HadMeta env ops s0 sched t h.id h.md
  | _ => True

theorem Sound.more {env : FlatEnv V D} {ops : Nat → FOp V M} {s0 : FConc V M D} {sched : List Nat} {t : Nat}
    {q : V} {a : FAt V M D} (h : Sound env ops s0 sched t q a) (t' : Nat) :
    Sound env ops s0 (sched ++ [t']) t q a := by
  have hgot : ∀ {got : List (Id × V)}, (∀ x ∈ got, WasListed env ops s0 sched t x.1 ∧
      HadVector env ops s0 sched t x.1 x.2) → ∀ x ∈ got, WasListed env ops s0 (sched ++ [t']) t x.1 ∧
      HadVector env ops s0 (sched ++ [t']) t x.1 x.2 :=
    fun h x hx => ⟨(h x hx).1.more t', (h x hx).2.more t'⟩
  have hhits : ∀ {l : List (Hit D M)}, (∀ h ∈ l, WasListed env ops s0 sched t h.id ∧
      (∃ v, HadVector env ops s0 sched t h.id v ∧ h.dist = env.dist q v) ∧
      HadMeta env ops s0 sched t h.id h.md) → ∀ h ∈ l, WasListed env ops s0 (sched ++ [t']) t h.id ∧
      (∃ v, HadVector env ops s0 (sched ++ [t']) t h.id v ∧ h.dist = env.dist q v) ∧
      HadMeta env ops s0 (sched ++ [t']) t h.id h.md := by
    intro l h x hx
    obtain ⟨h1, ⟨v, h2, h3⟩, h4⟩ := h x hx
    exact ⟨h1.more t', ⟨v, h2.more t', h3⟩, h4.more t'⟩
  unfold Sound at h ⊢
  split
  · exact hgot h
  · exact ⟨hgot h.1, h.2.more t'⟩
  · exact ⟨hgot h.1, h.2.more t'⟩
  · exact ⟨hgot h.1, h.2.1.more t', h.2.2.more t'⟩
  · refine ⟨fun x hx => ?_, hhits h.2⟩
    obtain ⟨h1, v, h2, h3⟩ := h.1 x hx
    exact ⟨h1.more t', v, h2.more t', h3⟩
  · exact hhits h
  · trivial

theorem sound {env : FlatEnv V D} {ops : Nat → FOp V M} {s0 : FConc V M D} (h0 : ∀ t, s0.thr t = .start)
    (sched : List Nat) {t : Nat} {q : V} {k : Int} (hop : ops t = .search q k) :
    Sound env ops s0 sched t q ((s0.run env ops sched).thr t) := by
  induction sched using List.reverseRecOn with
  | nil => simp [FConc.run, h0, Sound]
  | append_singleton sched t' ih =>
    have hrun := run_snoc env ops s0 sched t'
    have same : (s0.run env ops (sched ++ [t'])).thr t = (s0.run env ops sched).thr t →
        Sound env ops s0 (sched ++ [t']) t q ((s0.run env ops (sched ++ [t'])).thr t) := by
      intro e; rw [e]; exact ih.more t'
    by_cases ht : t' = t
    · subst ht
      have hdur : (∀ r, (s0.run env ops sched).thr t' ≠ .done r) →
          During env ops s0 (sched ++ [t']) t' sched := fun h => ⟨List.prefix_rfl, h⟩
      have e : s0.run env ops (sched ++ [t']) = FConc.stepSearch env q k (s0.run env ops sched)
          (fun a => Function.update (s0.run env ops sched).thr t' a) ((s0.run env ops sched).thr t') := by
        rw [hrun]; simp only [FConc.step, hop]
      have ih' := ih.more t'
      generalize hs : s0.run env ops sched = s at *
      cases ha : s.thr t' with
      | start =>
        rw [e, ha]
        simp only [FConc.stepSearch, Function.update_self]
        split <;> simp [Sound]
      | limit =>
        rw [e, ha]
        simp [FConc.stepSearch, Function.update_self, Sound]
      | scan k' i got =>
        have hd : During env ops s0 (sched ++ [t']) t' sched := hdur (by rw [ha]; simp)
        rw [ha] at ih'
        rw [e, ha]
        simp only [FConc.stepSearch]
        cases hi : s.ids[i]? with
        | some id =>
          have hl : WasListed env ops s0 (sched ++ [t']) t' id :=
            ⟨sched, hd, by rw [hs]; exact List.mem_of_getElem? hi⟩
          simp only [Function.update_self]
          split
          · exact ⟨ih', hl⟩
          · exact ⟨ih', hl⟩
        | none =>
          simp only [Function.update_self]
          by_cases e1 : got.isEmpty
          · have hr : FConc.rank env q k' got = (.done (.hits []) : FAt V M D) := by simp [FConc.rank, e1]
            rw [hr]
            simp [Sound]
          · by_cases e2 : Flat.checkOk env q (got.map Prod.snd)
            · have hr : FConc.rank env q k' got = (.info (Flat.ranked env q k' got) [] : FAt V M D) := by
                simp [FConc.rank, e1, e2]
              rw [hr]
              refine ⟨fun x hx => ?_, by simp⟩
              unfold Flat.ranked at hx
              obtain ⟨j, -, hj⟩ := List.mem_filterMap.1 hx
              obtain ⟨y, hy, rfl⟩ := Option.map_eq_some_iff.1 hj
              obtain ⟨g1, g2⟩ := ih' y (List.mem_of_getElem? hy)
              exact ⟨g1, y.2, g2, rfl⟩
            · have hr : FConc.rank env q k' got = (.done .raised : FAt V M D) := by
                simp [FConc.rank, e1, e2]
              rw [hr]
              simp [Sound]
      | read k' i got id =>
        have hd : During env ops s0 (sched ++ [t']) t' sched := hdur (by rw [ha]; simp)
        rw [ha] at ih'
        rw [e, ha]
        simp only [FConc.stepSearch]
        cases hv : s.cache.get? id with
        | none => simp [Function.update_self, Sound]
        | some v =>
          simp only [Function.update_self]
          intro x hx
          rcases List.mem_append.1 hx with hx | hx
          · exact ih'.1 x hx
          · rw [List.mem_singleton] at hx
            subst hx
            exact ⟨ih'.2, sched, hd, .inl (by rw [hs]; exact hv)⟩
      | fetch k' i got id =>
        have hd : During env ops s0 (sched ++ [t']) t' sched := hdur (by rw [ha]; simp)
        rw [ha] at ih'
        rw [e, ha]
        simp only [FConc.stepSearch]
        cases hx : s.store.get? id with
        | none =>
          simp only [Function.update_self]
          exact ih'.1
        | some x =>
          simp only [Function.update_self]
          exact ⟨ih'.1, ih'.2, sched, hd, .inr ⟨x.2, by rw [hs]; exact hx⟩⟩
      | put k' i got id v =>
        rw [ha] at ih'
        rw [e, ha]
        simp only [FConc.stepSearch, Function.update_self]
        intro x hx
        rcases List.mem_append.1 hx with hx | hx
        · exact ih'.1 x hx
        · rw [List.mem_singleton] at hx
          subst hx
          exact ih'.2
      | info todo acc =>
        have hd : During env ops s0 (sched ++ [t']) t' sched := hdur (by rw [ha]; simp)
        rw [ha] at ih'
        cases todo with
        | nil =>
          rw [e, ha]
          simp only [FConc.stepSearch, Function.update_self]
          exact ih'.2
        | cons p todo =>
          obtain ⟨id, d⟩ := p
          rw [e, ha]
          simp only [FConc.stepSearch]
          cases hx : s.store.get? id with
          | none => simp [Function.update_self, Sound]
          | some x =>
            simp only [Function.update_self]
            refine ⟨fun y hy => ih'.1 y (by simp [hy]), fun h hh => ?_⟩
            rcases List.mem_append.1 hh with hh | hh
            · exact ih'.2 h hh
            · rw [List.mem_singleton] at hh
              subst hh
              obtain ⟨g1, g2⟩ := ih'.1 (id, d) (by simp)
              exact ⟨g1, g2, sched, hd, x.1, by rw [hs]; exact hx⟩
      | row => exact same (by rw [e, ha]; exact ha)
      | append => exact same (by rw [e, ha]; exact ha)
      | cache => exact same (by rw [e, ha]; exact ha)
      | updCache => exact same (by rw [e, ha]; exact ha)
      | del => exact same (by rw [e, ha]; exact ha)
      | delTest => exact same (by rw [e, ha]; exact ha)
      | delRemove => exact same (by rw [e, ha]; exact ha)
      | delPop => exact same (by rw [e, ha]; exact ha)
      | len => exact same (by rw [e, ha]; exact ha)
      | count => exact same (by rw [e, ha]; exact ha)
      | done => exact same (by rw [e, ha]; exact ha)
    · exact same (by rw [hrun]; exact conc_other env ops _ (Ne.symm ht))

/-- **C207** (partial: each hit by itself) Whatever the other threads do, every hit of a search names an id
that was listed, with the distance of a vector that was kept under this id, and with metadata that were
stored under it, each at some moment during the call. -/
theorem C207_hits_sound_partial (env : FlatEnv V D) (ops : Nat → FOp V M) (s0 : FConc V M D)
    (h0 : ∀ t, s0.thr t = .start) (sched : List Nat) (t : Nat) (q : V) (k : Int) (hop : ops t = .search q k)
    (l : List (Hit D M)) (hr : (s0.run env ops sched).thr t = .done (.hits l)) :
    ∀ h ∈ l,
      (∃ p, During env ops s0 sched t p ∧ h.id ∈ (s0.run env ops p).ids) ∧
      (∃ p v, During env ops s0 sched t p ∧ h.dist = env.dist q v ∧
        ((s0.run env ops p).cache.get? h.id = some v ∨ ∃ m, (s0.run env ops p).store.get? h.id = some (v, m))) ∧
      ∃ p v, During env ops s0 sched t p ∧ (s0.run env ops p).store.get? h.id = some (v, h.md) := by
  have hs := sound (env := env) (ops := ops) h0 sched hop
  rw [hr] at hs
  intro h hh
  obtain ⟨h1, ⟨v, ⟨p, h2, h3⟩, h4⟩, ⟨p', h5, v', h6⟩⟩ := hs h hh
  exact ⟨h1, ⟨p, v, h2, h4, h3⟩, p', v', h5, h6⟩

/-- Three vectors, thread 1 searches, thread 0 does something else. -/
def conc3 : FConc Nat Nat Nat :=
  ⟨[("a", (10, none)), ("b", (20, none)), ("c", (30, none))], ["a", "b", "c"],
    [("a", 10), ("b", 20), ("c", 30)], 3, fun _ => .start⟩

def searchBeside (op : FOp Nat Nat) (k : Int) : Nat → FOp Nat Nat
  | 0 => op
  | 1 => .search 21 k
  | _ => .insert []

/-- A search that is met by an update gives hits. -/
example : (conc3.run exFlat (searchBeside (.update "b" 100 (some 9)) 2)
    ([1, 1, 1, 1, 1, 1, 1, 1] ++ [0, 0] ++ List.replicate 9 1)).thr 1 =
      .done (.hits [⟨"b", 1, some 9⟩, ⟨"c", 9, none⟩]) := by
  decide +kernel

/-- **C207 (refuted), skipped.** While a search runs, another vector is deleted: the search passes over the
nearest vector, which is stored and listed all the time and is what a search at any moment would answer. -/
theorem C207_skipped_refuted :
    let ops := searchBeside (.delete ["a"]) 1
    let sched := [1, 1, 1, 1] ++ List.replicate 8 0 ++ List.replicate 6 1
    (conc3.run exFlat ops sched).thr 1 = .done (.hits [⟨"c", 9, none⟩]) ∧
    (∀ p ∈ sched.inits, alone exFlat (conc3.run exFlat ops p) 21 1 = .hits [⟨"b", 1, none⟩]) ∧
    ∀ p ∈ sched.inits, "b" ∈ (conc3.run exFlat ops p).ids := by
  decide +kernel

/-- **C207 (refuted), raises.** A search raises because a vector it found is deleted before it reads the
metadata; before and after the deletion every search answers. -/
theorem C207_raises_refuted :
    let ops := searchBeside (.delete ["b"]) 1
    let sched := List.replicate 9 1 ++ List.replicate 8 0 ++ [1]
    (conc3.run exFlat ops sched).thr 1 = .done .raised ∧
    ∀ p ∈ sched.inits,
      (conc3.run exFlat ops p).thr 0 = .start ∨ (conc3.run exFlat ops p).thr 0 = .done (.flag true) →
      alone exFlat (conc3.run exFlat ops p) 21 1 = .hits [⟨"b", 1, none⟩] ∨
        alone exFlat (conc3.run exFlat ops p) 21 1 = .hits [⟨"c", 9, none⟩] := by
  decide +kernel

/-- **C207 (refuted), mixed.** A hit can carry the distance of the old vector with the metadata of the new
one; neither before nor after the update does the index justify the answer. -/
theorem C207_mixed_refuted :
    let ops := searchBeside (.update "b" 100 (some 9)) 1
    let sched := List.replicate 9 1 ++ [0, 0] ++ List.replicate 3 1
    (conc3.run exFlat ops sched).thr 1 = .done (.hits [⟨"b", 1, some 9⟩]) ∧
    ∀ p ∈ sched.inits,
      (conc3.run exFlat ops p).thr 0 = .start ∨ (conc3.run exFlat ops p).thr 0 = .done (.flag true) →
      alone exFlat (conc3.run exFlat ops p) 21 1 ≠ .hits [⟨"b", 1, some 9⟩] := by
  decide +kernel

end Valori.Props
