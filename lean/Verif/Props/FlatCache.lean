import Verif.Props.FlatConc

/-!
# C208: threads leave the cache of a flat index in agreement with the storage
-/

namespace Valori.Props

open Valori Spec

variable {V M D : Type}

/-- Is the id updated by some thread? -/
def Updated (ops : Nat → FOp V M) (id : Id) : Prop := ∃ t v m, ops t = .update id v m

/-- Where a thread that updates is, and what holds then. -/
def UpdOk (s0 s : FConc V M D) (id : Id) (v : V) (m : Option M) : FAt V M D → Prop
  | .start => s.store.get? id = s0.store.get? id ∧ s.cache.get? id = s0.cache.get? id
  | .updCache => s.store.get? id = some (v, m) ∧ s.cache.get? id = s0.cache.get? id
  | .done _ => s.store.get? id = some (v, m) ∧ s.cache.get? id = some v
  | _ => False

/-- What holds of the other threads. -/
def RestOk (ops : Nat → FOp V M) (s : FConc V M D) (t : Nat) : Prop :=
  match ops t, s.thr t with
  | .insert rows, .append i => ∀ r, rows[i]? = some r → s.store.get? r.id = some (r.v, r.m)
  | .insert rows, .cache i => ∀ r, rows[i]? = some r → s.store.get? r.id = some (r.v, r.m)
  | .search _ _, .fetch _ _ _ id => ¬ Updated ops id
  | .search _ _, .put _ _ _ id v => ¬ Updated ops id ∧ ∃ m, s.store.get? id = some (v, m)
  | _, _ => True

/-- No thread deletes, no two threads update the same id, and every id that is updated is in the cache. -/
structure UStart (ops : Nat → FOp V M) (s : FConc V M D) : Prop where
  start : CStart ops s
  nodel : ∀ t dels, ops t ≠ .delete dels
  one : ∀ t t' id v v' m m', ops t = .update id v m → ops t' = .update id v' m' → t = t'
  cached : ∀ id, Updated ops id → (s.cache.get? id).isSome

/-- The invariant. -/
structure UInv (ops : Nat → FOp V M) (s0 s : FConc V M D) : Prop where
  val : ∀ id x, ¬ Updated ops id → s.store.get? id = some x → Final ops s0 id x
  coh : ∀ id v, ¬ Updated ops id → s.cache.get? id = some v → ∃ m, s.store.get? id = some (v, m)
  upd : ∀ t id v m, ops t = .update id v m → UpdOk s0 s id v m (s.thr t)
  rest : ∀ t, RestOk ops s t

theorem UStart.row {ops : Nat → FOp V M} {s0 : FConc V M D} (h : UStart ops s0) {t : Nat} {r : FRow V M}
    (hr : r ∈ rowsOf ops t) : ¬ Updated ops r.id := by
  intro hu
  obtain ⟨v, hv⟩ := Option.isSome_iff_exists.1 (h.cached r.id hu)
  obtain ⟨m, hm⟩ := h.start.coh r.id v hv
  rw [h.start.new t r hr] at hm
  cases hm

theorem UInv.cached {ops : Nat → FOp V M} {s0 s : FConc V M D} (h0 : UStart ops s0) (h : UInv ops s0 s)
    {id : Id} (hu : Updated ops id) : s.cache.mem id = true := by
  rw [Dict.mem_eq]
  have hc := h0.cached id hu
  obtain ⟨t, v, m, hop⟩ := hu
  have := h.upd t id v m hop
  unfold UpdOk at this
  split at this
  · rw [this.2]; exact hc
  · rw [this.2]; exact hc
  · rw [this.2]; rfl
  · exact this.elim

/-- A step that changes neither storage nor cache. -/
theorem UInv.go {ops : Nat → FOp V M} {s0 s : FConc V M D} (h : UInv ops s0 s) (t : Nat) (a : FAt V M D)
    (ids : List Id) (c : Nat) (hu : ∀ id v m, ops t ≠ .update id v m)
    (hr : RestOk ops { s with ids := ids, count := c, thr := Function.update s.thr t a } t) :
    UInv ops s0 { s with ids := ids, count := c, thr := Function.update s.thr t a } := by
  refine ⟨h.val, h.coh, fun t' id v m hop => ?_, fun t' => ?_⟩
  · have e : t' ≠ t := by rintro rfl; exact hu _ _ _ hop
    have := h.upd t' id v m hop
    simp only [Function.update_of_ne e]
    unfold UpdOk at this ⊢
    exact this
  · by_cases e : t' = t
    · subst e; exact hr
    · have := h.rest t'
      unfold RestOk at this ⊢
      simp only [Function.update_of_ne e]
      exact this

/-- Something is written to storage or cache under one id. -/
theorem UInv.write {ops : Nat → FOp V M} {s0 s : FConc V M D} (h : UInv ops s0 s) (t : Nat) (a : FAt V M D)
    (id : Id) (st : Dict Id (V × Option M)) (ca : Dict Id V)
    (hst : ∀ id', id' ≠ id → st.get? id' = s.store.get? id')
    (hca : ∀ id', id' ≠ id → ca.get? id' = s.cache.get? id')
    (hval : ¬ Updated ops id → ∀ x, st.get? id = some x → Final ops s0 id x)
    (hcoh : ¬ Updated ops id → ∀ v, ca.get? id = some v → ∃ m, st.get? id = some (v, m))
    (hkeep : ¬ Updated ops id → ∀ x, s.store.get? id = some x → st.get? id = some x)
    (hu : ∀ t', t' ≠ t → ∀ v m, ops t' ≠ .update id v m)
    (hupd : ∀ id' v m, ops t = .update id' v m →
      UpdOk s0 { s with store := st, cache := ca, thr := Function.update s.thr t a } id' v m a)
    (hrow : Updated ops id → ∀ t', ∀ r ∈ rowsOf ops t', r.id ≠ id)
    (hr : RestOk ops { s with store := st, cache := ca, thr := Function.update s.thr t a } t) :
    UInv ops s0 { s with store := st, cache := ca, thr := Function.update s.thr t a } := by
  have hkeep' : ∀ id', ¬ Updated ops id' → ∀ x, s.store.get? id' = some x → st.get? id' = some x := by
    intro id' hn x hx
    by_cases e : id' = id
    · subst e; exact hkeep hn x hx
    · rw [hst id' e]; exact hx
  refine ⟨fun id' x hn hx => ?_, fun id' v hn hv => ?_, fun t' id' v m hop => ?_, fun t' => ?_⟩
  · by_cases e : id' = id
    · subst e; exact hval hn x hx
    · simp only [hst id' e] at hx; exact h.val id' x hn hx
  · by_cases e : id' = id
    · subst e; exact hcoh hn v hv
    · simp only [hca id' e] at hv
      obtain ⟨m, hm⟩ := h.coh id' v hn hv
      exact ⟨m, hkeep' id' hn _ hm⟩
  · by_cases e : t' = t
    · subst e
      simp only [Function.update_self]
      exact hupd id' v m hop
    · have hne : id' ≠ id := by rintro rfl; exact hu t' e v m hop
      have := h.upd t' id' v m hop
      simp only [Function.update_of_ne e]
      unfold UpdOk at this ⊢
      simp only [hst id' hne, hca id' hne]
      exact this
  · by_cases e : t' = t
    · subst e; exact hr
    · have := h.rest t'
      unfold RestOk at this ⊢
      simp only [Function.update_of_ne e]
      have hrk : ∀ (rows : List (FRow V M)) (i : Nat), ops t' = .insert rows →
          (∀ r, rows[i]? = some r → s.store.get? r.id = some (r.v, r.m)) →
          ∀ r, rows[i]? = some r → st.get? r.id = some (r.v, r.m) := by
        intro rows i hop hh r hr
        have hm : r ∈ rowsOf ops t' := by simp only [rowsOf, hop]; exact List.mem_of_getElem? hr
        by_cases hup : Updated ops r.id
        · have : r.id ≠ id := by rintro rfl; exact hrow hup t' r hm rfl
          rw [hst _ this]; exact hh r hr
        · exact hkeep' _ hup _ (hh r hr)
      split at this
      · rename_i rows i hop ha; exact hrk rows i hop this
      · rename_i rows i hop ha; exact hrk rows i hop this
      · exact this
      · obtain ⟨h1, m, h2⟩ := this
        exact ⟨h1, m, hkeep' _ h1 _ h2⟩
      · trivial

theorem uinv_step {env : FlatEnv V D} {ops : Nat → FOp V M} {s0 s : FConc V M D} (h0 : UStart ops s0)
    (h : UInv ops s0 s) (t : Nat) : UInv ops s0 (s.step env ops t) := by
  have hrest := h.rest t
  unfold FConc.step
  simp only
  cases hop : ops t with
  | delete dels => exact absurd hop (h0.nodel t dels)
  | insert rows =>
    have hu : ∀ id v m, ops t ≠ .update id v m := by rw [hop]; simp
    have hrows : rowsOf ops t = rows := by simp [rowsOf, hop]
    unfold RestOk at hrest
    rw [hop] at hrest
    simp only
    unfold FConc.stepInsert
    cases ha : s.thr t with
    | row i =>
      simp only
      cases hr : rows[i]? with
      | none => exact h.go t _ _ _ hu (by simp [RestOk, hop])
      | some r =>
        have hrm : r ∈ rowsOf ops t := by rw [hrows]; exact List.mem_of_getElem? hr
        have hnu := h0.row hrm
        have hfin : Final ops s0 r.id (r.v, r.m) := .inr ⟨t, r, hrm, rfl, rfl⟩
        have hk : ∀ x, s.store.get? r.id = some x → (s.store.set r.id (r.v, r.m)).get? r.id = some x := by
          intro x hx
          rw [Dict.get?_set_self, (h.val _ _ hnu hx).unique h0.start hfin]
        refine h.write t _ r.id _ s.cache (fun id' e => by rw [Dict.get?_set, if_neg e]) (fun _ _ => rfl)
          ?_ ?_ (fun _ => hk) ?_ (fun id' v m e => absurd e (hu id' v m)) (fun e => absurd e hnu) ?_
        · intro _ x hx
          rw [Dict.get?_set_self] at hx
          obtain rfl := Option.some.inj hx
          exact hfin
        · intro _ v hv
          obtain ⟨m, hm⟩ := h.coh _ _ hnu hv
          exact ⟨m, hk _ hm⟩
        · intro t' _ v m e
          exact hnu ⟨t', v, m, e⟩
        · simp only [RestOk, hop, Function.update_self]
          intro r' hr'
          rw [hr] at hr'
          obtain rfl := Option.some.inj hr'
          simp
    | append i =>
      simp only
      cases hr : rows[i]? with
      | none => exact h
      | some r =>
        rw [ha] at hrest
        exact h.go t _ _ _ hu (by simp only [RestOk, hop, Function.update_self]; exact hrest)
    | cache i =>
      simp only
      cases hr : rows[i]? with
      | none => exact h
      | some r =>
        rw [ha] at hrest
        have hrm : r ∈ rowsOf ops t := by rw [hrows]; exact List.mem_of_getElem? hr
        have hnu := h0.row hrm
        refine h.write t _ r.id s.store _ (fun _ _ => rfl) (fun id' e => by rw [Dict.get?_set, if_neg e])
          (fun _ x hx => h.val _ _ hnu hx) ?_ (fun _ x hx => hx) ?_ (fun id' v m e => absurd e (hu id' v m))
          (fun e => absurd e hnu) (by simp [RestOk, hop])
        · intro _ v hv
          rw [Dict.get?_set_self] at hv
          obtain rfl := Option.some.inj hv
          exact ⟨_, hrest r hr⟩
        · intro t' _ v m e
          exact hnu ⟨t', v, m, e⟩
    | start => exact h.go t _ _ _ hu (by simp [RestOk, hop])
    | len r => exact h.go t _ _ _ hu (by simp [RestOk, hop])
    | count n r => exact h.go t _ _ _ hu (by simp [RestOk, hop])
    | limit => exact h
    | scan => exact h
    | read => exact h
    | fetch => exact h
    | put => exact h
    | info => exact h
    | updCache => exact h
    | del => exact h
    | delTest => exact h
    | delRemove => exact h
    | delPop => exact h
    | done => exact h
  | search q k =>
    have hu : ∀ id v m, ops t ≠ .update id v m := by rw [hop]; simp
    unfold RestOk at hrest
    rw [hop] at hrest
    simp only
    unfold FConc.stepSearch
    cases ha : s.thr t with
    | start =>
      simp only
      split
      · exact h.go t _ _ _ hu (by simp [RestOk, hop])
      · exact h.go t _ _ _ hu (by simp [RestOk, hop])
    | limit => exact h.go t _ _ _ hu (by simp [RestOk, hop])
    | scan k' i got =>
      simp only
      cases hi : s.ids[i]? with
      | none =>
        refine h.go t _ _ _ hu ?_
        simp only [RestOk, hop, Function.update_self]
        unfold FConc.rank
        split <;> rename_i he
        all_goals first | trivial | (exfalso; revert he; split <;> (try split) <;> simp) | skip
        all_goals (revert he; split <;> (try split) <;> simp)
      | some id =>
        simp only
        split
        · exact h.go t _ _ _ hu (by simp [RestOk, hop])
        · rename_i hm
          refine h.go t _ _ _ hu ?_
          simp only [RestOk, hop, Function.update_self]
          intro hup
          exact hm (h.cached h0 hup)
    | read k' i got id =>
      simp only
      cases hv : s.cache.get? id with
      | none => exact h.go t _ _ _ hu (by simp [RestOk, hop])
      | some v => exact h.go t _ _ _ hu (by simp [RestOk, hop])
    | fetch k' i got id =>
      rw [ha] at hrest
      simp only
      cases hs : s.store.get? id with
      | none => exact h.go t _ _ _ hu (by simp [RestOk, hop])
      | some x =>
        refine h.go t _ _ _ hu ?_
        simp only [RestOk, hop, Function.update_self]
        exact ⟨hrest, x.2, hs⟩
    | put k' i got id v =>
      rw [ha] at hrest
      obtain ⟨hnu, m, hm⟩ := hrest
      refine h.write t _ id s.store _ (fun _ _ => rfl) (fun id' e => by rw [Dict.get?_set, if_neg e])
        (fun _ x hx => h.val _ _ hnu hx) ?_ (fun _ x hx => hx) ?_ (fun id' v m e => absurd e (hu id' v m))
        (fun e => absurd e hnu) (by simp [RestOk, hop])
      · intro _ v' hv
        rw [Dict.get?_set_self] at hv
        obtain rfl := Option.some.inj hv
        exact ⟨m, hm⟩
      · intro t' _ v m e
        exact hnu ⟨t', v, m, e⟩
    | info todo acc =>
      cases todo with
      | nil => exact h.go t _ _ _ hu (by simp [RestOk, hop])
      | cons p todo =>
        obtain ⟨id, d⟩ := p
        simp only
        cases hs : s.store.get? id with
        | none => exact h.go t _ _ _ hu (by simp [RestOk, hop])
        | some x => exact h.go t _ _ _ hu (by simp [RestOk, hop])
    | row => exact h
    | append => exact h
    | cache => exact h
    | updCache => exact h
    | del => exact h
    | delTest => exact h
    | delRemove => exact h
    | delPop => exact h
    | len => exact h
    | count => exact h
    | done => exact h
  | update id v m =>
    have hup : Updated ops id := ⟨t, v, m, hop⟩
    have hok := h.upd t id v m hop
    have hothers : ∀ t', t' ≠ t → ∀ v' m', ops t' ≠ .update id v' m' :=
      fun t' e v' m' hop' => e (h0.one t' t id v' v m' m hop' hop)
    have hrow : Updated ops id → ∀ t', ∀ r ∈ rowsOf ops t', r.id ≠ id := by
      rintro hu t' r hr rfl
      exact h0.row hr hu
    simp only
    unfold FConc.stepUpdate
    cases ha : s.thr t with
    | start =>
      rw [ha] at hok
      obtain ⟨h1, h2⟩ := hok
      have hin : s.store.mem id = true := by
        rw [Dict.mem_eq, h1]
        obtain ⟨w, hw⟩ := Option.isSome_iff_exists.1 (h0.cached id hup)
        obtain ⟨m', hm'⟩ := h0.start.coh id w hw
        rw [hm']; rfl
      simp only [hin, if_true]
      refine h.write t _ id _ s.cache (fun id' e => by rw [Dict.get?_set, if_neg e]) (fun _ _ => rfl)
        (fun e => absurd hup e) (fun e => absurd hup e) (fun e => absurd hup e) hothers ?_ hrow
        (by simp [RestOk, hop])
      intro id' v' m' e
      rw [hop] at e
      cases e
      exact ⟨by simp, h2⟩
    | updCache =>
      rw [ha] at hok
      refine h.write t _ id s.store _ (fun _ _ => rfl) (fun id' e => by rw [Dict.get?_set, if_neg e])
        (fun e => absurd hup e) (fun e => absurd hup e) (fun e => absurd hup e) hothers ?_ hrow
        (by simp [RestOk, hop])
      intro id' v' m' e
      rw [hop] at e
      cases e
      exact ⟨hok.1, by simp⟩
    | row => exact h
    | append => exact h
    | cache => exact h
    | limit => exact h
    | scan => exact h
    | read => exact h
    | fetch => exact h
    | put => exact h
    | info => exact h
    | del => exact h
    | delTest => exact h
    | delRemove => exact h
    | delPop => exact h
    | len => exact h
    | count => exact h
    | done => exact h

/-- **C208** (partial: no deletions, no two updates of one id, and every id that is updated is in the cache
before) Whenever no thread is in the middle of its call, the cache agrees with the storage, so a search
gives the distances of the vectors that are stored. -/
theorem C208_cache_partial (env : FlatEnv V D) (ops : Nat → FOp V M) (s0 : FConc V M D)
    (h0 : UStart ops s0) (sched : List Nat) :
    let s := s0.run env ops sched
    (∀ t, s.thr t = .start ∨ ∃ r, s.thr t = .done r) →
    ∀ id v, s.cache.get? id = some v → ∃ m, s.store.get? id = some (v, m) := by
  intro s hd
  have h : UInv ops s0 s := by
    show UInv ops s0 (s0.run env ops sched)
    clear hd s
    induction sched using List.reverseRecOn with
    | nil =>
      refine ⟨fun id x _ h => .inl h, fun id v _ hv => h0.start.coh id v hv, fun t id v m hop => ?_, fun t => ?_⟩
      · simp only [FConc.run, List.foldl_nil, h0.start.thr]
        exact ⟨rfl, rfl⟩
      · unfold RestOk
        simp only [FConc.run, List.foldl_nil, h0.start.thr]
        cases ops t <;> trivial
    | append_singleton sched t ih =>
      rw [run_snoc]
      exact uinv_step h0 ih t
  intro id v hv
  by_cases hu : Updated ops id
  · obtain ⟨t, w, m, hop⟩ := hu
    have := h.upd t id w m hop
    rcases hd t with e | ⟨r, e⟩
    · rw [e] at this
      rw [this.2] at hv
      rw [this.1]
      exact h0.start.coh id v hv
    · rw [e] at this
      rw [this.2] at hv
      obtain rfl := Option.some.inj hv
      exact ⟨m, this.1⟩
  · exact h.coh id v hu hv

/-- Threads 0 and 2 update, thread 1 searches. -/
def updatesAndSearch (a b : Id) : Nat → FOp Nat Nat
  | 0 => .update a 50 (some 5)
  | 1 => .search 21 1
  | 2 => .update b 70 (some 7)
  | _ => .insert []

/-- One vector that is not in the cache, as after opening an existing database. -/
def conc1cold : FConc Nat Nat Nat := ⟨[("a", (10, none))], ["a"], [], 1, fun _ => .start⟩

theorem updatesAndSearch_start : UStart (updatesAndSearch "a" "b") conc3 := by
  have hrows : ∀ t, rowsOf (updatesAndSearch "a" "b") t = [] := by
    intro t; rcases t with _ | _ | _ | t <;> simp [rowsOf, updatesAndSearch]
  refine ⟨⟨fun _ => rfl, ⟨fun t => ?_, fun t t' h r hr => ?_, fun t r hr => ?_⟩, fun t r hr => ?_, ?_⟩, ?_, ?_, ?_⟩
  · rw [hrows]; simp
  · rw [hrows] at hr; simp at hr
  · rw [hrows] at hr; simp at hr
  · rw [hrows] at hr; simp at hr
  · intro id v hv
    by_cases ea : id = "a"
    · subst ea; simp [conc3, Dict.get?] at hv; subst hv; exact ⟨none, rfl⟩
    · by_cases eb : id = "b"
      · subst eb; simp [conc3, Dict.get?] at hv; subst hv; exact ⟨none, rfl⟩
      · by_cases ec : id = "c"
        · subst ec; simp [conc3, Dict.get?] at hv; subst hv; exact ⟨none, rfl⟩
        · simp [conc3, Dict.get?, Ne.symm ea, Ne.symm eb, Ne.symm ec] at hv
  · intro t dels
    rcases t with _ | _ | _ | t <;> simp [updatesAndSearch]
  · intro t t' id v v' m m' h h'
    rcases t with _ | _ | _ | t <;> rcases t' with _ | _ | _ | t' <;>
      simp [updatesAndSearch] at h h' <;> first | rfl | (obtain ⟨rfl, -⟩ := h; simp at h')
  · rintro id ⟨t, v, m, h⟩
    rcases t with _ | _ | _ | t <;> simp [updatesAndSearch] at h <;> obtain ⟨rfl, -⟩ := h <;> decide

/-- A run of the three threads to the end. -/
example : let s := conc3.run exFlat (updatesAndSearch "a" "b") ((List.replicate 12 [0, 1, 2]).flatten)
    (∀ t < 3, ∃ r ∈ ([.flag true, .hits [⟨"c", 9, none⟩], .hits [⟨"b", 1, some 7⟩]] : List (FRes Nat Nat)),
      s.thr t = .done r) ∧ s.cache = [("a", 50), ("b", 70), ("c", 30)] := by
  decide +kernel

/-- **C208 (refuted), two updates.** Two updates of the same vector report success; afterwards the storage
holds the one and the cache the other, and every later search gives the distance of the one with the
metadata of the other. -/
theorem C208_two_updates_refuted :
    let s := conc1.run exFlat (updatesAndSearch "a" "a") [0, 2, 2, 0]
    s.thr 0 = .done (.flag true) ∧ s.thr 2 = .done (.flag true) ∧
    s.store.get? "a" = some (70, some 7) ∧ s.cache.get? "a" = some 50 ∧
    alone exFlat s 70 1 = .hits [⟨"a", 20, some 7⟩] := by
  decide +kernel

/-- **C208 (refuted), a search.** A search that loads a vector into the cache can put the old vector there
after an update that reported success; every later search gives the distance of the old vector. -/
theorem C208_search_refuted :
    let s := conc1cold.run exFlat (updatesAndSearch "a" "z") ([1, 1, 1, 1] ++ [0, 0] ++ [1, 1, 1, 1])
    s.thr 0 = .done (.flag true) ∧ s.thr 1 = .done (.hits [⟨"a", 11, some 5⟩]) ∧
    s.store.get? "a" = some (50, some 5) ∧ s.cache.get? "a" = some 10 ∧
    alone exFlat s 50 1 = .hits [⟨"a", 40, some 5⟩] := by
  decide +kernel

/-- **C208 (refuted), a deletion.** In the same way a vector that was deleted can stay in the cache for
ever. -/
theorem C208_deletion_refuted :
    let s := conc1cold.run exFlat (searchBeside (.delete ["a"]) 1)
      ([1, 1, 1, 1] ++ List.replicate 8 0 ++ [1, 1, 1])
    s.thr 0 = .done (.flag true) ∧ s.thr 1 = .done .raised ∧ s.ids = [] ∧ s.store = [] ∧
    s.cache = [("a", 10)] := by
  decide +kernel

end Valori.Props
