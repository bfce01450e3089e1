import Verif.Model.IvfConc
import Verif.Lemmas.Ivf
import Verif.Lemmas.Index
import Verif.Props.ParInsert

/-!
# Threads inserting into and searching one IVF index: what always holds
-/

namespace Valori.IConc

open Valori Valori.Spec Valori.Props

variable {V M D : Type}

/-- Storage and centroids are only added to. -/
structure Grow (s s' : IConc V M D) : Prop where
  st : ∀ id x, s.base.store.get? id = some x → s'.base.store.get? id = some x
  ce : s.cents.isSome → s'.cents.isSome

theorem Grow.rfl' (s : IConc V M D) : Grow s s := ⟨fun _ _ h => h, fun h => h⟩

/-- An id with an entry in the storage. -/
def Kept (s : IConc V M D) (id : Id) : Prop := ∃ x, s.base.store.get? id = some x

theorem Kept.mono {s s' : IConc V M D} (g : Grow s s') {id : Id} : Kept s id → Kept s' id
  | ⟨x, h⟩ => ⟨x, g.st id x h⟩

/-- A candidate: stored, with the right distance. -/
def CandOk (dist : V → V → Except Err D) (q : V) (s : IConc V M D) (x : Id × D) : Prop :=
  ∃ v m, s.base.store.get? x.1 = some (v, m) ∧ dist q v = .ok x.2

theorem CandOk.mono {dist : V → V → Except Err D} {q : V} {s s' : IConc V M D} (g : Grow s s') {x : Id × D} :
    CandOk dist q s x → CandOk dist q s' x
  | ⟨v, m, h, hd⟩ => ⟨v, m, g.st _ _ h, hd⟩

/-- A result: stored, with the right distance and metadata. -/
def HitOk (dist : V → V → Except Err D) (q : V) (s : IConc V M D) (x : Hit D M) : Prop :=
  ∃ v, s.base.store.get? x.id = some (v, x.md) ∧ dist q v = .ok x.dist

theorem HitOk.mono {dist : V → V → Except Err D} {q : V} {s s' : IConc V M D} (g : Grow s s') {x : Hit D M} :
    HitOk dist q s x → HitOk dist q s' x
  | ⟨v, h, hd⟩ => ⟨v, g.st _ _ h, hd⟩

/-- The first part of an insertion. -/
structure ThrOk (rows : List (FRow V M)) (s : IConc V M D) (p : Nat × FPc) : Prop where
  st : ∀ j r, rows[j]? = some r → j < stored p → s.base.store.get? r.id = some (r.v, r.m)
  fin : p.2 = .returned ∨ p.2 = .len ∨ (∃ n, p.2 = .count n) → rows.length ≤ p.1

theorem ThrOk.mono {rows : List (FRow V M)} {s s' : IConc V M D} (g : Grow s s') {p : Nat × FPc}
    (h : ThrOk rows s p) : ThrOk rows s' p :=
  ⟨fun j r h1 h2 => g.st _ _ (h.st j r h1 h2), h.fin⟩

/-- The second part of an insertion. -/
def PhOk (s : IConc V M D) : IPh V → Prop
  | .load _ got => ∀ x ∈ got, Kept s x.1
  | .setCents _ todo => ∀ x ∈ todo, Kept s x.1
  | .clear todo => s.cents.isSome ∧ ∀ x ∈ todo, Kept s x.1
  | .has todo => s.cents.isSome ∧ ∀ x ∈ todo, Kept s x.1
  | .new todo => s.cents.isSome ∧ ∀ x ∈ todo, Kept s x.1
  | .push todo => s.cents.isSome ∧ ∀ x ∈ todo, Kept s x.1
  | .setTrained => s.cents.isSome
  | _ => True

theorem PhOk.mono {s s' : IConc V M D} (g : Grow s s') {p : IPh V} (h : PhOk s p) : PhOk s' p := by
  cases p <;> simp only [PhOk] at h ⊢ <;> first
    | exact fun x hx => (h x hx).mono g
    | exact ⟨g.ce h.1, fun x hx => (h.2 x hx).mono g⟩
    | exact g.ce h

variable [LinearOrder D]

/-- A search. -/
def SrOk (dist : V → V → Except Err D) (q : V) (k : Int) (s : IConc V M D) : ISr V M D → Prop
  | .start => True
  | .test => True
  | .cents => s.cents.isSome
  | .probe _ got => ∀ x ∈ got, CandOk dist q s x
  | .take _ _ got => ∀ x ∈ got, CandOk dist q s x
  | .walk _ _ got => ∀ x ∈ got, CandOk dist q s x
  | .fetch _ _ got _ => ∀ x ∈ got, CandOk dist q s x
  | .put _ _ got id v => (∀ x ∈ got, CandOk dist q s x) ∧ ∃ m, s.base.store.get? id = some (v, m)
  | .info todo acc => (∀ x ∈ todo, CandOk dist q s x) ∧ (∀ x ∈ acc, HitOk dist q s x) ∧
      (acc.map (fun x => x.dist) ++ todo.map Prod.snd).Pairwise (· ≤ ·) ∧
      (0 ≤ k → acc.length + todo.length ≤ k.toNat)
  | .done (.hits acc) => (∀ x ∈ acc, HitOk dist q s x) ∧ (acc.map (fun x => x.dist)).Pairwise (· ≤ ·) ∧
      (0 ≤ k → acc.length ≤ k.toNat)
  | .done .raised => True
  | .done _ => False

theorem SrOk.mono {dist : V → V → Except Err D} {q : V} {k : Int} {s s' : IConc V M D} (g : Grow s s')
    {p : ISr V M D} (h : SrOk dist q k s p) : SrOk dist q k s' p := by
  cases p with
  | done r =>
    cases r <;> simp only [SrOk] at h ⊢
    exact ⟨fun x hx => (h.1 x hx).mono g, h.2⟩
  | _ =>
    simp only [SrOk] at h ⊢ <;> first
      | exact fun x hx => (h x hx).mono g
      | exact g.ce h
      | exact ⟨fun x hx => (h.1 x hx).mono g, h.2.imp fun m hm => g.st _ _ hm⟩
      | exact ⟨fun x hx => (h.1 x hx).mono g, fun x hx => (h.2.1 x hx).mono g, h.2.2⟩

/-- The index and the storage. -/
structure Glob (ops : Nat → HOp V M) (s0 s : IConc V M D) : Prop where
  keep : ∀ id x, s0.base.store.get? id = some x → s.base.store.get? id = some x
  orig : ∀ id x, s.base.store.get? id = some x → s0.base.store.get? id = some x ∨
    ∃ t r, r ∈ rowsOf ops t ∧ r.id = id ∧ x = (r.v, r.m)
  cache : ∀ id v, s.base.cache.get? id = some v → ∃ m, s.base.store.get? id = some (v, m)
  ids : ∀ id ∈ s.base.ids, Kept s id
  lists : ∀ l ∈ s.lists, ∀ id ∈ l, Kept s id
  cents : s.trained = true → s.cents.isSome

/-- The invariant. -/
structure SInv (env : IConcEnv V D) (ops : Nat → HOp V M) (s0 s : IConc V M D) : Prop where
  glob : Glob ops s0 s
  thr : ∀ t rows, ops t = .insert rows → ThrOk rows s (s.base.thr t)
  ph : ∀ t, PhOk s (s.ph t)
  sr : ∀ t q k, ops t = .search q k → SrOk env.dist q k s (s.sr t)

omit [LinearOrder D] in
theorem kept_modify {s : IConc V M D} {ls : List (List Id)} (h : ∀ l ∈ ls, ∀ id ∈ l, Kept s id) (r : Nat) {id : Id}
    (hid : Kept s id) : ∀ l ∈ ls.modify r (· ++ [id]), ∀ x ∈ l, Kept s x := by
  intro l hl x hx
  obtain ⟨i, hi⟩ := List.getElem?_of_mem hl
  rw [List.getElem?_modify] at hi
  cases hi' : ls[i]? with
  | none => rw [hi'] at hi; cases hi
  | some l' =>
    rw [hi'] at hi
    simp only [Option.map_eq_map, Option.map_some, Option.some.injEq] at hi
    have hm := h l' (List.mem_of_getElem? hi')
    split at hi
    · subst hi
      rcases List.mem_append.1 hx with h1 | h1
      · exact hm x h1
      · rw [List.mem_singleton.1 h1]; exact hid
    · subst hi; exact hm x hx

omit [LinearOrder D] in
theorem kept_new {s : IConc V M D} {ls : List (List Id)} (h : ∀ l ∈ ls, ∀ id ∈ l, Kept s id) :
    ∀ l ∈ ls ++ [[]], ∀ x ∈ l, Kept s x := by
  intro l hl x hx
  rcases List.mem_append.1 hl with h1 | h1
  · exact h l h1 x hx
  · rw [List.mem_singleton.1 h1] at hx; cases hx

/-- A step that changes neither the storage nor the ids. -/
theorem SInv.move {env : IConcEnv V D} {ops : Nat → HOp V M} {s0 s s' : IConc V M D} (h : SInv env ops s0 s)
    (hst : s'.base.store = s.base.store) (hids : s'.base.ids = s.base.ids) (hthr : s'.base.thr = s.base.thr)
    (hca : ∀ id v, s'.base.cache.get? id = some v → ∃ m, s.base.store.get? id = some (v, m))
    (hl : ∀ l ∈ s'.lists, ∀ id ∈ l, Kept s id) (hce : s.cents.isSome → s'.cents.isSome)
    (htr : s'.trained = true → s'.cents.isSome)
    (hph : ∀ t, s'.ph t = s.ph t ∨ PhOk s' (s'.ph t))
    (hsr : ∀ t q k, ops t = .search q k → s'.sr t = s.sr t ∨ SrOk env.dist q k s' (s'.sr t)) :
    SInv env ops s0 s' := by
  have g : Grow s s' := ⟨fun id x hx => by rw [hst]; exact hx, hce⟩
  refine ⟨⟨?_, ?_, ?_, ?_, ?_, htr⟩, ?_, ?_, ?_⟩
  · rw [hst]; exact h.glob.keep
  · rw [hst]; exact h.glob.orig
  · rw [hst]; exact hca
  · rw [hids]; exact fun id hid => (h.glob.ids id hid).mono g
  · exact fun l hl' id hid => (hl l hl' id hid).mono g
  · intro t rows ho; rw [hthr]; exact (h.thr t rows ho).mono g
  · intro t
    rcases hph t with e | e
    · rw [e]; exact (h.ph t).mono g
    · exact e
  · intro t q k ho
    rcases hsr t q k ho with e | e
    · rw [e]; exact (h.sr t q k ho).mono g
    · exact e

omit [LinearOrder D] in
theorem upd_or {α : Type} {P : α → Prop} (f : Nat → α) (t : Nat) (a : α) (h : P a) (t' : Nat) :
    Function.update f t a t' = f t' ∨ P (Function.update f t a t') := by
  by_cases ht : t' = t
  · subst ht; right; rw [Function.update_self]; exact h
  · left; rw [Function.update_of_ne ht]

/-- A step of the second part of an insertion. -/
theorem sinv_phase {env : IConcEnv V D} {ops : Nat → HOp V M} {s0 s : IConc V M D} (h : SInv env ops s0 s)
    (t : Nat) (rows : List (FRow V M)) (ho : ops t = .insert rows) (hb : (s.base.thr t).2 = .returned) :
    SInv env ops s0 (s.phase env rows t) := by
  have hok := h.ph t
  have g := h.glob
  have hrow : ∀ (j : Nat) (r : FRow V M), rows[j]? = some r → Kept s r.id := by
    intro j r hr
    have ht := h.thr t rows ho
    refine ⟨_, ht.st j r hr ?_⟩
    have h1 := ht.fin (.inl hb)
    have h2 : j < rows.length := (List.getElem?_eq_some_iff.1 hr).1
    rcases hp : s.base.thr t with ⟨i, pc⟩
    rw [hp] at hb h1
    simp only at hb h1
    subst hb
    simp only [stored]
    omega
  have mv : ∀ p : IPh V, PhOk s p → SInv env ops s0 { s with ph := Function.update s.ph t p } := by
    intro p hp
    exact h.move rfl rfl rfl g.cache g.lists (fun x => x) g.cents (upd_or s.ph t p hp) (fun _ _ _ _ => .inl rfl)
  unfold phase
  simp only
  cases hp : s.ph t with
  | testLen => simp only; split <;> exact mv _ trivial
  | testTrained => simp only; split <;> [exact mv _ trivial; exact mv _ (by simp [PhOk])]
  | testAdd => simp only; split <;> exact mv _ trivial
  | load i got =>
    rw [hp] at hok
    simp only
    cases hi : s.base.ids[i]? with
    | none =>
      simp only
      split
      · exact mv _ trivial
      · refine mv _ ?_
        intro x hx
        obtain ⟨y, hy, e⟩ := List.mem_map.1 (List.of_mem_zip (a := x.1) (b := x.2) hx).1
        rw [← e]; exact hok y hy
    | some id =>
      simp only
      cases hc : s.base.cache.get? id with
      | some v =>
        refine mv _ ?_
        intro x hx
        rcases List.mem_append.1 hx with h1 | h1
        · exact hok x h1
        · rw [List.mem_singleton.1 h1]; exact g.ids id (List.mem_of_getElem? hi)
      | none =>
        simp only
        cases hs : s.base.store.get? id with
        | none => exact mv _ hok
        | some x =>
          obtain ⟨v, m⟩ := x
          refine h.move rfl rfl rfl ?_ g.lists (fun x => x) g.cents (upd_or s.ph t _ ?_) (fun _ _ _ _ => .inl rfl)
          · intro id' v' h'
            simp only [Dict.get?_set] at h'
            split at h'
            · rename_i e; subst e; cases h'; exact ⟨m, hs⟩
            · exact g.cache id' v' h'
          · intro x hx
            rcases List.mem_append.1 hx with h1 | h1
            · exact hok x h1
            · rw [List.mem_singleton.1 h1]; exact ⟨_, hs⟩
  | setCents c todo =>
    rw [hp] at hok
    exact h.move rfl rfl rfl g.cache g.lists (fun _ => rfl) (fun _ => rfl)
      (upd_or s.ph t _ ⟨rfl, fun x hx => hok x hx⟩) (fun _ _ _ _ => .inl rfl)
  | clear todo =>
    rw [hp] at hok
    exact h.move rfl rfl rfl g.cache g.lists (fun x => x) g.cents (upd_or s.ph t _ hok) (fun _ _ _ _ => .inl rfl)
  | has todo =>
    rw [hp] at hok
    cases todo with
    | nil => exact mv _ hok.1
    | cons x todo =>
      obtain ⟨id, k⟩ := x
      simp only
      split <;> exact mv _ hok
  | new todo =>
    rw [hp] at hok
    cases todo with
    | nil => exact h
    | cons x todo =>
      obtain ⟨id, k⟩ := x
      exact h.move rfl rfl rfl g.cache (kept_new g.lists) (fun x => x) g.cents (upd_or s.ph t _ hok)
        (fun _ _ _ _ => .inl rfl)
  | push todo =>
    rw [hp] at hok
    cases todo with
    | nil => exact h
    | cons x todo =>
      obtain ⟨id, k⟩ := x
      simp only
      cases hc : s.clusters.get? k with
      | none => exact mv _ trivial
      | some r =>
        exact h.move rfl rfl rfl g.cache (kept_modify g.lists r (hok.2 (id, k) List.mem_cons_self)) (fun x => x)
          g.cents (upd_or s.ph t _ ⟨hok.1, fun x hx => hok.2 x (List.mem_cons_of_mem _ hx)⟩)
          (fun _ _ _ _ => .inl rfl)
  | setTrained =>
    rw [hp] at hok
    exact h.move rfl rfl rfl g.cache g.lists (fun x => x) (fun _ => hok) (upd_or s.ph t _ trivial)
      (fun _ _ _ _ => .inl rfl)
  | choose j =>
    simp only
    cases hr : rows[j]? with
    | none => exact mv _ trivial
    | some r =>
      simp only
      cases hc : s.base.cache.get? r.id with
      | none => exact mv _ trivial
      | some v =>
        simp only
        split <;> exact mv _ trivial
  | addHas j k => simp only; split <;> exact mv _ trivial
  | addNew j k =>
    exact h.move rfl rfl rfl g.cache (kept_new g.lists) (fun x => x) g.cents (upd_or s.ph t _ trivial)
      (fun _ _ _ _ => .inl rfl)
  | addPush j k =>
    simp only
    cases hr : rows[j]? with
    | none => exact h
    | some r =>
      cases hc : s.clusters.get? k with
      | none => exact mv _ trivial
      | some o =>
        exact h.move rfl rfl rfl g.cache (kept_modify g.lists o (hrow j r hr)) (fun x => x) g.cents
          (upd_or s.ph t _ trivial) (fun _ _ _ _ => .inl rfl)
  | returned => exact h
  | raised => exact h

/-- A step of the first part of an insertion. -/
theorem sinv_base {env : IConcEnv V D} {ops : Nat → HOp V M} {s0 s : IConc V M D}
    (hf : FreshRows (rowsOf ops) s0.base.store.keys) (h : SInv env ops s0 s)
    (t : Nat) (rows : List (FRow V M)) (ho : ops t = .insert rows) :
    SInv env ops s0 { s with base := s.base.step (rowsOf ops) t } := by
  have g := h.glob
  have hrows : rowsOf ops t = rows := by simp only [rowsOf, ho]
  have hthr := h.thr t rows ho
  rcases hpc : s.base.thr t with ⟨i, pc⟩
  rw [hpc] at hthr
  -- all steps but the storage call
  have mv : ∀ b : FPar V M, b.store = s.base.store → (∀ id ∈ b.ids, Kept s id) →
      (∀ id v, b.cache.get? id = some v → ∃ m, s.base.store.get? id = some (v, m)) →
      (∀ t', b.thr t' = s.base.thr t' ∨ t' = t ∧ ThrOk rows s (b.thr t)) →
      SInv env ops s0 { s with base := b } := by
    intro b hst hids hca hth
    have gr : Grow s { s with base := b } := ⟨fun id x hx => by simp only [hst]; exact hx, fun x => x⟩
    refine ⟨⟨?_, ?_, ?_, fun id hid => (hids id hid).mono gr, fun l hl id hid => (g.lists l hl id hid).mono gr,
      g.cents⟩, ?_, fun t' => (h.ph t').mono gr, fun t' q k ho => (h.sr t' q k ho).mono gr⟩
    · simp only [hst]; exact g.keep
    · simp only [hst]; exact g.orig
    · simp only [hst]; exact hca
    · intro t' rows' ho'
      rcases hth t' with e | ⟨rfl, e⟩
      · simp only [e]; exact (h.thr t' rows' ho').mono gr
      · rw [ho] at ho'; cases ho'
        exact e.mono gr
  have upd : ∀ p, ThrOk rows s p → ∀ t', Function.update s.base.thr t p t' = s.base.thr t' ∨
      t' = t ∧ ThrOk rows s (Function.update s.base.thr t p t) := by
    intro p hp t'
    by_cases ht : t' = t
    · right; refine ⟨ht, ?_⟩; rw [Function.update_self]; exact hp
    · left; rw [Function.update_of_ne ht]
  unfold FPar.step
  simp only [hpc, hrows]
  cases pc with
  | store =>
    simp only
    cases hr : rows[i]? with
    | none =>
      exact mv _ rfl g.ids g.cache (upd _ ⟨hthr.st, fun _ => List.getElem?_eq_none_iff.1 hr⟩)
    | some r =>
      simp only
      have hr' : (rowsOf ops t)[i]? = some r := by rw [hrows]; exact hr
      have gr : Grow s { s with base := { s.base with store := s.base.store.set r.id (r.v, r.m)
                                                      thr := Function.update s.base.thr t (i, .append) } } := by
        refine ⟨fun id x hx => ?_, fun x => x⟩
        simp only [Dict.get?_set]
        split
        · rename_i e
          subst e
          rcases g.orig _ _ hx with h1 | ⟨t', r', h1, h2, h3⟩
          · exact absurd ((Dict.mem_keys _ _).2 (by rw [h1]; rfl)) (hf.new t r (List.mem_of_getElem? hr'))
          · obtain ⟨j, hj⟩ := List.getElem?_of_mem h1
            obtain ⟨rfl, rfl⟩ := hf.inj hj hr' h2
            rw [hr'] at hj; cases hj
            rw [h3]
        · exact hx
      refine ⟨⟨fun id x hx => gr.st _ _ (g.keep id x hx), ?_, ?_, fun id hid => (g.ids id hid).mono gr,
        fun l hl id hid => (g.lists l hl id hid).mono gr, g.cents⟩, ?_, fun t' => (h.ph t').mono gr,
        fun t' q k ho => (h.sr t' q k ho).mono gr⟩
      · intro id x hx
        simp only [Dict.get?_set] at hx
        split at hx
        · rename_i e; cases hx
          exact .inr ⟨t, r, List.mem_of_getElem? hr', e.symm, rfl⟩
        · exact g.orig id x hx
      · intro id v hv
        obtain ⟨m, hm⟩ := g.cache id v hv
        exact ⟨m, gr.st _ _ hm⟩
      · intro t' rows' ho'
        by_cases ht : t' = t
        · subst ht
          rw [ho] at ho'; cases ho'
          simp only [Function.update_self]
          refine ⟨fun j r' h1 h2 => ?_, by simp⟩
          by_cases hj : j = i
          · subst hj; rw [hr] at h1; cases h1; simp
          · exact gr.st _ _ (hthr.st j r' h1 (by simp only [stored] at h2 ⊢; omega))
        · simp only [Function.update_of_ne ht]; exact (h.thr t' rows' ho').mono gr
  | append =>
    simp only
    cases hr : rows[i]? with
    | none => exact h
    | some r =>
      refine mv _ rfl ?_ g.cache (upd _ ⟨fun j r' h1 h2 => hthr.st j r' h1 h2, by simp⟩)
      intro id hid
      rcases List.mem_append.1 hid with h1 | h1
      · exact g.ids id h1
      · rw [List.mem_singleton.1 h1]; exact ⟨_, hthr.st i r hr (by simp [stored])⟩
  | cache =>
    simp only
    cases hr : rows[i]? with
    | none => exact h
    | some r =>
      refine mv _ rfl g.ids ?_ (upd _ ⟨fun j r' h1 h2 => hthr.st j r' h1 h2, by simp⟩)
      intro id v hv
      simp only [Dict.get?_set] at hv
      split at hv
      · rename_i e; subst e; cases hv
        exact ⟨_, hthr.st i r hr (by simp [stored])⟩
      · exact g.cache id v hv
  | len => exact mv _ rfl g.ids g.cache (upd _ ⟨hthr.st, fun _ => hthr.fin (by simp)⟩)
  | count n => exact mv _ rfl g.ids g.cache (upd _ ⟨hthr.st, fun _ => hthr.fin (by simp)⟩)
  | returned => exact h

theorem slice_ok {dist : V → V → Except Err D} {q : V} {k : Int} {s : IConc V M D}
    {got : List (Id × D)} (h : ∀ x ∈ got, CandOk dist q s x) :
    SrOk dist q k s (.info (sliceTo (pySortBy Prod.snd got) k) []) := by
  refine ⟨fun x hx => h x ?_, by simp, ?_, ?_⟩
  · exact (pySortBy_perm _ _).mem_iff.1 ((sliceTo_sublist _ _).subset hx)
  · simp only [List.map_nil, List.nil_append, List.pairwise_map]
    exact (pySortBy_sorted _ _).sublist (sliceTo_sublist _ _)
  · intro hk; rw [sliceTo_nonneg _ hk]; simp

/-- A step of a search: it keeps the invariant, adds to the cache only what is stored, and comes to raise only
at a cluster that is no longer there or at an undefined distance. -/
theorem search_ok {env : IConcEnv V D} {ops : Nat → HOp V M} {s0 s : IConc V M D} (g : Glob ops s0 s) {q : V} {k : Int}
    {p : ISr V M D} (h : SrOk env.dist q k s p) :
    SrOk env.dist q k s (s.search env q k p).1 ∧
    (∀ id v, (s.search env q k p).2 = some (id, v) → ∃ m, s.base.store.get? id = some (v, m)) ∧
    (p ≠ .done .raised → (s.search env q k p).1 = .done .raised →
      (∃ c todo got, p = .take c todo got ∧ s.clusters.get? c = none) ∨
      (∃ v e, env.dist q v = .error e)) := by
  have hnd : ∀ (i : Nat) (cs : List V) (e : Err), numberedDists (env.dist q) i cs = .error e →
      ∃ v e, env.dist q v = .error e := by
    intro i cs
    induction cs generalizing i with
    | nil => intro e h; cases h
    | cons c cs ih =>
      intro e h
      unfold numberedDists at h
      split at h
      · rename_i e' he; exact ⟨c, e', he⟩
      · split at h
        · rename_i e' he; exact ih _ _ he
        · cases h
  cases p with
  | start =>
    simp only [search]
    by_cases he : s.base.ids.isEmpty
    · simp only [he, if_true]; exact ⟨by simp [SrOk], by simp, by simp⟩
    · simp only [he]; exact ⟨by simp [SrOk], by simp, by simp⟩
  | test =>
    simp only [search]
    by_cases he : s.trained
    · simp only [he, if_true]; exact ⟨g.cents he, by simp, by simp⟩
    · simp only [he]; exact ⟨by simp [SrOk], by simp, by simp⟩
  | cents =>
    simp only [search]
    cases hc : s.cents with
    | none => simp only [SrOk, hc] at h; cases h
    | some cs =>
      simp only
      unfold probesOf
      cases hn : numberedDists (env.dist q) 0 cs with
      | error e => exact ⟨by simp [SrOk], by simp, fun _ _ => .inr (hnd _ _ _ hn)⟩
      | ok ds => exact ⟨by simp [SrOk], by simp, by simp⟩
  | probe todo got =>
    cases todo with
    | nil => exact ⟨slice_ok h, by simp [search], by simp [search]⟩
    | cons c todo =>
      simp only [search]
      by_cases he : s.clusters.mem c
      · simp only [he, if_true]; exact ⟨h, by simp, by simp⟩
      · simp only [he]; exact ⟨h, by simp, by simp⟩
  | take c todo got =>
    simp only [search]
    cases hc : s.clusters.get? c with
    | none => exact ⟨by simp [SrOk], by simp, fun _ _ => .inl ⟨c, todo, got, rfl, hc⟩⟩
    | some r => exact ⟨h, by simp, by simp⟩
  | walk src i got =>
    simp only [search]
    cases hi : (s.source src)[i]? with
    | none =>
      cases src with
      | all => exact ⟨slice_ok h, by simp, by simp [afterLoop]⟩
      | list r todo => exact ⟨h, by simp, by simp [afterLoop]⟩
    | some id =>
      simp only
      cases hc : s.base.cache.get? id with
      | none => exact ⟨h, by simp, by simp⟩
      | some v =>
        simp only
        cases hd : env.dist q v with
        | error e => exact ⟨by simp [SrOk], by simp, fun _ _ => .inr ⟨v, e, hd⟩⟩
        | ok d =>
          refine ⟨fun x hx => ?_, by simp, by simp⟩
          rcases List.mem_append.1 hx with h1 | h1
          · exact h x h1
          · rw [List.mem_singleton.1 h1]
            obtain ⟨m, hm⟩ := g.cache id v hc
            exact ⟨v, m, hm, hd⟩
  | fetch src i got id =>
    simp only [search]
    cases hs : s.base.store.get? id with
    | none => exact ⟨h, by simp, by simp⟩
    | some x => exact ⟨⟨h, x.2, hs⟩, by simp, by simp⟩
  | put src i got id v =>
    simp only [search]
    obtain ⟨h1, m, hm⟩ := h
    cases hd : env.dist q v with
    | error e => exact ⟨by simp [SrOk], by simp; exact ⟨m, hm⟩, fun _ _ => .inr ⟨v, e, hd⟩⟩
    | ok d =>
      refine ⟨fun x hx => ?_, by simp; exact ⟨m, hm⟩, by simp⟩
      rcases List.mem_append.1 hx with h2 | h2
      · exact h1 x h2
      · rw [List.mem_singleton.1 h2]
        exact ⟨v, m, hm, hd⟩
  | info todo acc =>
    obtain ⟨h1, h2, h3, h4⟩ := h
    cases todo with
    | nil =>
      simp only [search]
      refine ⟨⟨h2, by simpa using h3, by simpa using h4⟩, by simp, by simp⟩
    | cons x todo =>
      obtain ⟨id, d⟩ := x
      simp only [search]
      obtain ⟨v, m, hm, hd⟩ := h1 _ List.mem_cons_self
      simp only at hm hd
      simp only [hm]
      refine ⟨⟨fun x hx => h1 x (List.mem_cons_of_mem _ hx), ?_, by simpa using h3, ?_⟩, by simp, by simp⟩
      · intro x hx
        rcases List.mem_append.1 hx with h5 | h5
        · exact h2 x h5
        · rw [List.mem_singleton.1 h5]; exact ⟨v, hm, hd⟩
      · intro hk; have := h4 hk; simp only [List.length_append, List.length_cons, List.length_nil] at this ⊢; omega
  | done r => exact ⟨h, by simp [search], fun h1 h2 => absurd h2 h1⟩

theorem sinv_step {env : IConcEnv V D} {ops : Nat → HOp V M} {s0 s : IConc V M D}
    (hf : FreshRows (rowsOf ops) s0.base.store.keys) (h : SInv env ops s0 s) (t : Nat) :
    SInv env ops s0 (s.step env ops t) := by
  unfold step
  cases ho : ops t with
  | insert rows =>
    simp only
    split
    · rename_i hb; exact sinv_phase h t rows ho hb
    · exact sinv_base hf h t rows ho
  | search q k =>
    simp only
    have hg := h.glob
    obtain ⟨h1, h2, -⟩ := search_ok hg (h.sr t q k ho)
    cases hr : (s.search env q k (s.sr t)).2 with
    | none =>
      refine h.move rfl rfl rfl hg.cache hg.lists (fun x => x) hg.cents (fun _ => .inl rfl) ?_
      intro t' q' k' ho'
      by_cases ht : t' = t
      · subst ht; rw [ho] at ho'; cases ho'
        right; simp only [Function.update_self]; exact h1.mono ⟨fun _ _ h => h, fun h => h⟩
      · left; simp only [Function.update_of_ne ht]
    | some x =>
      obtain ⟨id, v⟩ := x
      refine h.move rfl rfl rfl ?_ hg.lists (fun x => x) hg.cents (fun _ => .inl rfl) ?_
      · intro id' v' h'
        simp only [Dict.get?_set] at h'
        split at h'
        · rename_i e; subst e; cases h'; exact h2 _ _ hr
        · exact hg.cache id' v' h'
      · intro t' q' k' ho'
        by_cases ht : t' = t
        · subst ht; rw [ho] at ho'; cases ho'
          right; simp only [Function.update_self]; exact h1.mono ⟨fun _ _ h => h, fun h => h⟩
        · left; simp only [Function.update_of_ne ht]

theorem sinv_run {env : IConcEnv V D} {ops : Nat → HOp V M} {s0 : IConc V M D}
    (hf : FreshRows (rowsOf ops) s0.base.store.keys) (sched : List Nat) :
    ∀ s, SInv env ops s0 s → SInv env ops s0 (run env ops s sched) := by
  unfold run
  induction sched with
  | nil => exact fun s h => h
  | cons t ts ih => exact fun s h => ih _ (sinv_step hf h t)

end Valori.IConc
