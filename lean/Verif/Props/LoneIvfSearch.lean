import Verif.Props.IvfConc
import Verif.Props.LoneIvf

/-!
# C206, C213: searching threads and the other models of an IVF index
-/

namespace Valori.Props

open Valori Spec

variable {V M D : Type}

/-! ## The lists as values -/

/-- The index without searching threads, with the content of the lists in place of the lists. -/
def plainIvf (s : IConc V M D) : IPar V M :=
  ⟨s.base, s.cents, s.clusters.map fun e => (e.1, (s.lists[e.2]?).getD []), s.trained, s.ph⟩

/-- Every key once, every cluster with a list of its own. -/
structure OwnLists (s : IConc V M D) : Prop where
  keys : s.clusters.keys.Nodup
  inj : ∀ k k' r, (k, r) ∈ s.clusters → (k', r) ∈ s.clusters → k = k'
  valid : ∀ k r, (k, r) ∈ s.clusters → r < s.lists.length

theorem map_get? {α β : Type} (f : α → β) (d : Dict Nat α) (k : Nat) :
    Dict.get? (d.map fun e => (e.1, f e.2)) k = (d.get? k).map f := by
  induction d with
  | nil => rfl
  | cons e d ih =>
    obtain ⟨x, y⟩ := e
    simp only [List.map_cons, Dict.get?]
    split
    · rfl
    · exact ih

theorem map_set {α β : Type} (f : α → β) (d : Dict Nat α) (k : Nat) (a : α) :
    (d.set k a).map (fun e => (e.1, f e.2)) = Dict.set (d.map fun e => (e.1, f e.2)) k (f a) := by
  induction d with
  | nil => rfl
  | cons e d ih =>
    obtain ⟨x, y⟩ := e
    simp only [List.map_cons, Dict.set]
    split
    · rfl
    · simp only [List.map_cons]; rw [ih]

theorem map_push (ls : List (List Id)) (id : Id) {r : Nat} (hr : r < ls.length) : ∀ (d : Dict Nat Nat) (k : Nat),
    d.keys.Nodup → (∀ k k' r, (k, r) ∈ d → (k', r) ∈ d → k = k') → d.get? k = some r →
    d.map (fun e => (e.1, ((ls.modify r (· ++ [id]))[e.2]?).getD [])) =
      Dict.set (d.map fun e => (e.1, (ls[e.2]?).getD [])) k ((ls[r]?).getD [] ++ [id])
  | [], k, _, _, h => by cases h
  | (x, y) :: d, k, hn, hi, h => by
    have hother : ∀ z, z ≠ r → ((ls.modify r (· ++ [id]))[z]?).getD [] = (ls[z]?).getD [] := by
      intro z hz
      rw [List.getElem?_modify]
      simp [Ne.symm hz]
    simp only [Dict.keys, List.map_cons, List.nodup_cons] at hn
    simp only [List.map_cons, Dict.get?, Dict.set] at h ⊢
    by_cases hx : x = k
    · rw [if_pos hx] at h ⊢
      cases h
      rw [List.getElem?_modify, List.getElem?_eq_getElem hr]
      subst hx
      simp only [if_true, Option.map_eq_map, Option.map_some, Option.getD_some, List.cons.injEq, true_and]
      refine List.map_congr_left fun e he => ?_
      have hne : e.2 ≠ r := by
        intro hc
        have h1 : (e.1, r) ∈ (x, r) :: d := by rw [← hc]; exact List.mem_cons_of_mem _ he
        have := hi e.1 x r h1 List.mem_cons_self
        exact hn.1 (by rw [← this]; exact List.mem_map_of_mem he)
      rw [hother _ hne]
    · rw [if_neg hx] at h ⊢
      have hne : y ≠ r := by
        rintro rfl
        exact hx (hi x k y List.mem_cons_self (List.mem_cons_of_mem _ (Dict.mem_of_get? h)))
      rw [hother _ hne, map_push ls id hr d k hn.2
        (fun a b c h1 h2 => hi a b c (List.mem_cons_of_mem _ h1) (List.mem_cons_of_mem _ h2)) h]

theorem mem_set {d : Dict Nat Nat} {k a : Nat} {e : Nat × Nat} (h : e ∈ d.set k a) : e = (k, a) ∨ e ∈ d := by
  induction d with
  | nil => exact .inl (by simpa [Dict.set] using h)
  | cons x d ih =>
    obtain ⟨x, y⟩ := x
    simp only [Dict.set] at h
    split at h
    · rename_i hx
      rcases List.mem_cons.1 h with h1 | h1
      · exact .inl (by rw [h1, hx])
      · exact .inr (List.mem_cons_of_mem _ h1)
    · rcases List.mem_cons.1 h with h1 | h1
      · exact .inr (by rw [h1]; exact List.mem_cons_self)
      · rcases ih h1 with h2 | h2
        · exact .inl h2
        · exact .inr (List.mem_cons_of_mem _ h2)

theorem OwnLists.same {s s' : IConc V M D} (h : OwnLists s) (hc : s'.clusters = s.clusters)
    (hl : s'.lists.length = s.lists.length) : OwnLists s' :=
  ⟨by rw [hc]; exact h.keys, by rw [hc]; exact h.inj, by rw [hc, hl]; exact h.valid⟩

theorem OwnLists.new {s s' : IConc V M D} (h : OwnLists s) {k : Nat}
    (hc : s'.clusters = s.clusters.set k s.lists.length) (hl : s'.lists = s.lists ++ [[]]) : OwnLists s' := by
  have hlen : s'.lists.length = s.lists.length + 1 := by rw [hl]; simp
  refine ⟨by rw [hc]; exact Dict.nodup_set h.keys _ _, ?_, ?_⟩
  · intro a b r ha hb
    rw [hc] at ha hb
    rcases mem_set ha with h1 | h1 <;> rcases mem_set hb with h2 | h2
    · simp only [Prod.mk.injEq] at h1 h2; rw [h1.1, h2.1]
    · simp only [Prod.mk.injEq] at h1
      have := h.valid _ _ h2; omega
    · simp only [Prod.mk.injEq] at h2
      have := h.valid _ _ h1; omega
    · exact h.inj _ _ _ h1 h2
  · intro a r ha
    rw [hc] at ha
    rw [hlen]
    rcases mem_set ha with h1 | h1
    · simp only [Prod.mk.injEq] at h1; omega
    · have := h.valid _ _ h1; omega

theorem OwnLists.empty {s : IConc V M D} (hc : s.clusters = []) : OwnLists s := by
  refine ⟨by rw [hc]; exact List.nodup_nil, ?_, ?_⟩
  · intro k k' r h
    rw [hc] at h
    exact absurd h List.not_mem_nil
  · intro k r h
    rw [hc] at h
    exact absurd h List.not_mem_nil

theorem plain_new {s : IConc V M D} (h : OwnLists s) (k : Nat) :
    (s.clusters.set k s.lists.length).map (fun e => (e.1, ((s.lists ++ [[]])[e.2]?).getD [])) =
      Dict.set (s.clusters.map fun e => (e.1, (s.lists[e.2]?).getD [])) k [] := by
  rw [map_set (fun r => ((s.lists ++ [[]])[r]?).getD [])]
  have : (((s.lists ++ [[]])[s.lists.length]?).getD [] : List Id) = [] := by simp
  rw [this]
  congr 1
  refine List.map_congr_left fun e he => ?_
  rw [List.getElem?_append_left (h.valid e.1 e.2 he)]

/-- A statement with lists as objects is the statement with lists as values. -/
theorem plain_phase (env : IConcEnv V D) (rows : Nat → List (FRow V M)) (s : IConc V M D) (t : Nat) (h : OwnLists s) :
    OwnLists (s.phase env (rows t) t) ∧
    plainIvf (s.phase env (rows t) t) = (plainIvf s).phase env.toIParEnv rows t := by
  have hmem : ∀ k, (plainIvf s).clusters.mem k = s.clusters.mem k := by
    intro k
    rw [Dict.mem_eq, Dict.mem_eq]
    simp only [plainIvf]
    rw [map_get? (fun r => (s.lists[r]?).getD [])]
    simp
  have hget : ∀ k, (plainIvf s).clusters.get? k = (s.clusters.get? k).map fun r => (s.lists[r]?).getD [] := by
    intro k
    simp only [plainIvf]
    exact map_get? (fun r => (s.lists[r]?).getD []) _ _
  have hpush : ∀ k r id, s.clusters.get? k = some r →
      s.clusters.map (fun e => (e.1, ((s.lists.modify r (· ++ [id]))[e.2]?).getD [])) =
      (plainIvf s).clusters.set k ((s.lists[r]?).getD [] ++ [id]) := fun k r id hk =>
    map_push s.lists id (h.valid k r (Dict.mem_of_get? hk)) s.clusters k h.keys h.inj hk
  have hph : (plainIvf s).ph = s.ph := rfl
  unfold IConc.phase IPar.phase
  simp only [hph]
  cases hp : s.ph t with
  | testLen => simp only; split <;> (rename_i hc; exact ⟨h.same rfl rfl, by simp [plainIvf, hc]⟩)
  | testTrained => simp only; split <;> (rename_i hc; exact ⟨h.same rfl rfl, by simp [plainIvf, hc]⟩)
  | testAdd => simp only; split <;> (rename_i hc; exact ⟨h.same rfl rfl, by simp [plainIvf, hc]⟩)
  | load i got =>
    simp only
    have e1 : (plainIvf s).base = s.base := rfl
    rw [e1]
    cases s.base.ids[i]? with
    | none =>
      simp only
      split <;> exact ⟨h.same rfl rfl, rfl⟩
    | some id =>
      simp only
      cases s.base.cache.get? id with
      | some v => exact ⟨h.same rfl rfl, rfl⟩
      | none =>
        simp only
        cases s.base.store.get? id with
        | none => exact ⟨h.same rfl rfl, rfl⟩
        | some x => exact ⟨h.same rfl rfl, rfl⟩
  | setCents c todo => exact ⟨h.same rfl rfl, rfl⟩
  | clear todo => exact ⟨.empty rfl, rfl⟩
  | has todo =>
    cases todo with
    | nil => exact ⟨h.same rfl rfl, rfl⟩
    | cons x todo =>
      simp only [hmem]
      split <;> exact ⟨h.same rfl rfl, rfl⟩
  | new todo =>
    cases todo with
    | nil => exact ⟨h, rfl⟩
    | cons x todo =>
      refine ⟨h.new rfl rfl, ?_⟩
      simp only [plainIvf]
      rw [plain_new h]
  | push todo =>
    cases todo with
    | nil => exact ⟨h, rfl⟩
    | cons x todo =>
      simp only [hget]
      cases hk : s.clusters.get? x.2 with
      | none => exact ⟨h.same rfl rfl, rfl⟩
      | some r =>
        refine ⟨h.same rfl (by simp), ?_⟩
        simp only [Option.map_some]
        rw [← hpush _ _ _ hk]
        rfl
  | setTrained => exact ⟨h.same rfl rfl, rfl⟩
  | choose j =>
    simp only
    have e1 : (plainIvf s).base = s.base := rfl
    have e2 : (plainIvf s).trained = s.trained := rfl
    have e3 : (plainIvf s).cents = s.cents := rfl
    rw [e1, e2, e3]
    cases (rows t)[j]? with
    | none => exact ⟨h.same rfl rfl, rfl⟩
    | some r =>
      simp only
      cases s.base.cache.get? r.id with
      | none => exact ⟨h.same rfl rfl, rfl⟩
      | some v =>
        simp only
        cases ht : s.trained with
        | false => exact ⟨h.same rfl rfl, by simp [plainIvf, ht]⟩
        | true =>
          cases hcs : s.cents with
          | none => exact ⟨h.same rfl rfl, by simp [plainIvf, ht, hcs]⟩
          | some c => exact ⟨h.same rfl rfl, by simp [plainIvf, ht, hcs]⟩
  | addHas j k =>
    simp only [hmem]
    split <;> exact ⟨h.same rfl rfl, rfl⟩
  | addNew j k =>
    refine ⟨h.new rfl rfl, ?_⟩
    simp only [plainIvf]
    rw [plain_new h]
  | addPush j k =>
    simp only [hget]
    cases (rows t)[j]? with
    | none => exact ⟨h, rfl⟩
    | some r =>
      cases hk : s.clusters.get? k with
      | none => exact ⟨h.same rfl rfl, rfl⟩
      | some o =>
        refine ⟨h.same rfl (by simp), ?_⟩
        simp only [Option.map_some]
        rw [← hpush _ _ _ hk]
        rfl
  | returned => exact ⟨h, rfl⟩
  | raised => exact ⟨h, rfl⟩

/-- Does the thread insert? -/
def insertsI (ops : Nat → HOp V M) (t : Nat) : Bool :=
  match ops t with
  | .insert _ => true
  | .search _ _ => false

section
variable [LinearOrder D]

theorem plain_step (env : IConcEnv V D) (ops : Nat → HOp V M) (s : IConc V M D) (t : Nat) (h : OwnLists s)
    (ht : insertsI ops t = true) :
    OwnLists (s.step env ops t) ∧
    plainIvf (s.step env ops t) = (plainIvf s).step env.toIParEnv (IConc.rowsOf ops) t := by
  cases ho : ops t with
  | search q k => simp [insertsI, ho] at ht
  | insert rows =>
    have hr : IConc.rowsOf ops t = rows := by simp only [IConc.rowsOf, ho]
    have e1 : (plainIvf s).base = s.base := rfl
    simp only [IConc.step, ho, IPar.step, e1]
    split
    · have := plain_phase env (IConc.rowsOf ops) s t h
      rw [hr] at this
      exact this
    · exact ⟨h.same rfl rfl, rfl⟩

theorem plain_run (env : IConcEnv V D) (ops : Nat → HOp V M) (sched : List Nat) :
    ∀ s : IConc V M D, OwnLists s → (∀ t ∈ sched, insertsI ops t = true) →
    plainIvf (s.run env ops sched) = (plainIvf s).run env.toIParEnv (IConc.rowsOf ops) sched := by
  induction sched with
  | nil => intro s _ _; rfl
  | cons t sched ih =>
    intro s h hs
    obtain ⟨h1, h2⟩ := plain_step env ops s t h (hs t List.mem_cons_self)
    have h3 := ih _ h1 fun t' ht' => hs t' (List.mem_cons_of_mem _ ht')
    simp only [IConc.run, IPar.run, List.foldl_cons] at h3 ⊢
    rw [h3, h2]

theorem plain_sr (env : IConcEnv V D) (ops : Nat → HOp V M) (sched : List Nat) :
    ∀ s : IConc V M D, (∀ t ∈ sched, insertsI ops t = true) → (s.run env ops sched).sr = s.sr := by
  induction sched with
  | nil => intro s _; rfl
  | cons t sched ih =>
    intro s hs
    have h3 := ih (s.step env ops t) fun t' ht' => hs t' (List.mem_cons_of_mem _ ht')
    simp only [IConc.run, List.foldl_cons] at h3 ⊢
    rw [h3]
    have ht := hs t List.mem_cons_self
    cases ho : ops t with
    | search q k => simp [insertsI, ho] at ht
    | insert rows =>
      simp only [IConc.step, ho]
      split
      · exact IConc.phase_sr ..
      · rfl

/-! ## C213 -/

/-- `n_probes` and the distance, which may raise, are those of the sequential model. -/
structure SameIvfC (env : IConcEnv V D) (env' : IvfEnv V D) : Prop where
  probes : env'.nProbes = env.nProbes
  dist : env'.dist = env.dist

/-- **C213**, insertion into an IVF index that others search, with lists that are objects: as `C213_ivf`, and
no search is moved (`ivfOf` always gives an initialised index). -/
theorem C213_ivf_objects (env : IConcEnv V D) (env' : IvfEnv V D) (he : SameIvf env.toIParEnv env')
    (ops : Nat → HOp V M) (s : IConc V M D) (hl : OwnLists s) (t : Nat) (rows : List (FRow V M))
    (ho : ops t = .insert rows) (hs : s.base.thr t = (0, .store)) (hp : s.ph t = .testLen) :
    ∃ n, let e := s.run env ops (List.replicate n t)
      let r := ivfInsert env' (ivfOf (plainIvf s)) s.base.store rows
      (e.base.thr t).2 = .returned ∧
      e.ph t = (match r.1 with | .ok _ => .returned | .error _ => .raised) ∧
      (∀ l, r.1 = .ok l → l = rows.map FRow.id) ∧
      ivfOf (plainIvf e) = { r.2.1 with inited := true } ∧ e.base.store = r.2.2 ∧
      (∀ t', t' ≠ t → e.ph t' = s.ph t' ∧ e.base.thr t' = s.base.thr t') ∧ e.sr = s.sr := by
  have hr : IConc.rowsOf ops t = rows := by simp only [IConc.rowsOf, ho]
  obtain ⟨n, h⟩ := C213_ivf env.toIParEnv env' he (IConc.rowsOf ops) (plainIvf s) t hs hp
  have hin : ∀ t' ∈ List.replicate n t, insertsI ops t' = true := by
    intro t' ht'
    rw [List.eq_of_mem_replicate ht']
    simp [insertsI, ho]
  have e1 := plain_run env ops (List.replicate n t) s hl hin
  refine ⟨n, ?_⟩
  simp only [← e1, hr] at h ⊢
  obtain ⟨h1, h2, h3, h4, h5, h6, h7, h8, h9, h10, h11⟩ := h
  refine ⟨h1, h2, h3, ?_, h10, h11, plain_sr env ops _ s hin⟩
  simp only [ivfOf]
  rw [h4, h5, h6, h7, h8, h9]
  rfl

/-- The index with another cache. -/
def withCacheI (f : Ivf V) (c : Dict Id V) : Ivf V := { f with cache := c }

/-- The state with another cache and thread `t` at another place. -/
def isAt (s : IConc V M D) (t : Nat) (c : Dict Id V) (p : ISr V M D) : IConc V M D :=
  { s with base := { s.base with cache := c }, sr := Function.update s.sr t p }

/-- Some steps of thread `t` lead from `s` to `s'`. -/
def CLeads (env : IConcEnv V D) (ops : Nat → HOp V M) (t : Nat) (s s' : IConc V M D) : Prop :=
  ∃ n, s.run env ops (List.replicate n t) = s'

theorem CLeads.rfl' {env : IConcEnv V D} {ops : Nat → HOp V M} {t : Nat} {s : IConc V M D} :
    CLeads env ops t s s := ⟨0, rfl⟩

theorem CLeads.trans {env : IConcEnv V D} {ops : Nat → HOp V M} {t : Nat} {a b c : IConc V M D}
    (h1 : CLeads env ops t a b) (h2 : CLeads env ops t b c) : CLeads env ops t a c := by
  obtain ⟨n, rfl⟩ := h1
  obtain ⟨m, rfl⟩ := h2
  exact ⟨n + m, by simp [IConc.run, ← List.replicate_append_replicate, List.foldl_append]⟩

/-- One step of a search. -/
theorem CLeads.next {env : IConcEnv V D} {ops : Nat → HOp V M} {t : Nat} {s s' : IConc V M D}
    {q : V} {k : Int} (ho : ops t = .search q k) {c : Dict Id V} {p p' : ISr V M D} {w : Option (Id × V)}
    (h1 : (isAt s t c p).search env q k p = (p', w))
    (h2 : CLeads env ops t (isAt s t (match w with | none => c | some x => c.set x.1 x.2) p') s') :
    CLeads env ops t (isAt s t c p) s' := by
  refine CLeads.trans ⟨1, ?_⟩ h2
  have hp : (isAt s t c p).sr t = p := by simp [isAt]
  simp only [List.replicate_one, IConc.run, List.foldl_cons, List.foldl_nil, IConc.step, ho, hp, h1]
  cases w <;> simp [isAt]

section
variable {env : IConcEnv V D} {ops : Nat → HOp V M} {t : Nat} {q : V} {k : Int} (ho : ops t = .search q k)
  (s : IConc V M D)
include ho

theorem lone_walk_ivf (src : ISrc) (rest : List Id) : ∀ (i : Nat) (c : Dict Id V) (got : List (Id × D)),
    (s.source src).drop i = rest →
    let r := scanVecs (plainStore V M) (env.dist q) rest c s.base.store
    r.2.2 = s.base.store ∧
    CLeads env ops t (isAt s t c (.walk src i got))
      (isAt s t r.2.1 (match r.1 with
        | .ok ds => IConc.afterLoop k (got ++ ds) src
        | .error _ => .done .raised)) := by
  have hsrc : ∀ c p, (isAt s t c p).source src = s.source src := by
    intro c p; cases src <;> rfl
  have hst : ∀ c p, (isAt s t c p).base.store = s.base.store := fun _ _ => rfl
  have hca : ∀ c p, (isAt s t c p).base.cache = c := fun _ _ => rfl
  induction rest with
  | nil =>
    intro i c got hi
    refine ⟨rfl, .next ho (w := none) (p' := IConc.afterLoop k got src) ?_ ?_⟩
    · simp only [IConc.search, hsrc, List.getElem?_eq_none (List.drop_eq_nil_iff.1 hi)]
    · simp only [scanVecs, List.append_nil]; exact .rfl'
  | cons id rest ih =>
    intro i c got hi
    have hr : (s.source src)[i]? = some id := by rw [← List.head?_drop, hi]; rfl
    have hn : (s.source src).drop (i + 1) = rest := by rw [← List.tail_drop, hi]; rfl
    simp only [scanVecs]
    cases hc : c.get? id with
    | some v =>
      simp only
      cases hd : env.dist q v with
      | error e =>
        refine ⟨rfl, .next ho (w := none) (p' := .done .raised) ?_ .rfl'⟩
        simp only [IConc.search, hsrc, hr, hca, hc, hd]
      | ok d =>
        obtain ⟨h1, h2⟩ := ih (i + 1) c (got ++ [(id, d)]) hn
        have h3 : CLeads env ops t (isAt s t c (.walk src i got)) _ :=
          .next ho (w := none) (p' := .walk src (i + 1) (got ++ [(id, d)]))
            (by simp only [IConc.search, hsrc, hr, hca, hc, hd]) h2
        rcases hsc : scanVecs (plainStore V M) (env.dist q) rest c s.base.store with ⟨_ | l, c', s'⟩ <;>
          rw [hsc] at h1 h3 <;> refine ⟨h1, ?_⟩
        · exact h3
        · simpa using h3
    | none =>
      have hf : ∀ p'' s'', CLeads env ops t (isAt s t c (.fetch src i got id)) (isAt s t s'' p'') →
          CLeads env ops t (isAt s t c (.walk src i got)) (isAt s t s'' p'') := by
        intro p'' s'' h
        exact .next ho (w := none) (p' := .fetch src i got id)
          (by simp only [IConc.search, hsrc, hr, hca, hc]) h
      cases hs : s.base.store.get? id with
      | none =>
        simp only [plainStore, hs]
        obtain ⟨h1, h2⟩ := ih (i + 1) c got hn
        refine ⟨h1, hf _ _ (.next ho (w := none) (p' := .walk src (i + 1) got) ?_ h2)⟩
        simp only [IConc.search, hst, hs]
      | some x =>
        obtain ⟨v, m⟩ := x
        have hf2 : ∀ p'' s'', CLeads env ops t (isAt s t c (.put src i got id v)) (isAt s t s'' p'') →
            CLeads env ops t (isAt s t c (.walk src i got)) (isAt s t s'' p'') := by
          intro p'' s'' h
          exact hf _ _ (.next ho (w := none) (p' := .put src i got id v)
            (by simp only [IConc.search, hst, hs]) h)
        have e : (plainStore V M).retrieve s.base.store id = (.ok (some (v, m)), s.base.store) := by
          simp only [plainStore, hs]
        simp only [e]
        cases hd : env.dist q v with
        | error e =>
          refine ⟨rfl, hf2 _ _ (.next ho (w := some (id, v)) (p' := .done .raised) ?_ .rfl')⟩
          simp only [IConc.search, hd]
        | ok d =>
          obtain ⟨h1, h2⟩ := ih (i + 1) (c.set id v) (got ++ [(id, d)]) hn
          have h3 := hf2 _ _ (.next ho (w := some (id, v)) (p' := .walk src (i + 1) (got ++ [(id, d)]))
            (by simp only [IConc.search, hd]) h2)
          rcases hsc : scanVecs (plainStore V M) (env.dist q) rest (c.set id v) s.base.store with ⟨_ | l, c', s'⟩ <;>
            rw [hsc] at h1 h3 <;> refine ⟨h1, ?_⟩
          · exact h3
          · simpa using h3

theorem lone_info_ivf (c : Dict Id V) (todo : List (Id × D)) : ∀ acc : List (Hit D M),
    CLeads env ops t (isAt s t c (.info todo acc))
      (isAt s t c (.done (match (fetchMeta (plainStore V M) todo s.base.store).1 with
        | .ok l => .hits (acc ++ l)
        | .error _ => .raised))) ∧ (fetchMeta (plainStore V M) todo s.base.store).2 = s.base.store := by
  induction todo with
  | nil =>
    intro acc
    refine ⟨.next ho (w := none) (p' := .done (.hits acc)) (by simp only [IConc.search]) ?_, rfl⟩
    simp only [fetchMeta, List.append_nil]; exact .rfl'
  | cons x todo ih =>
    intro acc
    obtain ⟨id, d⟩ := x
    have hst : ∀ c p, (isAt s t c p).base.store = s.base.store := fun _ _ => rfl
    cases hs : s.base.store.get? id with
    | none =>
      simp only [fetchMeta, plainStore, hs]
      exact ⟨.next ho (w := none) (p' := .done .raised) (by simp only [IConc.search, hst, hs]) .rfl', trivial⟩
    | some y =>
      obtain ⟨v, m⟩ := y
      have e : (plainStore V M).retrieve s.base.store id = (.ok (some (v, m)), s.base.store) := by
        simp only [plainStore, hs]
      obtain ⟨h1, h2⟩ := ih (acc ++ [⟨id, d, m⟩])
      have h3 : CLeads env ops t (isAt s t c (.info ((id, d) :: todo) acc)) _ :=
        .next ho (w := none) (p' := .info todo (acc ++ [⟨id, d, m⟩]))
          (by simp only [IConc.search, hst, hs]) h1
      simp only [fetchMeta, e]
      rcases hf : fetchMeta (plainStore V M) todo s.base.store with ⟨_ | l, s'⟩ <;> rw [hf] at h2 h3
      · exact ⟨h3, h2⟩
      · exact ⟨by simpa using h3, h2⟩
end

omit [LinearOrder D] in
theorem scanVecs_append {σ : Type} (B : Backend σ V M) (dist : V → Except Err D) (b : List Id) :
    ∀ (a : List Id) (c : Dict Id V) (s : σ), scanVecs B dist (a ++ b) c s =
      match scanVecs B dist a c s with
      | (.error e, x) => (.error e, x)
      | (.ok l, c', s') =>
        match scanVecs B dist b c' s' with
        | (.error e, x) => (.error e, x)
        | (.ok l', x) => (.ok (l ++ l'), x)
  | [], c, s => by
    simp only [List.nil_append, scanVecs]
    rcases scanVecs B dist b c s with ⟨_ | _, x⟩ <;> rfl
  | id :: a, c, s => by
    simp only [List.cons_append, scanVecs]
    cases c.get? id with
    | some v =>
      simp only
      cases dist v with
      | error e => rfl
      | ok d =>
        simp only [scanVecs_append B dist b a]
        rcases scanVecs B dist a c s with ⟨_ | l, c', s'⟩
        · rfl
        · simp only
          rcases scanVecs B dist b c' s' with ⟨_ | _, x⟩ <;> rfl
    | none =>
      simp only
      rcases B.retrieve s id with ⟨_ | _ | ⟨v, m⟩, s1⟩
      · rfl
      · simp only [scanVecs_append B dist b a]
      · simp only
        cases dist v with
        | error e => rfl
        | ok d =>
          simp only [scanVecs_append B dist b a]
          rcases scanVecs B dist a (c.set id v) s1 with ⟨_ | l, c', s'⟩
          · rfl
          · simp only
            rcases scanVecs B dist b c' s' with ⟨_ | _, x⟩ <;> rfl

theorem lone_probe {env : IConcEnv V D} {ops : Nat → HOp V M} {t : Nat} {q : V} {k : Int}
    (ho : ops t = .search q k) (s : IConc V M D) (ps : List Nat) :
    ∀ (c : Dict Id V) (got : List (Id × D)),
    let r := scanVecs (plainStore V M) (env.dist q)
      (ps.flatMap fun c => ((plainIvf s).clusters.get? c).getD []) c s.base.store
    r.2.2 = s.base.store ∧
    CLeads env ops t (isAt s t c (.probe ps got))
      (isAt s t r.2.1 (match r.1 with
        | .ok ds => .info (sliceTo (pySortBy Prod.snd (got ++ ds)) k) []
        | .error _ => .done .raised)) := by
  induction ps with
  | nil =>
    intro c got
    refine ⟨rfl, .next ho (w := none) (p' := .info (sliceTo (pySortBy Prod.snd got) k) [])
      (by simp only [IConc.search]) ?_⟩
    simp only [List.flatMap_nil, scanVecs, List.append_nil]; exact .rfl'
  | cons p ps ih =>
    intro c got
    have hcl : ∀ c p', (isAt s t c p').clusters = s.clusters := fun _ _ => rfl
    have hg : ((plainIvf s).clusters.get? p).getD [] =
        match s.clusters.get? p with | none => [] | some r => (s.lists[r]?).getD [] := by
      simp only [plainIvf]
      rw [map_get? (fun r => (s.lists[r]?).getD [])]
      cases s.clusters.get? p <;> rfl
    simp only [List.flatMap_cons, hg, scanVecs_append]
    cases hp : s.clusters.get? p with
    | none =>
      obtain ⟨h1, h2⟩ := ih c got
      have h3 : CLeads env ops t (isAt s t c (.probe (p :: ps) got)) _ :=
        .next ho (w := none) (p' := .probe ps got)
          (by simp [IConc.search, hcl, Dict.mem_eq, hp]) h2
      simp only [scanVecs]
      rcases hsc : scanVecs (plainStore V M) (env.dist q)
        (ps.flatMap fun c => ((plainIvf s).clusters.get? c).getD []) c s.base.store with ⟨_ | l, x⟩ <;>
        rw [hsc] at h1 h3 <;> exact ⟨h1, by simpa using h3⟩
    | some r =>
      simp only
      obtain ⟨h1, h2⟩ := lone_walk_ivf (env := env) ho s (.list r ps) ((s.lists[r]?).getD []) 0 c got rfl
      have h3 : CLeads env ops t (isAt s t c (.probe (p :: ps) got)) _ :=
        .next ho (w := none) (p' := .take p ps got) (by simp [IConc.search, hcl, Dict.mem_eq, hp]) <|
        .next ho (w := none) (p' := .walk (.list r ps) 0 got) (by simp only [IConc.search, hcl, hp]) h2
      rcases hsc : scanVecs (plainStore V M) (env.dist q) ((s.lists[r]?).getD []) c s.base.store with
        ⟨_ | l, c', s'⟩ <;> rw [hsc] at h1 h3
      · exact ⟨h1, h3⟩
      · simp only at h1 h3 ⊢
        subst h1
        obtain ⟨h4, h5⟩ := ih c' (got ++ l)
        have h6 := h3.trans h5
        rcases hsc2 : scanVecs (plainStore V M) (env.dist q)
          (ps.flatMap fun c => ((plainIvf s).clusters.get? c).getD []) c' s.base.store with ⟨_ | l2, x⟩ <;>
          rw [hsc2] at h4 h6 <;> exact ⟨h4, by simpa using h6⟩

/-- **C213**, search of an IVF index.  Whatever the state of the index, a search nobody interrupts comes to its
end with the answer a single caller would get (also when that is an error), leaves the cache as a single caller
would, and changes nothing else. -/
theorem C213_ivf_search (env : IConcEnv V D) (env' : IvfEnv V D) (he : SameIvfC env env')
    (ops : Nat → HOp V M) (s : IConc V M D) (t : Nat) (q : V) (k : Int) (ho : ops t = .search q k)
    (hs : s.sr t = .start) :
    ∃ n, let e := s.run env ops (List.replicate n t)
      let r := Ivf.search env' (plainStore V M) 1 q k (ivfOf (plainIvf s)) s.base.store
      e.sr t = .done (match r.1 with | .ok l => .hits l | .error _ => .raised) ∧
      ivfOf (plainIvf e) = r.2.1 ∧ e.base.store = r.2.2 ∧
      e.ph = s.ph ∧ e.base.thr = s.base.thr ∧ ∀ t', t' ≠ t → e.sr t' = s.sr t' := by
  have h0 : isAt s t s.base.cache .start = s := by
    simp only [isAt, ← hs, Function.update_eq_self]
  -- the end of both kinds of search
  have hend : ∀ (cand : List Id) (p : ISr V M D),
      (let r := scanVecs (plainStore V M) (env.dist q) cand s.base.cache s.base.store
       r.2.2 = s.base.store ∧ CLeads env ops t (isAt s t s.base.cache p)
        (isAt s t r.2.1 (match r.1 with
          | .ok ds => .info (sliceTo (pySortBy Prod.snd ds) k) []
          | .error _ => .done .raised))) →
      let r := Ivf.scanTop env' (plainStore V M) q k cand (ivfOf (plainIvf s)) s.base.store
      CLeads env ops t (isAt s t s.base.cache p)
        (isAt s t r.2.1.cache (.done (match r.1 with | .ok l => .hits l | .error _ => .raised))) ∧
      r.2.1 = withCacheI (ivfOf (plainIvf s)) r.2.1.cache ∧ r.2.2 = s.base.store := by
    intro cand p h
    have e1 : (ivfOf (plainIvf s)).cache = s.base.cache := rfl
    simp only [Ivf.scanTop, he.dist, e1]
    rcases hsc : scanVecs (plainStore V M) (env.dist q) cand s.base.cache s.base.store with ⟨_ | ds, c, st⟩ <;>
      rw [hsc] at h <;> obtain ⟨h1, h2⟩ := h
    · exact ⟨h2, rfl, h1⟩
    · simp only at h1 h2 ⊢
      subst h1
      obtain ⟨h3, h4⟩ := lone_info_ivf (env := env) ho s c (sliceTo (pySortBy Prod.snd ds) k) []
      rcases hf : fetchMeta (plainStore V M) (sliceTo (pySortBy Prod.snd ds) k) s.base.store with ⟨_ | l, s'⟩ <;>
        rw [hf] at h3 h4
      · exact ⟨h2.trans h3, rfl, h4⟩
      · exact ⟨by simpa using h2.trans h3, rfl, h4⟩
  have main : let r := Ivf.search env' (plainStore V M) 1 q k (ivfOf (plainIvf s)) s.base.store
      CLeads env ops t (isAt s t s.base.cache .start)
        (isAt s t r.2.1.cache (.done (match r.1 with | .ok l => .hits l | .error _ => .raised))) ∧
      r.2.1 = withCacheI (ivfOf (plainIvf s)) r.2.1.cache ∧ r.2.2 = s.base.store := by
    have e1 : (ivfOf (plainIvf s)).ids = s.base.ids := rfl
    have e2 : (ivfOf (plainIvf s)).trained = s.trained := rfl
    have e3 : (ivfOf (plainIvf s)).cents = s.cents := rfl
    have e4 : (ivfOf (plainIvf s)).clusters = (plainIvf s).clusters := rfl
    have e5 : (ivfOf (plainIvf s)).inited = true := rfl
    have a1 : ∀ c p, (isAt s t c p).base.ids = s.base.ids := fun _ _ => rfl
    have a2 : ∀ c p, (isAt s t c p).trained = s.trained := fun _ _ => rfl
    have a3 : ∀ c p, (isAt s t c p).cents = s.cents := fun _ _ => rfl
    simp only [Ivf.search, e1, e2, e3, e4, e5, Bool.not_true, Bool.false_eq_true, if_false, ne_eq,
      not_true_eq_false]
    by_cases hi : s.base.ids.isEmpty = true
    · simp only [hi, if_true]
      exact ⟨.next ho (w := none) (p' := .done (.hits [])) (by simp only [IConc.search, a1, hi, if_true]) .rfl',
        rfl, by first | rfl | trivial⟩
    · have st1 : ∀ c p, CLeads env ops t (isAt s t s.base.cache .test) (isAt s t c p) →
          CLeads env ops t (isAt s t s.base.cache .start) (isAt s t c p) := fun c p h =>
        .next ho (w := none) (p' := .test) (by simp only [IConc.search, a1, if_neg hi]) h
      simp only [if_neg hi]
      cases htr : s.trained with
      | false =>
        simp only [Bool.not_false, if_true]
        have hw := lone_walk_ivf (env := env) ho s .all s.base.ids 0 s.base.cache [] rfl
        simp only [List.nil_append, IConc.afterLoop] at hw
        obtain ⟨h1, h2⟩ := hend s.base.ids (.walk .all 0 []) hw
        exact ⟨st1 _ _ (.next ho (w := none) (p' := .walk .all 0 []) (by simp only [IConc.search, a2, htr]; rfl) h1), h2⟩
      | true =>
        simp only [Bool.not_true, Bool.false_eq_true, if_false]
        have st2 : ∀ c p, CLeads env ops t (isAt s t s.base.cache .cents) (isAt s t c p) →
            CLeads env ops t (isAt s t s.base.cache .start) (isAt s t c p) := fun c p h =>
          st1 _ _ (.next ho (w := none) (p' := .cents) (by simp only [IConc.search, a2, htr]; rfl) h)
        have hpr : ∀ cs, IConc.probesOf env q cs = Ivf.probes env' q cs := by
          intro cs
          simp only [IConc.probesOf, Ivf.probes, he.dist, he.probes]
          cases numberedDists (env.dist q) 0 cs <;> rfl
        cases hce : s.cents with
        | none =>
          exact ⟨st2 _ _ (.next ho (w := none) (p' := .done .raised) (by simp only [IConc.search, a3, hce]) .rfl'),
            rfl, by first | rfl | trivial⟩
        | some cs =>
          simp only
          cases hps : Ivf.probes env' q cs with
          | error e =>
            exact ⟨st2 _ _ (.next ho (w := none) (p' := .done .raised)
              (by simp only [IConc.search, a3, hce, hpr, hps]) .rfl'), rfl, by first | rfl | trivial⟩
          | ok ps =>
            have hw := lone_probe (env := env) ho s ps s.base.cache []
            simp only [List.nil_append] at hw
            obtain ⟨h1, h2⟩ := hend _ (.probe ps []) hw
            exact ⟨st2 _ _ (.next ho (w := none) (p' := .probe ps [])
              (by simp only [IConc.search, a3, hce, hpr, hps]) h1), h2⟩
  obtain ⟨⟨n, hn⟩, h2, h3⟩ := main
  rw [h0] at hn
  refine ⟨n, ?_⟩
  dsimp only
  rw [hn]
  refine ⟨by simp [isAt], ?_, h3.symm, rfl, rfl, fun t' h => by simp [isAt, h]⟩
  rw [h2]; rfl

/-! ## C206 -/

/-- The rows a thread has done with are in the cache. -/
def RowsCached (ops : Nat → HOp V M) (s : IConc V M D) : Prop :=
  ∀ t j r, (IConc.rowsOf ops t)[j]? = some r → j < (s.base.thr t).1 → (s.base.cache.get? r.id).isSome

/-- Equal but for the cache and the searches. -/
structure SameForInserts (s s' : IConc V M D) : Prop where
  store : s.base.store = s'.base.store
  ids : s.base.ids = s'.base.ids
  count : s.base.count = s'.base.count
  thr : s.base.thr = s'.base.thr
  cents : s.cents = s'.cents
  lists : s.lists = s'.lists
  clusters : s.clusters = s'.clusters
  trained : s.trained = s'.trained
  ph : s.ph = s'.ph

omit [LinearOrder D] in
theorem isSome_set {c : Dict Id V} {id : Id} (h : (c.get? id).isSome) (id' : Id) (v : V) :
    ((c.set id' v).get? id).isSome := by
  rw [Dict.get?_set]
  split
  · rfl
  · exact h

omit [LinearOrder D] in
theorem phase_cache (env : IConcEnv V D) (rows : List (FRow V M)) (s : IConc V M D) (t : Nat) :
    (s.phase env rows t).base.thr = s.base.thr ∧
    ∀ id, (s.base.cache.get? id).isSome → ((s.phase env rows t).base.cache.get? id).isSome := by
  unfold IConc.phase
  simp only
  repeat' split
  all_goals first
    | exact ⟨rfl, fun _ h => h⟩
    | exact ⟨rfl, fun _ h => isSome_set h _ _⟩

theorem cached_step {env : IConcEnv V D} {ops : Nat → HOp V M} {s : IConc V M D} (h : RowsCached ops s) (t : Nat) :
    RowsCached ops (s.step env ops t) := by
  intro t' j r hr hj
  unfold IConc.step at hj ⊢
  cases ho : ops t with
  | search q k =>
    rw [ho] at hj
    simp only at hj ⊢
    rcases hw : (s.search env q k (s.sr t)).2 with _ | ⟨id, v⟩ <;> rw [hw] at hj
    · exact h t' j r hr hj
    · exact isSome_set (h t' j r hr hj) _ _
  | insert rows =>
    rw [ho] at hj
    simp only at hj ⊢
    split at hj
    · rename_i hret
      obtain ⟨h1, h2⟩ := phase_cache env rows s t
      rw [h1] at hj
      rw [if_pos hret]
      exact h2 _ (h t' j r hr hj)
    · rename_i hret
      rw [if_neg hret]
      simp only at hj ⊢
      unfold FPar.step at hj ⊢
      simp only at hj ⊢
      have hupd : ∀ pc : FPc, j < (Function.update s.base.thr t ((s.base.thr t).1, pc) t').1 →
          j < (s.base.thr t').1 := by
        intro pc hj
        by_cases e : t' = t
        · subst e; simpa using hj
        · simpa [e] using hj
      cases hpc : (s.base.thr t).2 with
      | store =>
        rw [hpc] at hj
        simp only at hj ⊢
        cases hrow : (IConc.rowsOf ops t)[(s.base.thr t).1]? <;> rw [hrow] at hj <;>
          exact h t' j r hr (hupd _ hj)
      | append =>
        rw [hpc] at hj
        simp only at hj ⊢
        cases hrow : (IConc.rowsOf ops t)[(s.base.thr t).1]? <;> rw [hrow] at hj
        · exact h t' j r hr hj
        · exact h t' j r hr (hupd _ hj)
      | cache =>
        rw [hpc] at hj
        simp only at hj ⊢
        cases hrow : (IConc.rowsOf ops t)[(s.base.thr t).1]? with
        | none => rw [hrow] at hj; exact h t' j r hr hj
        | some r' =>
          rw [hrow] at hj
          simp only at hj ⊢
          by_cases e : t' = t
          · subst e
            simp only [Function.update_self] at hj
            by_cases e2 : j = (s.base.thr t').1
            · subst e2
              rw [hr] at hrow
              cases hrow
              rw [Dict.get?_set, if_pos rfl]; rfl
            · exact isSome_set (h t' j r hr (by omega)) _ _
          · exact isSome_set (h t' j r hr (by simpa [e] using hj)) _ _
      | len => rw [hpc] at hj; exact h t' j r hr (hupd _ hj)
      | count n => rw [hpc] at hj; exact h t' j r hr (hupd _ hj)
      | returned => exact absurd hpc hret

theorem cached_run {env : IConcEnv V D} {ops : Nat → HOp V M} (sched : List Nat) :
    ∀ s : IConc V M D, RowsCached ops s → RowsCached ops (s.run env ops sched) := by
  induction sched with
  | nil => intro s h; exact h
  | cons t sched ih => intro s h; exact ih _ (cached_step h t)

theorem same_ivf_search {env : IConcEnv V D} {ops : Nat → HOp V M} {s s' : IConc V M D}
    (h : SameForInserts s s') {t : Nat} (ht : insertsI ops t = false) :
    SameForInserts (s.step env ops t) s' := by
  cases ho : ops t with
  | insert rows => simp [insertsI, ho] at ht
  | search q k =>
    simp only [IConc.step, ho]
    rcases (s.search env q k (s.sr t)).2 with _ | ⟨id, v⟩ <;>
      exact ⟨h.store, h.ids, h.count, h.thr, h.cents, h.lists, h.clusters, h.trained, h.ph⟩

theorem same_ivf_insert {env : IConcEnv V D} {ops : Nat → HOp V M} {s0 s0' s s' : IConc V M D}
    (h : SameForInserts s s') (hi : IConc.SInv env ops s0 s) (hi' : IConc.SInv env ops s0' s')
    (hc : RowsCached ops s) (hc' : RowsCached ops s') {t : Nat} (ht : insertsI ops t = true) :
    SameForInserts (s.step env ops t) (s'.step env ops t) := by
  cases ho : ops t with
  | search q k => simp [insertsI, ho] at ht
  | insert rows =>
    have hrows : IConc.rowsOf ops t = rows := by simp only [IConc.rowsOf, ho]
    have hfin := (hi.thr t rows ho).fin
    have hcr := hc t
    have hcr' := hc' t
    rw [hrows] at hcr hcr'
    have hk := hi.glob.ids
    have ha := hi.glob.cache
    have ha' := hi'.glob.cache
    clear hi hi' hc hc'
    obtain ⟨⟨st, ids, ca, co, th⟩, ce, ls, cl, tr, ph, sr⟩ := s
    obtain ⟨⟨st', ids', ca', co', th'⟩, ce', ls', cl', tr', ph', sr'⟩ := s'
    obtain ⟨h1, h2, h3, h4, h5, h6, h7, h8, h9⟩ := h
    simp only at h1 h2 h3 h4 h5 h6 h7 h8 h9
    subst h1 h2 h3 h4 h5 h6 h7 h8 h9
    simp only [IConc.Kept] at hfin hcr hcr' hk ha ha'
    simp only [IConc.step, ho]
    by_cases hret : (th t).2 = .returned
    · simp only [if_pos hret]
      have hlen := hfin (.inl hret)
      unfold IConc.phase
      simp only
      cases hp : ph t with
      | load i got =>
        simp only
        cases hid : ids[i]? with
        | none => simp only; split <;> exact ⟨rfl, rfl, rfl, rfl, rfl, rfl, rfl, rfl, rfl⟩
        | some id =>
          obtain ⟨⟨v, m⟩, hst⟩ := hk id (List.mem_of_getElem? hid)
          have e : ∀ w, ca.get? id = some w → w = v := by
            intro w hw
            obtain ⟨m', hm⟩ := ha id w hw
            rw [hst] at hm; cases hm; rfl
          have e' : ∀ w, ca'.get? id = some w → w = v := by
            intro w hw
            obtain ⟨m', hm⟩ := ha' id w hw
            rw [hst] at hm; cases hm; rfl
          simp only [hst]
          cases hca : ca.get? id with
          | none =>
            cases hca' : ca'.get? id with
            | none => exact ⟨rfl, rfl, rfl, rfl, rfl, rfl, rfl, rfl, rfl⟩
            | some w' => rw [e' w' hca']; exact ⟨rfl, rfl, rfl, rfl, rfl, rfl, rfl, rfl, rfl⟩
          | some w =>
            rw [e w hca]
            cases hca' : ca'.get? id with
            | none => exact ⟨rfl, rfl, rfl, rfl, rfl, rfl, rfl, rfl, rfl⟩
            | some w' => rw [e' w' hca']; exact ⟨rfl, rfl, rfl, rfl, rfl, rfl, rfl, rfl, rfl⟩
      | choose j =>
        simp only
        cases hr : rows[j]? with
        | none => exact ⟨rfl, rfl, rfl, rfl, rfl, rfl, rfl, rfl, rfl⟩
        | some r =>
          have hj : j < (th t).1 := Nat.lt_of_lt_of_le (List.getElem?_eq_some_iff.1 hr).1 hlen
          obtain ⟨w, hw⟩ := Option.isSome_iff_exists.1 (hcr j r hr hj)
          obtain ⟨w', hw'⟩ := Option.isSome_iff_exists.1 (hcr' j r hr hj)
          have : w = w' := by
            obtain ⟨m, hm⟩ := ha _ _ hw
            obtain ⟨m', hm'⟩ := ha' _ _ hw'
            rw [hm] at hm'; cases hm'; rfl
          subst this
          simp only [hw, hw']
          cases tr <;> cases ce <;> exact ⟨rfl, rfl, rfl, rfl, rfl, rfl, rfl, rfl, rfl⟩
      | has todo =>
        cases todo <;> simp only <;> (try split) <;> exact ⟨rfl, rfl, rfl, rfl, rfl, rfl, rfl, rfl, rfl⟩
      | new todo => cases todo <;> exact ⟨rfl, rfl, rfl, rfl, rfl, rfl, rfl, rfl, rfl⟩
      | push todo =>
        rcases todo with _ | ⟨⟨id, k⟩, todo⟩
        · exact ⟨rfl, rfl, rfl, rfl, rfl, rfl, rfl, rfl, rfl⟩
        · simp only
          cases cl.get? k <;> exact ⟨rfl, rfl, rfl, rfl, rfl, rfl, rfl, rfl, rfl⟩
      | addPush j k =>
        simp only
        cases rows[j]? <;> cases cl.get? k <;> exact ⟨rfl, rfl, rfl, rfl, rfl, rfl, rfl, rfl, rfl⟩
      | _ => simp only <;> (try split) <;> exact ⟨rfl, rfl, rfl, rfl, rfl, rfl, rfl, rfl, rfl⟩
    · simp only [if_neg hret]
      unfold FPar.step
      simp only
      repeat' split
      all_goals exact ⟨rfl, rfl, rfl, rfl, rfl, rfl, rfl, rfl, rfl⟩

/-- **C206**, IVF index.  Searches do not disturb insertions, also when these train the index: whatever the
schedule, storage, ids, count, centroids, clusters and the progress of all insertions are those of the same
schedule without the searches, in the model of C204 that has none. -/
theorem C206_ivf_searches_harmless (env : IConcEnv V D) (ops : Nat → HOp V M) (s0 : IConc V M D) (h0 : IRest s0)
    (hn : s0.clusters.keys.Nodup) (hf : NewIdsI ops s0) (sched : List Nat) :
    let s := s0.run env ops sched
    let p := (plainIvf s0).run env.toIParEnv (IConc.rowsOf ops) (sched.filter (insertsI ops))
    s.base.store = p.base.store ∧ s.base.ids = p.base.ids ∧ s.base.count = p.base.count ∧
    s.base.thr = p.base.thr ∧ s.cents = p.cents ∧ s.trained = p.trained ∧ s.ph = p.ph ∧
    ∀ k, s.cluster k = p.cluster k := by
  have hc0 : RowsCached ops s0 := by
    intro t j r _ hj
    rw [h0.base.thr] at hj
    exact absurd hj (Nat.not_lt_zero _)
  have hown : OwnLists s0 := by
    refine ⟨hn, fun k k' r hk hk' => ?_, fun k r hk => ?_⟩
    · exact h0.own k k' r (Dict.get?_of_mem hn hk) (Dict.get?_of_mem hn hk')
    · exact h0.valid k r (Dict.get?_of_mem hn hk)
  have hsame : SameForInserts (s0.run env ops sched) (s0.run env ops (sched.filter (insertsI ops))) := by
    induction sched using List.reverseRecOn with
    | nil => exact ⟨rfl, rfl, rfl, rfl, rfl, rfl, rfl, rfl, rfl⟩
    | append_singleton sched t ih =>
      have e : ∀ l : List Nat, s0.run env ops (l ++ [t]) = (s0.run env ops l).step env ops t := by
        intro l; simp [IConc.run, List.foldl_append]
      rw [List.filter_append, e]
      cases ht : insertsI ops t with
      | false =>
        simp only [List.filter_cons, ht, Bool.false_eq_true, if_false, List.filter_nil, List.append_nil]
        exact same_ivf_search ih ht
      | true =>
        simp only [List.filter_cons, ht, if_true, List.filter_nil]
        rw [e]
        exact same_ivf_insert ih (irun_sinv h0 hf _) (irun_sinv h0 hf _) (cached_run _ _ hc0) (cached_run _ _ hc0) ht
  have hpl := plain_run env ops (sched.filter (insertsI ops)) s0 hown
    fun t ht => (List.mem_filter.1 ht).2
  intro s p
  have hp : p = plainIvf (s0.run env ops (sched.filter (insertsI ops))) := hpl.symm
  rw [hp]
  refine ⟨hsame.store, hsame.ids, hsame.count, hsame.thr, hsame.cents, hsame.trained, hsame.ph, fun k => ?_⟩
  simp only [IConc.cluster, IPar.cluster, plainIvf]
  rw [map_get? (fun r => (((s0.run env ops (sched.filter (insertsI ops))).lists)[r]?).getD []),
    ← hsame.clusters, ← hsame.lists]
  cases s.clusters.get? k <;> rfl

end

/-! ## The hypotheses hold -/

/-- The parameters of `loneIvf` for threads that insert and search. -/
def loneIvfC : IConcEnv Nat Nat := { loneIvfPar with nProbes := 1, dist := loneIvf.dist }

theorem loneIvfC_same : SameIvfC loneIvfC loneIvf ∧ SameIvf loneIvfC.toIParEnv loneIvf :=
  ⟨⟨rfl, rfl⟩, loneIvf_same⟩

/-- An insertion that enters its row into one of two lists; a search of a trained index that probes one cluster
and one of an untrained index; the sequential model gives the same. -/
example : OwnLists trainedIvfC ∧ trainedIvfC.base.thr 0 = (0, .store) ∧ trainedIvfC.ph 0 = .testLen ∧
    trainedIvfC.sr 2 = .start ∧
    (plainIvf (trainedIvfC.run loneIvfC twoIvfSearch (List.replicate 14 0))).clusters = [(0, ["a"]), (1, ["b"])] ∧
    (ivfInsert loneIvf (ivfOf (plainIvf trainedIvfC)) oneIvf.base.store [⟨"b", 90, none⟩]).2.1.clusters =
      [(0, ["a"]), (1, ["b"])] ∧
    (trainedIvfC.run loneIvfC oneIvfSearch (List.replicate 12 2)).sr 2 = .done (.hits [⟨"a", 10, none⟩]) ∧
    (oneIvfC.run loneIvfC twoIvfSearch (List.replicate 12 2)).sr 2 = .done (.hits [⟨"a", 95, none⟩]) := by
  refine ⟨⟨by decide, ?_, ?_⟩, rfl, rfl, rfl, by decide +kernel, by decide +kernel, by decide +kernel,
    by decide +kernel⟩
  · intro k k' r h h'
    simp only [trainedIvfC, List.mem_cons, Prod.mk.injEq, List.not_mem_nil, or_false] at h h'
    omega
  · intro k r h
    simp only [trainedIvfC, List.mem_cons, Prod.mk.injEq, List.not_mem_nil, or_false] at h
    simp only [trainedIvfC, List.length_cons, List.length_nil]
    omega

/-- A search between two insertions that both train the index raises, and the clusters are as without it. -/
example : IRest oneIvfC ∧ oneIvfC.clusters.keys.Nodup ∧ NewIdsI twoIvfSearch oneIvfC ∧
    (let sched := List.replicate 11 0 ++ List.replicate 24 1 ++ List.replicate 4 2 ++ [0, 0, 2] ++ List.replicate 20 0
     let s := oneIvfC.run ivfEndsC twoIvfSearch sched
     s.ph 0 = .returned ∧ s.sr 2 = .done .raised ∧ s.trained = true ∧
     (sched.filter (insertsI twoIvfSearch)).length = sched.length - 5 ∧
     (s.cluster 0, s.cluster 1) =
       (((plainIvf oneIvfC).run ivfEndsC.toIParEnv (IConc.rowsOf twoIvfSearch)
          (sched.filter (insertsI twoIvfSearch))).cluster 0,
        ((plainIvf oneIvfC).run ivfEndsC.toIParEnv (IConc.rowsOf twoIvfSearch)
          (sched.filter (insertsI twoIvfSearch))).cluster 1) ∧ s.cluster 0 ≠ []) :=
  ⟨oneIvfC_rest, List.nodup_nil, twoIvfSearch_fresh _ rfl, by decide +kernel⟩

end Valori.Props
