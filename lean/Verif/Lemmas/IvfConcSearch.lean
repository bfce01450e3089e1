import Verif.Lemmas.IvfConc
import Verif.Props.IvfPar

/-!
# Threads inserting into and searching one IVF index: what a search sees when the clusters stay
-/

namespace Valori.IConc

open Valori Valori.Spec Valori.Props

variable {V M D : Type}

/-- The ids listed in cluster `c`. -/
def cluster (s : IConc V M D) (c : Nat) : List Id :=
  match s.clusters.get? c with
  | none => []
  | some r => (s.lists[r]?).getD []

/-- The ids a thread will still enter into clusters. -/
def pend (rows : List (FRow V M)) : IPh V → List Id
  | .testLen => rows.map FRow.id
  | .testTrained => rows.map FRow.id
  | .testAdd => rows.map FRow.id
  | .has todo => todo.map Prod.fst
  | .new todo => todo.map Prod.fst
  | .push todo => todo.map Prod.fst
  | .choose j => (rows.drop j).map FRow.id
  | .addHas j _ => (rows.drop j).map FRow.id
  | .addNew j _ => (rows.drop j).map FRow.id
  | .addPush j _ => (rows.drop j).map FRow.id
  | _ => []

/-- The clusters have lists of their own, no id is in two of them or twice in one, and what is still to be
entered is not yet there. -/
structure Tidy (rows : Nat → List (FRow V M)) (s : IConc V M D) : Prop where
  inj : ∀ k k' r, s.clusters.get? k = some r → s.clusters.get? k' = some r → k = k'
  valid : ∀ k r, s.clusters.get? k = some r → r < s.lists.length
  nodup : ∀ k, (s.cluster k).Nodup
  disj : ∀ k k', k ≠ k' → ∀ id ∈ s.cluster k, id ∉ s.cluster k'
  pnd : ∀ t, (pend (rows t) (s.ph t)).Nodup
  out : ∀ t, ∀ id ∈ pend (rows t) (s.ph t), ∀ k, id ∉ s.cluster k
  apart : ∀ t t', t ≠ t' → ∀ id ∈ pend (rows t) (s.ph t), id ∉ pend (rows t') (s.ph t')

theorem cluster_congr {s s' : IConc V M D} (hc : s'.clusters = s.clusters) (hl : s'.lists = s.lists) (c : Nat) :
    s'.cluster c = s.cluster c := by
  unfold cluster; rw [hc, hl]

/-- A step that moves one thread. -/
theorem Tidy.move {rows : Nat → List (FRow V M)} {s s' : IConc V M D} (h : Tidy rows s) (t : Nat) (p : IPh V)
    (hc : s'.clusters = s.clusters) (hl : s'.lists = s.lists) (hp : s'.ph = Function.update s.ph t p)
    (hs : (pend (rows t) p).Sublist (pend (rows t) (s.ph t))) : Tidy rows s' := by
  have hcl := cluster_congr hc hl
  have hpe : ∀ t', (pend (rows t') (s'.ph t')).Sublist (pend (rows t') (s.ph t')) := by
    intro t'
    rw [hp]
    by_cases ht : t' = t
    · subst ht; rw [Function.update_self]; exact hs
    · rw [Function.update_of_ne ht]
  refine ⟨?_, ?_, ?_, ?_, ?_, ?_, ?_⟩
  · rw [hc]; exact h.inj
  · rw [hc, hl]; exact h.valid
  · intro k; rw [hcl]; exact h.nodup k
  · intro k k' hk id; rw [hcl, hcl]; exact h.disj k k' hk id
  · intro t'; exact (h.pnd t').sublist (hpe t')
  · intro t' id hid k; rw [hcl]; exact h.out t' id ((hpe t').subset hid) k
  · intro t' t'' ht id h1 h2; exact h.apart t' t'' ht id ((hpe t').subset h1) ((hpe t'').subset h2)

theorem cluster_push {s s' : IConc V M D} {k r : Nat} {id : Id}
    (hi : ∀ k k' r, s.clusters.get? k = some r → s.clusters.get? k' = some r → k = k')
    (hv : ∀ k r, s.clusters.get? k = some r → r < s.lists.length)
    (hk : s.clusters.get? k = some r) (hc : s'.clusters = s.clusters)
    (hl : s'.lists = s.lists.modify r (· ++ [id])) (c : Nat) :
    s'.cluster c = if c = k then s.cluster k ++ [id] else s.cluster c := by
  unfold cluster
  rw [hc, hl]
  by_cases he : c = k
  · subst he
    rw [if_pos rfl, hk]
    have := hv c r hk
    simp only [List.getElem?_modify, if_true]
    rw [List.getElem?_eq_getElem this]
    simp
  · rw [if_neg he]
    cases hg : s.clusters.get? c with
    | none => rfl
    | some r' =>
      have hne : r ≠ r' := by rintro rfl; exact he (hi c k r hg hk)
      simp only [List.getElem?_modify, if_neg hne]
      simp

/-- A step that enters an id into a cluster. -/
theorem Tidy.push {rows : Nat → List (FRow V M)} {s s' : IConc V M D} (h : Tidy rows s) (t : Nat) (p : IPh V)
    {k r : Nat} {id : Id} (hk : s.clusters.get? k = some r) (hc : s'.clusters = s.clusters)
    (hl : s'.lists = s.lists.modify r (· ++ [id])) (hp : s'.ph = Function.update s.ph t p)
    (hs : pend (rows t) (s.ph t) = id :: pend (rows t) p) : Tidy rows s' := by
  have hcl := cluster_push h.inj h.valid hk hc hl
  have hnd := h.pnd t
  rw [hs] at hnd
  have hself : s'.ph t = p := by rw [hp, Function.update_self]
  have hoth : ∀ t', t' ≠ t → s'.ph t' = s.ph t' := fun t' ht => by rw [hp, Function.update_of_ne ht]
  have hsub : ∀ t', ∀ x ∈ pend (rows t') (s'.ph t'), x ∈ pend (rows t') (s.ph t') := by
    intro t' x hx
    by_cases ht : t' = t
    · subst ht; rw [hself] at hx; rw [hs]; exact List.mem_cons_of_mem _ hx
    · rw [hoth t' ht] at hx; exact hx
  have hid : ∀ c, id ∉ s.cluster c := fun c => h.out t id (by rw [hs]; exact List.mem_cons_self) c
  have hmem : ∀ c x, x ∈ s'.cluster c ↔ x ∈ s.cluster c ∨ (c = k ∧ x = id) := by
    intro c x
    rw [hcl c]
    split
    · rename_i e; subst e; simp
    · rename_i e; simp [e]
  refine ⟨?_, ?_, ?_, ?_, ?_, ?_, ?_⟩
  · rw [hc]; exact h.inj
  · rw [hc, hl]; simpa using h.valid
  · intro c
    rw [hcl c]
    split
    · refine List.nodup_append.2 ⟨h.nodup k, by simp, ?_⟩
      intro a ha b hb
      rw [List.mem_singleton] at hb
      subst hb
      rintro rfl
      exact hid k ha
    · exact h.nodup c
  · intro c c' hne x hx hx'
    rw [hmem] at hx hx'
    rcases hx with h1 | ⟨rfl, rfl⟩
    · rcases hx' with h2 | ⟨rfl, rfl⟩
      · exact h.disj c c' hne x h1 h2
      · exact hid c h1
    · rcases hx' with h2 | ⟨h2, -⟩
      · exact hid c' h2
      · exact hne h2.symm
  · intro t'
    by_cases ht : t' = t
    · subst ht; rw [hself]; exact (List.nodup_cons.1 hnd).2
    · rw [hoth t' ht]; exact h.pnd t'
  · intro t' x hx c hc'
    rw [hmem] at hc'
    rcases hc' with h1 | ⟨-, rfl⟩
    · exact h.out t' x (hsub t' x hx) c h1
    · by_cases ht : t' = t
      · subst ht; rw [hself] at hx; exact (List.nodup_cons.1 hnd).1 hx
      · rw [hoth t' ht] at hx
        exact h.apart t' t ht x hx (by rw [hs]; exact List.mem_cons_self)
  · intro t' t'' ht x h1 h2
    exact h.apart t' t'' ht x (hsub t' x h1) (hsub t'' x h2)

theorem cluster_new {s s' : IConc V M D} {k : Nat}
    (hv : ∀ k r, s.clusters.get? k = some r → r < s.lists.length)
    (hk : s.clusters.get? k = none) (hc : s'.clusters = s.clusters.set k s.lists.length)
    (hl : s'.lists = s.lists ++ [[]]) (c : Nat) : s'.cluster c = s.cluster c := by
  unfold cluster
  rw [hc, hl, Dict.get?_set]
  by_cases he : c = k
  · subst he; simp [hk]
  · rw [if_neg he]
    cases hg : s.clusters.get? c with
    | none => rfl
    | some r' =>
      simp only
      rw [List.getElem?_append_left (hv c r' hg)]

/-- A step that makes a list for a cluster that has none. -/
theorem Tidy.new {rows : Nat → List (FRow V M)} {s s' : IConc V M D} (h : Tidy rows s) (t : Nat) (p : IPh V)
    {k : Nat} (hk : s.clusters.get? k = none) (hc : s'.clusters = s.clusters.set k s.lists.length)
    (hl : s'.lists = s.lists ++ [[]]) (hp : s'.ph = Function.update s.ph t p)
    (hs : pend (rows t) (s.ph t) = pend (rows t) p) : Tidy rows s' := by
  have hcl := cluster_new h.valid hk hc hl
  have hpe : ∀ t', pend (rows t') (s'.ph t') = pend (rows t') (s.ph t') := by
    intro t'
    rw [hp]
    by_cases ht : t' = t
    · subst ht; rw [Function.update_self]; exact hs.symm
    · rw [Function.update_of_ne ht]
  refine ⟨?_, ?_, ?_, ?_, ?_, ?_, ?_⟩
  · intro a b r ha hb
    rw [hc, Dict.get?_set] at ha hb
    split at ha
    · rename_i e1
      split at hb
      · rename_i e2; rw [e1, e2]
      · cases ha; exact absurd (h.valid b _ hb) (by omega)
    · split at hb
      · cases hb; exact absurd (h.valid a _ ha) (by omega)
      · exact h.inj a b r ha hb
  · intro a r ha
    rw [hc, Dict.get?_set] at ha
    rw [hl, List.length_append, List.length_singleton]
    split at ha
    · cases ha; omega
    · have := h.valid a r ha; omega
  · intro c; rw [hcl]; exact h.nodup c
  · intro c c' hne x; rw [hcl, hcl]; exact h.disj c c' hne x
  · intro t'; rw [hpe]; exact h.pnd t'
  · intro t' x hx c; rw [hcl]; rw [hpe] at hx; exact h.out t' x hx c
  · intro t' t'' ht x; rw [hpe, hpe]; exact h.apart t' t'' ht x

/-- What stays while the index is trained. -/
structure Ext (s s' : IConc V M D) : Prop where
  trained : s'.trained = true
  cents : s'.cents = s.cents
  pre : ∀ c, s.cluster c <+: s'.cluster c
  ref : ∀ c r, s.clusters.get? c = some r → s'.clusters.get? c = some r

theorem Ext.same {s s' : IConc V M D} (ht : s.trained = true) (h1 : s'.trained = s.trained) (h2 : s'.cents = s.cents)
    (h3 : s'.clusters = s.clusters) (h4 : s'.lists = s.lists) : Ext s s' :=
  ⟨by rw [h1, ht], h2, fun c => by rw [cluster_congr h3 h4], fun c r h => by rw [h3]; exact h⟩

theorem Ext.push {s s' : IConc V M D} (ht : s.trained = true) {k r : Nat} {id : Id}
    (hi : ∀ k k' r, s.clusters.get? k = some r → s.clusters.get? k' = some r → k = k')
    (hv : ∀ k r, s.clusters.get? k = some r → r < s.lists.length)
    (hk : s.clusters.get? k = some r) (h1 : s'.trained = s.trained) (h2 : s'.cents = s.cents)
    (hc : s'.clusters = s.clusters) (hl : s'.lists = s.lists.modify r (· ++ [id])) : Ext s s' := by
  refine ⟨by rw [h1, ht], h2, fun c => ?_, fun c r h => by rw [hc]; exact h⟩
  rw [cluster_push hi hv hk hc hl]
  split
  · rename_i e; subst e; exact List.prefix_append _ _
  · exact List.prefix_refl _

theorem Ext.new {s s' : IConc V M D} (ht : s.trained = true) {k : Nat}
    (hv : ∀ k r, s.clusters.get? k = some r → r < s.lists.length)
    (hk : s.clusters.get? k = none) (h1 : s'.trained = s.trained) (h2 : s'.cents = s.cents)
    (hc : s'.clusters = s.clusters.set k s.lists.length) (hl : s'.lists = s.lists ++ [[]]) : Ext s s' := by
  refine ⟨by rw [h1, ht], h2, fun c => by rw [cluster_new hv hk hc hl], fun c r h => ?_⟩
  rw [hc, Dict.get?_set, if_neg]
  · exact h
  · rintro rfl; rw [hk] at h; cases h

/-! ## Two ways in which the clusters stay -/

/-- Where a thread can be when the index was trained before and every cluster in question has a list. -/
def LocA (s : IConc V M D) : IPh V → Prop
  | .testLen => True
  | .testTrained => True
  | .testAdd => True
  | .choose _ => True
  | .addHas _ k => (s.clusters.get? k).isSome
  | .addPush _ _ => True
  | .returned => True
  | .raised => True
  | _ => False

/-- Where the only inserting thread can be. -/
def LocB (s : IConc V M D) : IPh V → Prop
  | .load i got => s.trained = false ∧ i ≤ s.base.ids.length ∧ (got.map Prod.fst).Sublist (s.base.ids.take i)
  | .setCents _ todo => s.trained = false ∧ (todo.map Prod.fst).Nodup
  | .clear todo => s.trained = false ∧ (todo.map Prod.fst).Nodup
  | .has _ => s.trained = false
  | .new todo => s.trained = false ∧ ∀ x ∈ todo.head?, s.clusters.get? x.2 = none
  | .push _ => s.trained = false
  | .setTrained => s.trained = false
  | .addNew _ k => s.clusters.get? k = none
  | _ => True

/-- Several threads insert into an index trained before. -/
structure ModeA (env : IConcEnv V D) (ops : Nat → HOp V M) (s0 s : IConc V M D) : Prop where
  need : ∀ cs, s0.cents = some cs → ∀ t, ∀ r ∈ rowsOf ops t, (s0.clusters.get? (env.near cs r.v)).isSome
  trained : s.trained = true
  cents : s.cents = s0.cents
  clusters : s.clusters = s0.clusters
  loc : ∀ t, LocA s (s.ph t)

/-- One thread inserts. -/
structure ModeB (ops : Nat → HOp V M) (s : IConc V M D) : Prop where
  one : ∀ t t' rows rows', ops t = .insert rows → ops t' = .insert rows' → t = t'
  others : ∀ t q k, ops t = .search q k → s.ph t = .testLen
  loc : ∀ t, LocB s (s.ph t)

/-- The clusters stay. -/
structure Calm (env : IConcEnv V D) (ops : Nat → HOp V M) (s0 s : IConc V M D) : Prop where
  tidy : Tidy (rowsOf ops) s
  mode : ModeA env ops s0 s ∨ ModeB ops s

theorem zip_fst_sublist {α β : Type} : ∀ (l : List α) (m : List β), ((l.zip m).map Prod.fst).Sublist l
  | [], _ => by simp
  | a :: l, [] => by simp
  | a :: l, b :: m => by
    simp only [List.zip_cons_cons, List.map_cons]
    exact (zip_fst_sublist l m).cons_cons a

theorem pend_drop {rows : List (FRow V M)} {j : Nat} {r : FRow V M} (h : rows[j]? = some r) :
    (rows.drop j).map FRow.id = r.id :: (rows.drop (j + 1)).map FRow.id := by
  obtain ⟨hlt, he⟩ := List.getElem?_eq_some_iff.1 h
  rw [List.drop_eq_getElem_cons hlt, he]
  rfl

/-- One statement of the second part of an insertion. -/
theorem calm_phase {env : IConcEnv V D} [LinearOrder D] {ops : Nat → HOp V M} {s0 s : IConc V M D}
    (hi : SInv env ops s0 s) (hnd : s.base.ids.Nodup) (h : Calm env ops s0 s)
    (t : Nat) (rows : List (FRow V M)) (ho : ops t = .insert rows) (hb : (s.base.thr t).2 = .returned) :
    Calm env ops s0 (s.phase env rows t) ∧ (s.trained = true → Ext s (s.phase env rows t)) := by
  have hrows : rowsOf ops t = rows := by simp only [rowsOf, ho]
  have hT := h.tidy
  rcases h.mode with ha | hm
  · -- trained before
    have hloc := ha.loc t
    have mv : ∀ p : IPh V, (pend rows p).Sublist (pend rows (s.ph t)) → LocA s p →
        Calm env ops s0 { s with ph := Function.update s.ph t p } ∧
        (s.trained = true → Ext s { s with ph := Function.update s.ph t p }) := by
      intro p hp hl
      refine ⟨⟨hT.move t p rfl rfl rfl (by rw [hrows]; exact hp), .inl ⟨ha.need, ha.trained, ha.cents, ha.clusters, ?_⟩⟩,
        fun htr => .same htr rfl rfl rfl rfl⟩
      intro t'
      by_cases ht : t' = t
      · subst ht; simp only [Function.update_self]; exact hl
      · simp only [Function.update_of_ne ht]; exact ha.loc t'
    unfold phase
    simp only
    cases hp : s.ph t with
    | testLen => simp only; split <;> exact mv _ (by rw [hp]; exact List.Sublist.refl _) trivial
    | testTrained =>
      simp only [ha.trained, if_true]
      have := mv .testAdd (by rw [hp]; exact List.Sublist.refl _) trivial
      simpa only [ha.trained] using this
    | testAdd =>
      simp only [ha.trained, if_true]
      have := mv (.choose 0) (by rw [hp]; exact List.Sublist.refl _) trivial
      simpa only [ha.trained] using this
    | choose j =>
      simp only
      cases hr : rows[j]? with
      | none => exact mv _ (List.nil_sublist _) trivial
      | some r =>
        simp only
        cases hc : s.base.cache.get? r.id with
        | none => exact mv _ (List.nil_sublist _) trivial
        | some v =>
          simp only
          split
          · rename_i c h1 h2
            refine mv _ (by rw [hp]; exact List.Sublist.refl _) ?_
            obtain ⟨m, hm⟩ := hi.glob.cache _ _ hc
            have hth := hi.thr t rows ho
            have h3 := hth.st j r hr (by
              have h4 := hth.fin (.inl hb)
              have h5 : j < rows.length := (List.getElem?_eq_some_iff.1 hr).1
              rcases hq : s.base.thr t with ⟨i, pc⟩
              rw [hq] at hb h4
              simp only at hb h4
              subst hb
              simp only [stored]
              omega)
            rw [hm] at h3
            have hv : v = r.v := by simpa using congrArg (Option.map Prod.fst) h3
            simp only [LocA]
            rw [ha.clusters, hv]
            exact ha.need c (by rw [← ha.cents]; exact h2) t r (by rw [hrows]; exact List.mem_of_getElem? hr)
          · refine mv _ ?_ trivial
            rw [hp]
            simp only [pend]
            rw [pend_drop hr]
            exact List.sublist_cons_self _ _
    | addHas j k =>
      rw [hp] at hloc
      have hmem : s.clusters.mem k = true := hloc
      simp only [hmem, if_true]
      exact mv _ (by rw [hp]; exact List.Sublist.refl _) trivial
    | addPush j k =>
      simp only
      cases hr : rows[j]? with
      | none => exact ⟨h, fun htr => .same htr rfl rfl rfl rfl⟩
      | some r =>
        cases hc : s.clusters.get? k with
        | none => exact mv _ (List.nil_sublist _) trivial
        | some o =>
          refine ⟨⟨hT.push t (.choose (j + 1)) hc rfl rfl rfl ?_,
            .inl ⟨ha.need, ha.trained, ha.cents, ha.clusters, ?_⟩⟩,
            fun htr => .push htr hT.inj hT.valid hc rfl rfl rfl rfl⟩
          · rw [hrows, hp]; exact pend_drop hr
          · intro t'
            by_cases ht : t' = t
            · subst ht; simp only [Function.update_self]; trivial
            · simp only [Function.update_of_ne ht]; exact ha.loc t'
    | returned => exact ⟨h, fun htr => .same htr rfl rfl rfl rfl⟩
    | raised => exact ⟨h, fun htr => .same htr rfl rfl rfl rfl⟩
    | load _ _ => rw [hp] at hloc; exact hloc.elim
    | setCents _ _ => rw [hp] at hloc; exact hloc.elim
    | clear _ => rw [hp] at hloc; exact hloc.elim
    | has _ => rw [hp] at hloc; exact hloc.elim
    | new _ => rw [hp] at hloc; exact hloc.elim
    | push _ => rw [hp] at hloc; exact hloc.elim
    | setTrained => rw [hp] at hloc; exact hloc.elim
    | addNew _ _ => rw [hp] at hloc; exact hloc.elim
  · -- one thread inserts
    have hloc := hm.loc t
    have hoth : ∀ t', t' ≠ t → s.ph t' = .testLen ∧ rowsOf ops t' = [] := by
      intro t' ht
      cases ho' : ops t' with
      | insert rows' => exact absurd (hm.one t' t rows' rows ho' ho) ht
      | search q k => exact ⟨hm.others t' q k ho', by simp only [rowsOf, ho']⟩
    have mk : ∀ (s' : IConc V M D) (p : IPh V), s'.ph = Function.update s.ph t p → LocB s' p → ModeB ops s' := by
      intro s' p hp hl
      refine ⟨hm.one, ?_, ?_⟩
      · intro t' q k ho'
        have ht : t' ≠ t := by rintro rfl; rw [ho] at ho'; cases ho'
        rw [hp, Function.update_of_ne ht]; exact hm.others t' q k ho'
      · intro t'
        rw [hp]
        by_cases ht : t' = t
        · subst ht; rw [Function.update_self]; exact hl
        · rw [Function.update_of_ne ht, (hoth t' ht).1]; trivial
    have mv : ∀ p : IPh V, (pend rows p).Sublist (pend rows (s.ph t)) → LocB s p →
        Calm env ops s0 { s with ph := Function.update s.ph t p } ∧
        (s.trained = true → Ext s { s with ph := Function.update s.ph t p }) := by
      intro p hp hl
      refine ⟨⟨hT.move t p rfl rfl rfl (by rw [hrows]; exact hp), .inr (mk _ p rfl ?_)⟩,
        fun htr => .same htr rfl rfl rfl rfl⟩
      cases p <;> exact hl
    unfold phase
    simp only
    cases hp : s.ph t with
    | testLen => simp only; split <;> exact mv _ (by rw [hp]; exact List.Sublist.refl _) trivial
    | testTrained =>
      simp only
      split
      · exact mv _ (by rw [hp]; exact List.Sublist.refl _) trivial
      · rename_i htr
        exact mv _ (List.nil_sublist _) ⟨by simpa using htr, Nat.zero_le _, by simp⟩
    | testAdd =>
      simp only
      split
      · exact mv _ (by rw [hp]; exact List.Sublist.refl _) trivial
      · exact mv _ (List.nil_sublist _) trivial
    | load i got =>
      rw [hp] at hloc
      obtain ⟨h1, h2, h3⟩ := hloc
      simp only
      cases hid : s.base.ids[i]? with
      | none =>
        simp only
        split
        · exact mv _ (List.nil_sublist _) trivial
        · refine mv _ (List.nil_sublist _) ⟨h1, ?_⟩
          have : (((got.map Prod.fst).zip (env.kmeans (got.map Prod.snd)).2).map Prod.fst).Sublist (got.map Prod.fst) := by
            exact zip_fst_sublist _ _
          exact hnd.sublist (this.trans (h3.trans (List.take_sublist _ _)))
      | some id =>
        have hlt : i < s.base.ids.length := (List.getElem?_eq_some_iff.1 hid).1
        have hsub : ∀ v : V, ((got ++ [(id, v)]).map Prod.fst).Sublist (s.base.ids.take (i + 1)) := by
          intro v
          rw [List.take_add_one, hid, List.map_append]
          exact h3.append (List.Sublist.refl _)
        simp only
        cases hc : s.base.cache.get? id with
        | some v => exact mv _ (List.nil_sublist _) ⟨h1, hlt, hsub v⟩
        | none =>
          simp only
          cases hs : s.base.store.get? id with
          | none =>
            refine mv _ (List.nil_sublist _) ⟨h1, hlt, ?_⟩
            rw [List.take_add_one]
            exact h3.trans (List.sublist_append_left _ _)
          | some x =>
            obtain ⟨v, m⟩ := x
            refine ⟨⟨hT.move t (.load (i + 1) (got ++ [(id, v)])) rfl rfl rfl (List.nil_sublist _),
              .inr (mk _ _ rfl ⟨h1, hlt, hsub v⟩)⟩, fun htr => .same htr rfl rfl rfl rfl⟩
    | setCents c todo =>
      rw [hp] at hloc
      refine ⟨⟨hT.move t (.clear todo) rfl rfl rfl (List.nil_sublist _), .inr (mk _ _ rfl hloc)⟩, fun htr => ?_⟩
      rw [hloc.1] at htr; cases htr
    | clear todo =>
      rw [hp] at hloc
      refine ⟨⟨⟨?_, ?_, ?_, ?_, ?_, ?_, ?_⟩, .inr (mk _ _ rfl hloc.1)⟩, fun htr => ?_⟩
      · intro k k' r hk; cases hk
      · intro k r hk; cases hk
      · intro k; exact List.nodup_nil
      · intro k k' _ id hid; cases hid
      · intro t'
        by_cases ht : t' = t
        · subst ht; simp only [Function.update_self]; exact hloc.2
        · simp only [Function.update_of_ne ht]; exact hT.pnd t'
      · intro t' id _ k hk; cases hk
      · intro t' t'' hne id hid hid'
        by_cases ht : t' = t
        · have ht' : t'' ≠ t := fun e => hne (ht.trans e.symm)
          simp only [Function.update_of_ne ht', (hoth t'' ht').1, (hoth t'' ht').2, pend] at hid'
          cases hid'
        · simp only [Function.update_of_ne ht, (hoth t' ht).1, (hoth t' ht).2, pend] at hid
          cases hid
      · rw [hloc.1] at htr; cases htr
    | has todo =>
      rw [hp] at hloc
      cases todo with
      | nil => exact mv _ (List.nil_sublist _) hloc
      | cons x todo =>
        obtain ⟨id, k⟩ := x
        simp only
        split
        · exact mv _ (by rw [hp]; exact List.Sublist.refl _) hloc
        · rename_i hk
          refine mv _ (by rw [hp]; exact List.Sublist.refl _) ⟨hloc, ?_⟩
          intro x hx
          cases hx
          simpa [Dict.mem_eq] using hk
    | new todo =>
      rw [hp] at hloc
      cases todo with
      | nil => exact ⟨h, fun htr => .same htr rfl rfl rfl rfl⟩
      | cons x todo =>
        obtain ⟨id, k⟩ := x
        have hk : s.clusters.get? k = none := hloc.2 (id, k) rfl
        refine ⟨⟨hT.new t (.push ((id, k) :: todo)) hk rfl rfl rfl (by rw [hp]; rfl), .inr (mk _ _ rfl hloc.1)⟩,
          fun htr => ?_⟩
        rw [hloc.1] at htr; cases htr
    | push todo =>
      rw [hp] at hloc
      cases todo with
      | nil => exact ⟨h, fun htr => .same htr rfl rfl rfl rfl⟩
      | cons x todo =>
        obtain ⟨id, k⟩ := x
        simp only
        cases hc : s.clusters.get? k with
        | none => exact mv _ (List.nil_sublist _) trivial
        | some r =>
          refine ⟨⟨hT.push t (.has todo) hc rfl rfl rfl (by rw [hp]; rfl), .inr (mk _ _ rfl hloc)⟩, fun htr => ?_⟩
          have hf : s.trained = false := hloc
          rw [hf] at htr; cases htr
    | setTrained =>
      rw [hp] at hloc
      refine ⟨⟨hT.move t .returned rfl rfl rfl (List.nil_sublist _), .inr (mk _ _ rfl trivial)⟩, fun htr => ?_⟩
      have hf : s.trained = false := hloc
      rw [hf] at htr; cases htr
    | choose j =>
      simp only
      cases hr : rows[j]? with
      | none => exact mv _ (List.nil_sublist _) trivial
      | some r =>
        simp only
        cases hc : s.base.cache.get? r.id with
        | none => exact mv _ (List.nil_sublist _) trivial
        | some v =>
          simp only
          split
          · exact mv _ (by rw [hp]; exact List.Sublist.refl _) trivial
          · refine mv _ ?_ trivial
            rw [hp]
            simp only [pend]
            rw [pend_drop hr]
            exact List.sublist_cons_self _ _
    | addHas j k =>
      simp only
      split
      · exact mv _ (by rw [hp]; exact List.Sublist.refl _) trivial
      · rename_i hk
        refine mv _ (by rw [hp]; exact List.Sublist.refl _) ?_
        simpa [Dict.mem_eq, LocB] using hk
    | addNew j k =>
      rw [hp] at hloc
      have hk : s.clusters.get? k = none := hloc
      exact ⟨⟨hT.new t (.addPush j k) hk rfl rfl rfl (by rw [hp]; rfl), .inr (mk _ _ rfl trivial)⟩,
        fun htr => .new htr hT.valid hk rfl rfl rfl rfl⟩
    | addPush j k =>
      simp only
      cases hr : rows[j]? with
      | none => exact ⟨h, fun htr => .same htr rfl rfl rfl rfl⟩
      | some r =>
        cases hc : s.clusters.get? k with
        | none => exact mv _ (List.nil_sublist _) trivial
        | some o =>
          exact ⟨⟨hT.push t (.choose (j + 1)) hc rfl rfl rfl (by rw [hrows, hp]; exact pend_drop hr),
            .inr (mk _ _ rfl trivial)⟩, fun htr => .push htr hT.inj hT.valid hc rfl rfl rfl rfl⟩
    | returned => exact ⟨h, fun htr => .same htr rfl rfl rfl rfl⟩
    | raised => exact ⟨h, fun htr => .same htr rfl rfl rfl rfl⟩

/-! ## Steps -/

variable [LinearOrder D]

theorem fstep_ids (rows : Nat → List (FRow V M)) (b : FPar V M) (t : Nat) : b.ids <+: (b.step rows t).ids := by
  unfold FPar.step
  simp only
  rcases b.thr t with ⟨i, pc⟩
  cases pc <;> simp only <;> first
    | exact List.prefix_refl _
    | (split <;> first | exact List.prefix_refl _ | exact List.prefix_append _ _)

/-- The phase changes only the cache in the part shared with the flat index. -/
theorem cphase_same (env : IConcEnv V D) (rows : List (FRow V M)) (s : IConc V M D) (t : Nat) :
    SameFlat s.base (s.phase env rows t).base := by
  unfold phase
  simp only
  split <;> (repeat' split) <;> exact ⟨rfl, rfl, rfl, rfl⟩

theorem ids_step (env : IConcEnv V D) (ops : Nat → HOp V M) (s : IConc V M D) (t : Nat) :
    s.base.ids <+: (s.step env ops t).base.ids := by
  unfold step
  cases ho : ops t with
  | insert rows =>
    simp only
    split
    · rw [(cphase_same env rows s t).ids]
    · exact fstep_ids _ _ _
  | search q k =>
    simp only
    split <;> exact List.prefix_refl _

/-- The part shared with the flat index is that of some execution, up to the cache. -/
def FlatOk (ops : Nat → HOp V M) (s0 s : IConc V M D) : Prop :=
  ∃ f, FInv (rowsOf ops) s0.base f ∧ SameFlat f s.base

theorem flatOk_step {env : IConcEnv V D} {ops : Nat → HOp V M} {s0 s : IConc V M D}
    (hf : FreshRows (rowsOf ops) s0.base.ids) (h : FlatOk ops s0 s) (t : Nat) :
    FlatOk ops s0 (s.step env ops t) := by
  obtain ⟨f, h1, h2⟩ := h
  unfold step
  cases ho : ops t with
  | insert rows =>
    simp only
    split
    · have := cphase_same env rows s t
      exact ⟨f, h1, h2.store.trans this.store, h2.ids.trans this.ids, h2.count.trans this.count,
        h2.thr.trans this.thr⟩
    · exact ⟨f.step (rowsOf ops) t, finv_step hf h1 t, sameFlat_step h2 t⟩
  | search q k =>
    simp only
    refine ⟨f, h1, ?_⟩
    split
    · exact h2
    · exact ⟨h2.store, h2.ids, h2.count, h2.thr⟩

theorem FlatOk.nodup {ops : Nat → HOp V M} {s0 s : IConc V M D} (h : FlatOk ops s0 s) : s.base.ids.Nodup := by
  obtain ⟨f, h1, h2⟩ := h
  rw [← h2.ids]; exact h1.nodup

theorem LocB.mono {s s' : IConc V M D} (h1 : s'.trained = s.trained) (h2 : s'.clusters = s.clusters)
    (h3 : s.base.ids <+: s'.base.ids) {p : IPh V} (h : LocB s p) : LocB s' p := by
  cases p with
  | load i got =>
    obtain ⟨a, b, c⟩ := h
    refine ⟨by rw [h1]; exact a, b.trans h3.length_le, ?_⟩
    obtain ⟨x, hx⟩ := h3
    rw [← hx, List.take_append_of_le_length b]
    exact c
  | _ => simp only [LocB] at h ⊢ <;> first | (rw [h1, h2]; exact h) | (rw [h1]; exact h) | (rw [h2]; exact h)

theorem calm_step {env : IConcEnv V D} {ops : Nat → HOp V M} {s0 s : IConc V M D}
    (hi : SInv env ops s0 s) (hnd : s.base.ids.Nodup) (h : Calm env ops s0 s) (t : Nat) :
    Calm env ops s0 (s.step env ops t) ∧ (s.trained = true → Ext s (s.step env ops t)) := by
  have same : ∀ s' : IConc V M D, s.base.ids <+: s'.base.ids → s'.trained = s.trained → s'.cents = s.cents →
      s'.clusters = s.clusters → s'.lists = s.lists → s'.ph = s.ph →
      Calm env ops s0 s' ∧ (s.trained = true → Ext s s') := by
    intro s' h1 h2 h3 h4 h5 h6
    refine ⟨⟨h.tidy.move 0 (s.ph 0) h4 h5 (by rw [h6, Function.update_eq_self]) (List.Sublist.refl _), ?_⟩,
      fun htr => .same htr h2 h3 h4 h5⟩
    rcases h.mode with ha | hm
    · refine .inl ⟨ha.need, by rw [h2]; exact ha.trained, by rw [h3]; exact ha.cents, by rw [h4]; exact ha.clusters, ?_⟩
      intro t'
      rw [h6]
      have := ha.loc t'
      revert this
      cases s.ph t' <;> simp only [LocA] <;> first | exact id | (rw [h4]; exact id)
    · refine .inr ⟨hm.one, fun t' q k ho => by rw [h6]; exact hm.others t' q k ho, fun t' => ?_⟩
      rw [h6]
      exact (hm.loc t').mono h2 h4 h1
  unfold step
  cases ho : ops t with
  | insert rows =>
    simp only
    split
    · rename_i hb; exact calm_phase hi hnd h t rows ho hb
    · exact same _ (fstep_ids _ _ _) rfl rfl rfl rfl rfl
  | search q k =>
    simp only
    refine same _ ?_ rfl rfl rfl rfl rfl
    simp only
    split <;> exact List.prefix_refl _

/-! ## What a search has seen -/

/-- Which ids a search must not miss (`must`), and where they are listed (`c0`). -/
structure Duty (env : IConcEnv V D) (q : V) (must : Id → Prop) (c0 : Nat → List Id) (s : IConc V M D) : Prop where
  ids : ∀ id, must id → id ∈ s.base.ids
  probed : s.trained = true → ∀ cs ps, s.cents = some cs → probesOf env q cs = .ok ps → ∀ id, must id →
    ∃ c ∈ ps, id ∈ c0 c
  here : s.trained = true → ∀ c, ∀ id ∈ c0 c, id ∈ s.cluster c

/-- A loop of a search. -/
def LoopOk (must : Id → Prop) (c0 : Nat → List Id) (s : IConc V M D) (got : List Id) (i : Nat) : ISrc → Prop
  | .all => i ≤ s.base.ids.length ∧ got.Sublist (s.base.ids.take i) ∧ (∀ id ∈ s.base.ids.take i, id ∈ got) ∧
      ∀ id, must id → id ∈ s.base.ids
  | .list r todo => s.trained = true ∧ ∃ c dn, s.clusters.get? c = some r ∧ (dn ++ c :: todo).Nodup ∧
      i ≤ (s.cluster c).length ∧ got.Sublist (dn.flatMap s.cluster ++ (s.cluster c).take i) ∧
      (∀ c' ∈ dn, ∀ id ∈ c0 c', id ∈ got) ∧ (∀ id ∈ (s.cluster c).take i, id ∈ got) ∧
      ∀ id, must id → ∃ c' ∈ dn ++ c :: todo, id ∈ c0 c'

/-- Between two clusters. -/
def BetweenOk (must : Id → Prop) (c0 : Nat → List Id) (s : IConc V M D) (got : List Id) (todo : List Nat) : Prop :=
  s.trained = true ∧ ∃ dn, (dn ++ todo).Nodup ∧ got.Sublist (dn.flatMap s.cluster) ∧
    (∀ c ∈ dn, ∀ id ∈ c0 c, id ∈ got) ∧ ∀ id, must id → ∃ c ∈ dn ++ todo, id ∈ c0 c

/-- Nothing in `ids` with distances `ds` is missing, or `k` results are found that are not worse. -/
def Full (dist : V → V → Except Err D) (q : V) (must : Id → Prop) (k : Int) (s : IConc V M D) (ids : List Id)
    (ds : List D) : Prop :=
  0 ≤ k → ∀ id, must id → id ∈ ids ∨ (ids.length = k.toNat ∧ ∃ d, CandOk dist q s (id, d) ∧ ∀ x ∈ ds, x ≤ d)

/-- A search. -/
def SeenOk (dist : V → V → Except Err D) (must : Id → Prop) (c0 : Nat → List Id) (q : V) (k : Int)
    (s : IConc V M D) : ISr V M D → Prop
  | .start => True
  | .test => True
  | .cents => s.trained = true
  | .probe todo got => BetweenOk must c0 s (got.map Prod.fst) todo
  | .take c todo got => BetweenOk must c0 s (got.map Prod.fst) (c :: todo) ∧ (s.clusters.get? c).isSome
  | .walk src i got => LoopOk must c0 s (got.map Prod.fst) i src
  | .fetch src i got id => LoopOk must c0 s (got.map Prod.fst) i src ∧ (s.source src)[i]? = some id
  | .put src i got id _ => LoopOk must c0 s (got.map Prod.fst) i src ∧ (s.source src)[i]? = some id
  | .info todo acc => (acc.map (fun x => x.id) ++ todo.map Prod.fst).Nodup ∧
      Full dist q must k s (acc.map (fun x => x.id) ++ todo.map Prod.fst)
        (acc.map (fun x => x.dist) ++ todo.map Prod.snd)
  | .done (.hits acc) => (acc.map (fun x => x.id)).Nodup ∧
      Full dist q must k s (acc.map (fun x => x.id)) (acc.map (fun x => x.dist))
  | .done _ => False

theorem flatMap_sub {f g : Nat → List Id} (h : ∀ c, f c <+: g c) : ∀ dn : List Nat,
    (dn.flatMap f).Sublist (dn.flatMap g)
  | [] => by simp
  | c :: dn => by
    simp only [List.flatMap_cons]
    exact (h c).sublist.append (flatMap_sub h dn)

theorem take_pre {l l' : List Id} (h : l <+: l') {i : Nat} (hi : i ≤ l.length) : l'.take i = l.take i := by
  obtain ⟨x, rfl⟩ := h
  exact List.take_append_of_le_length hi

theorem get_pre {l l' : List Id} (h : l <+: l') {i : Nat} {a : Id} (hi : l[i]? = some a) : l'[i]? = some a := by
  obtain ⟨x, rfl⟩ := h
  rw [List.getElem?_append_left (List.getElem?_eq_some_iff.1 hi).1]
  exact hi

theorem source_list {s : IConc V M D} {c r : Nat} (h : s.clusters.get? c = some r) (todo : List Nat) :
    s.source (.list r todo) = s.cluster c := by
  unfold cluster; rw [h]; rfl

variable {must : Id → Prop} {c0 : Nat → List Id}

theorem BetweenOk.mono {s s' : IConc V M D} (h : s.trained = true → Ext s s') {got : List Id} {todo : List Nat}
    (hb : BetweenOk must c0 s got todo) : BetweenOk must c0 s' got todo := by
  obtain ⟨htr, dn, h1, h2, h3⟩ := hb
  have e := h htr
  exact ⟨e.trained, dn, h1, h2.trans (flatMap_sub e.pre dn), h3⟩

theorem LoopOk.mono {s s' : IConc V M D} (hids : s.base.ids <+: s'.base.ids) (h : s.trained = true → Ext s s')
    {got : List Id} {i : Nat} {src : ISrc} (hl : LoopOk must c0 s got i src) : LoopOk must c0 s' got i src := by
  cases src with
  | all =>
    obtain ⟨h1, h2, h3, h4⟩ := hl
    simp only [LoopOk]
    rw [take_pre hids h1]
    exact ⟨h1.trans hids.length_le, h2, h3, fun id hid => hids.subset (h4 id hid)⟩
  | list r todo =>
    obtain ⟨htr, c, dn, h1, h2, h3, h4, h5, h6, h7⟩ := hl
    have e := h htr
    refine ⟨e.trained, c, dn, e.ref _ _ h1, h2, h3.trans (e.pre c).length_le, ?_, h5, ?_, h7⟩
    · rw [take_pre (e.pre c) h3]
      exact h4.trans ((flatMap_sub e.pre dn).append (List.Sublist.refl _))
    · rw [take_pre (e.pre c) h3]; exact h6

theorem source_mono {s s' : IConc V M D} (hids : s.base.ids <+: s'.base.ids) (h : s.trained = true → Ext s s')
    {got : List Id} {i : Nat} {src : ISrc} (hl : LoopOk must c0 s got i src) {id : Id}
    (hg : (s.source src)[i]? = some id) : (s'.source src)[i]? = some id := by
  cases src with
  | all => exact get_pre hids hg
  | list r todo =>
    obtain ⟨htr, c, dn, h1, -⟩ := hl
    have e := h htr
    rw [source_list h1] at hg
    rw [source_list (e.ref _ _ h1)]
    exact get_pre (e.pre c) hg

theorem Full.mono {dist : V → V → Except Err D} {q : V} {k : Int} {s s' : IConc V M D} (g : Grow s s')
    {ids : List Id} {ds : List D} (h : Full dist q must k s ids ds) : Full dist q must k s' ids ds := by
  intro hk id hid
  rcases h hk id hid with h1 | ⟨h1, d, h2, h3⟩
  · exact .inl h1
  · exact .inr ⟨h1, d, h2.mono g, h3⟩

theorem SeenOk.mono {dist : V → V → Except Err D} {q : V} {k : Int} {s s' : IConc V M D} (g : Grow s s')
    (hids : s.base.ids <+: s'.base.ids) (h : s.trained = true → Ext s s') {p : ISr V M D}
    (hp : SeenOk dist must c0 q k s p) : SeenOk dist must c0 q k s' p := by
  cases p with
  | start => trivial
  | test => trivial
  | cents => exact (h hp).trained
  | probe todo got => exact BetweenOk.mono h hp
  | take c todo got =>
    have e := h hp.1.1
    refine ⟨BetweenOk.mono h hp.1, ?_⟩
    obtain ⟨r, hr⟩ := Option.isSome_iff_exists.1 hp.2
    rw [e.ref _ _ hr]; rfl
  | walk src i got => exact LoopOk.mono hids h hp
  | fetch src i got id => exact ⟨hp.1.mono hids h, source_mono hids h hp.1 hp.2⟩
  | put src i got id v => exact ⟨hp.1.mono hids h, source_mono hids h hp.1 hp.2⟩
  | info todo acc => exact ⟨hp.1, hp.2.mono g⟩
  | done r =>
    cases r with
    | hits acc => exact ⟨hp.1, hp.2.mono g⟩
    | _ => exact hp.elim

theorem numbered_fst (dist : V → Except Err D) : ∀ (i : Nat) (cs : List V) (ds : List (Nat × D)),
    numberedDists dist i cs = .ok ds → ds.map Prod.fst = List.range' i cs.length
  | i, [], ds, h => by cases h; rfl
  | i, c :: cs, ds, h => by
    unfold numberedDists at h
    split at h
    · cases h
    · split at h
      · cases h
      · rename_i l hl
        cases h
        simp only [List.map_cons, List.length_cons, List.range'_succ]
        rw [numbered_fst dist (i + 1) cs l hl]

theorem probes_nodup {env : IConcEnv V D} {q : V} {cs : List V} {ps : List Nat} (h : probesOf env q cs = .ok ps) :
    ps.Nodup := by
  unfold probesOf at h
  split at h
  · cases h
  · rename_i ds hds
    cases h
    have h1 := numbered_fst _ _ _ _ hds
    have h2 : (ds.map Prod.fst).Nodup := by rw [h1]; exact List.nodup_range'
    have h3 : ((pySortBy Prod.snd ds).map Prod.fst).Nodup := ((pySortBy_perm Prod.snd ds).map _).nodup_iff.2 h2
    exact h3.sublist ((sliceTo_sublist _ _).map _)

theorem probes_defined {env : IConcEnv V D} {q : V} (hd : ∀ v, ∃ d, env.dist q v = .ok d) (cs : List V) :
    ∃ ps, probesOf env q cs = .ok ps := by
  have : ∀ i, ∃ ds, numberedDists (env.dist q) i cs = .ok ds := by
    induction cs with
    | nil => exact fun i => ⟨[], rfl⟩
    | cons c cs ih =>
      intro i
      obtain ⟨d, h1⟩ := hd c
      obtain ⟨l, h2⟩ := ih (i + 1)
      exact ⟨(i, d) :: l, by simp only [numberedDists, h1, h2]⟩
  obtain ⟨ds, h⟩ := this 0
  exact ⟨_, by simp only [probesOf, h]; rfl⟩

theorem flatMap_nodup {rows : Nat → List (FRow V M)} {s : IConc V M D} (h : Tidy rows s) : ∀ dn : List Nat,
    dn.Nodup → (dn.flatMap s.cluster).Nodup
  | [], _ => by simp
  | c :: dn, hn => by
    simp only [List.flatMap_cons]
    rw [List.nodup_cons] at hn
    refine List.nodup_append.2 ⟨h.nodup c, flatMap_nodup h dn hn.2, ?_⟩
    intro a ha b hb
    rintro rfl
    obtain ⟨c', hc', hb'⟩ := List.mem_flatMap.1 hb
    refine h.disj c c' ?_ a ha hb'
    rintro rfl
    exact hn.1 hc'

/-- Sorting and cutting at the end of a search. -/
theorem finish_ok {dist : V → V → Except Err D} {q : V} {k : Int} {s : IConc V M D} {got : List (Id × D)}
    (hc : ∀ x ∈ got, CandOk dist q s x) (hn : (got.map Prod.fst).Nodup) (hm : ∀ id, must id → id ∈ got.map Prod.fst) :
    SeenOk dist must c0 q k s (.info (sliceTo (pySortBy Prod.snd got) k) []) := by
  have hp := pySortBy_perm Prod.snd got
  have hs := pySortBy_sorted Prod.snd got
  simp only [SeenOk, List.map_nil, List.nil_append]
  refine ⟨?_, ?_⟩
  · exact ((hp.map Prod.fst).nodup_iff.2 hn).sublist ((sliceTo_sublist _ _).map _)
  · intro hk id hid
    rw [sliceTo_nonneg _ hk]
    obtain ⟨x, hx, rfl⟩ := List.mem_map.1 (hm id hid)
    have hx' := hp.mem_iff.2 hx
    rw [← List.take_append_drop k.toNat (pySortBy Prod.snd got)] at hx' hs
    rcases List.mem_append.1 hx' with h1 | h1
    · exact .inl (List.mem_map_of_mem h1)
    · refine .inr ⟨?_, x.2, hc x hx, ?_⟩
      · have : 0 < (List.drop k.toNat (pySortBy Prod.snd got)).length := List.length_pos_of_mem h1
        rw [List.length_drop] at this
        rw [List.length_map, List.length_take]
        omega
      · intro d hd
        obtain ⟨y, hy, rfl⟩ := List.mem_map.1 hd
        exact (List.pairwise_append.1 hs).2.2 y hy x h1

theorem source_kept {ops : Nat → HOp V M} {s0 s : IConc V M D} (g : Glob ops s0 s) {src : ISrc} {i : Nat} {id : Id}
    (h : (s.source src)[i]? = some id) : Kept s id := by
  cases src with
  | all => exact g.ids id (List.mem_of_getElem? h)
  | list r todo =>
    simp only [source] at h
    cases hl : s.lists[r]? with
    | none => rw [hl] at h; simp at h
    | some l =>
      rw [hl] at h
      exact g.lists l (List.mem_of_getElem? hl) id (List.mem_of_getElem? h)

theorem loop_next {s : IConc V M D} {got : List (Id × D)} {i : Nat} {src : ISrc} {id : Id} {d : D}
    (h : LoopOk must c0 s (got.map Prod.fst) i src) (hi : (s.source src)[i]? = some id) :
    LoopOk must c0 s ((got ++ [(id, d)]).map Prod.fst) (i + 1) src := by
  rw [List.map_append]
  cases src with
  | all =>
    obtain ⟨h1, h2, h3, h4⟩ := h
    have hi' : s.base.ids[i]? = some id := hi
    simp only [LoopOk]
    rw [List.take_add_one, hi']
    refine ⟨(List.getElem?_eq_some_iff.1 hi').1, h2.append (List.Sublist.refl _), ?_, h4⟩
    intro x hx
    rcases List.mem_append.1 hx with h5 | h5
    · exact List.mem_append_left _ (h3 x h5)
    · exact List.mem_append_right _ (by simpa using h5)
  | list r todo =>
    obtain ⟨htr, c, dn, h1, h2, h3, h4, h5, h6, h7⟩ := h
    rw [source_list h1] at hi
    refine ⟨htr, c, dn, h1, h2, (List.getElem?_eq_some_iff.1 hi).1, ?_, ?_, ?_, h7⟩
    · rw [List.take_add_one, hi, ← List.append_assoc]
      exact h4.append (List.Sublist.refl _)
    · intro c' hc' x hx; exact List.mem_append_left _ (h5 c' hc' x hx)
    · intro x hx
      rw [List.take_add_one, hi] at hx
      rcases List.mem_append.1 hx with h8 | h8
      · exact List.mem_append_left _ (h6 x h8)
      · exact List.mem_append_right _ (by simpa using h8)

/-- A step of a search. -/
theorem seen_step {env : IConcEnv V D} {ops : Nat → HOp V M} {s0 s : IConc V M D} (g : Glob ops s0 s)
    (hnd : s.base.ids.Nodup) (hT : s.trained = true → Tidy (rowsOf ops) s) {q : V} {k : Int}
    (hD : Duty env q must c0 s) (hd : ∀ v, ∃ d, env.dist q v = .ok d) {p : ISr V M D}
    (hs : SrOk env.dist q k s p) (h : SeenOk env.dist must c0 q k s p) :
    SeenOk env.dist must c0 q k s (s.search env q k p).1 := by
  cases p with
  | start =>
    simp only [search]
    split
    · rename_i he
      refine ⟨List.nodup_nil, fun _ id hid => ?_⟩
      have := hD.ids id hid
      rw [List.isEmpty_iff.1 he] at this
      cases this
    · trivial
  | test =>
    simp only [search]
    split
    · rename_i htr; exact htr
    · exact ⟨Nat.zero_le _, by simp, by simp, hD.ids⟩
  | cents =>
    simp only [search]
    obtain ⟨cs, hc⟩ := Option.isSome_iff_exists.1 hs
    obtain ⟨ps, hps⟩ := probes_defined (env := env) hd cs
    have hn := probes_nodup hps
    simp only [hc, hps]
    exact ⟨h, [], by simpa using hn, by simp, by simp, fun id hid => by simpa using hD.probed h cs ps hc hps id hid⟩
  | probe todo got =>
    obtain ⟨htr, dn, h1, h2, h3, h4⟩ := h
    cases todo with
    | nil =>
      simp only [List.append_nil] at h1 h4
      refine finish_ok hs ((flatMap_nodup (hT htr) dn h1).sublist h2) ?_
      intro id hid
      obtain ⟨c, hc, hi⟩ := h4 id hid
      exact h3 c hc id hi
    | cons c todo =>
      simp only [search]
      split
      · rename_i hm
        exact ⟨⟨htr, dn, h1, h2, h3, h4⟩, hm⟩
      · rename_i hm
        have hm' : s.clusters.get? c = none := by simpa [Dict.mem_eq] using hm
        have he : s.cluster c = [] := by unfold cluster; rw [hm']
        refine ⟨htr, dn ++ [c], by simpa using h1, by simpa [he] using h2, ?_, by simpa using h4⟩
        intro c' hc' id hid
        rcases List.mem_append.1 hc' with h5 | h5
        · exact h3 c' h5 id hid
        · rw [List.mem_singleton] at h5
          subst h5
          have := hD.here htr c' id hid
          rw [he] at this; cases this
  | take c todo got =>
    obtain ⟨⟨htr, dn, h1, h2, h3, h4⟩, h5⟩ := h
    obtain ⟨r, hr⟩ := Option.isSome_iff_exists.1 h5
    simp only [search, hr]
    exact ⟨htr, c, dn, hr, h1, Nat.zero_le _, by simpa using h2, h3, by simp, h4⟩
  | walk src i got =>
    simp only [search]
    cases hi : (s.source src)[i]? with
    | none =>
      cases src with
      | all =>
        obtain ⟨h1, h2, h3, h4⟩ := h
        have hlen : s.base.ids.length ≤ i := List.getElem?_eq_none_iff.1 hi
        rw [List.take_of_length_le hlen] at h2 h3
        exact finish_ok hs (hnd.sublist h2) (fun id hid => h3 id (h4 id hid))
      | list r todo =>
        obtain ⟨htr, c, dn, h1, h2, h3, h4, h5, h6, h7⟩ := h
        rw [source_list h1] at hi
        have hlen : (s.cluster c).length ≤ i := List.getElem?_eq_none_iff.1 hi
        rw [List.take_of_length_le hlen] at h4 h6
        refine ⟨htr, dn ++ [c], by simpa using h2, by simpa using h4, ?_, by simpa using h7⟩
        intro c' hc' id hid
        rcases List.mem_append.1 hc' with h8 | h8
        · exact h5 c' h8 id hid
        · rw [List.mem_singleton] at h8
          subst h8
          exact h6 id (hD.here htr c' id hid)
    | some id =>
      simp only
      cases hc : s.base.cache.get? id with
      | none => exact ⟨h, hi⟩
      | some v =>
        obtain ⟨d, hdv⟩ := hd v
        simp only [hdv]
        exact loop_next h hi
  | fetch src i got id =>
    obtain ⟨x, hx⟩ := source_kept g h.2
    simp only [search, hx]
    exact h
  | put src i got id v =>
    obtain ⟨d, hdv⟩ := hd v
    simp only [search, hdv]
    exact loop_next h.1 h.2
  | info todo acc =>
    cases todo with
    | nil =>
      simp only [search]
      simpa [SeenOk] using h
    | cons x todo =>
      obtain ⟨id, d⟩ := x
      obtain ⟨v, m, hm, -⟩ := hs.1 (id, d) List.mem_cons_self
      simp only at hm
      simp only [search, hm]
      simpa [SeenOk] using h
  | done r => exact h

theorem phase_sr (env : IConcEnv V D) (rows : List (FRow V M)) (s : IConc V M D) (t : Nat) :
    (s.phase env rows t).sr = s.sr := by
  unfold phase
  simp only
  split <;> (repeat' split) <;> rfl

theorem phase_cents (env : IConcEnv V D) (rows : List (FRow V M)) (s : IConc V M D) (t : Nat)
    (h : s.cents.isSome) : (s.phase env rows t).cents.isSome := by
  unfold phase
  simp only
  split <;> (repeat' split) <;> first | exact h | rfl

theorem step_sr_other {env : IConcEnv V D} {ops : Nat → HOp V M} (s : IConc V M D) {t u : Nat} (h : t ≠ u) :
    (s.step env ops u).sr t = s.sr t := by
  unfold step
  cases ops u with
  | insert rows =>
    simp only
    split
    · rw [phase_sr]
    · rfl
  | search q k => simp only [Function.update_of_ne h]

theorem step_grow {env : IConcEnv V D} {ops : Nat → HOp V M} {s0 s : IConc V M D}
    (hf : FreshRows (rowsOf ops) s0.base.store.keys) (h : SInv env ops s0 s) (u : Nat) :
    Grow s (s.step env ops u) := by
  unfold step
  cases ho : ops u with
  | search q k =>
    simp only
    refine ⟨fun id x hx => ?_, fun hc => hc⟩
    simp only
    split <;> exact hx
  | insert rows =>
    simp only
    split
    · exact ⟨fun id x hx => by rw [← (cphase_same env rows s u).store]; exact hx, phase_cents env rows s u⟩
    · refine ⟨fun id x hx => ?_, fun hc => hc⟩
      simp only
      unfold FPar.step
      simp only
      split <;> (try split) <;> try exact hx
      rename_i r hr
      simp only [Dict.get?_set]
      split
      · rename_i e
        subst e
        rcases h.glob.orig _ _ hx with h1 | ⟨t', r', h1, h2, h3⟩
        · exact absurd ((Dict.mem_keys _ _).2 (by rw [h1]; rfl)) (hf.new u r (List.mem_of_getElem? hr))
        · obtain ⟨j, hj⟩ := List.getElem?_of_mem h1
          obtain ⟨rfl, rfl⟩ := hf.inj hj hr h2
          rw [hr] at hj; cases hj
          rw [h3]
      · exact hx

/-- A search beside the others. -/
theorem seen_run {env : IConcEnv V D} {ops : Nat → HOp V M} {s0 : IConc V M D}
    (hf : FreshRows (rowsOf ops) s0.base.store.keys) (hf' : FreshRows (rowsOf ops) s0.base.ids)
    (h0 : SInv env ops s0 s0) (hF : FlatOk ops s0 s0) (t : Nat) (q : V) (k : Int) (ho : ops t = .search q k)
    (hd : ∀ v, ∃ d, env.dist q v = .ok d) (hstart : s0.sr t = .start) (sched : List Nat)
    (hT : ∀ pre, pre <+: sched → (run env ops s0 pre).trained = true → Tidy (rowsOf ops) (run env ops s0 pre) ∧
      ∀ t', Ext (run env ops s0 pre) ((run env ops s0 pre).step env ops t'))
    (hD : ∀ pre, pre <+: sched → Duty env q must c0 (run env ops s0 pre)) :
    SeenOk env.dist must c0 q k (run env ops s0 sched) ((run env ops s0 sched).sr t) := by
  have key : SInv env ops s0 (run env ops s0 sched) ∧ FlatOk ops s0 (run env ops s0 sched) ∧
      SeenOk env.dist must c0 q k (run env ops s0 sched) ((run env ops s0 sched).sr t) := by
    induction sched using List.reverseRecOn with
    | nil => exact ⟨h0, hF, by simp only [run, List.foldl_nil, hstart]; trivial⟩
    | append_singleton l u ih =>
      have hpre : l <+: l ++ [u] := List.prefix_append _ _
      obtain ⟨i1, i2, i3⟩ := ih (fun pre hp => hT pre (hp.trans hpre)) (fun pre hp => hD pre (hp.trans hpre))
      have hrun : run env ops s0 (l ++ [u]) = (run env ops s0 l).step env ops u := by
        unfold run; rw [List.foldl_append]; rfl
      have hT' := hT l hpre
      have hD' := hD l hpre
      rw [hrun]
      generalize run env ops s0 l = s at i1 i2 i3 hT' hD' ⊢
      have j1 := sinv_step hf i1 u
      have j2 := flatOk_step (env := env) hf' i2 u
      refine ⟨j1, j2, ?_⟩
      have gr : Grow s (s.step env ops u) := step_grow hf i1 u
      have hid := ids_step env ops s u
      have hext : s.trained = true → Ext s (s.step env ops u) := fun htr => (hT' htr).2 u
      by_cases hu : u = t
      · subst hu
        have : (s.step env ops u).sr u = (s.search env q k (s.sr u)).1 := by
          unfold step
          rw [ho]
          simp only [Function.update_self]
        rw [this]
        exact (seen_step i1.glob i2.nodup (fun htr => (hT' htr).1) hD' hd (i1.sr u q k ho) i3).mono gr hid hext
      · have : (s.step env ops u).sr t = s.sr t := step_sr_other s (fun e => hu e.symm)
        rw [this]
        exact i3.mono gr hid hext
  exact key.2.2

end Valori.IConc
