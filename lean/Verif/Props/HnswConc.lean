import Verif.Lemmas.HnswConc
import Mathlib.Logic.Function.Iterate
import Mathlib.Data.List.Induction

/-!
# C234, C235: threads that insert, search, update and delete on one HNSW index
-/

namespace Valori.Props
open Valori Spec GConc
variable {V M D : Type} [LinearOrder D]

/-! ## Every call keeps to its own ids -/

section
variable {env : HParEnv V D} {ops : Nat → FOp V M} {s0 : GConc V M D}

theorem gkeys (hk : KeysOnce s0) (sched : List Nat) : KeysOnce (s0.run env ops sched) := by
  induction sched using List.reverseRecOn with
  | nil => exact hk
  | append_singleton sched t ih => rw [run_snocG]; exact (step_eff env ops _ t).keys ih

/-- **C235** An id that no call inserts, updates or deletes keeps its vector, its metadata and its nodes at every
moment. -/
theorem C235_untouched {id : Id} (hw : ∀ t, ¬ opWrites (ops t) id) (hd : ∀ t, ¬ opDeletes (ops t) id)
    (sched : List Nat) :
    (s0.run env ops sched).store.get? id = s0.store.get? id ∧
    (s0.run env ops sched).vectors.get? id = s0.vectors.get? id ∧
    ∀ l, (s0.run env ops sched).nodeRef l id = s0.nodeRef l id := by
  have hn : ∀ t, ¬ opInserts (ops t) id := by
    intro t h; apply hw t
    cases ho : ops t <;> simp only [ho, opInserts, opWrites] at h ⊢
    exact h
  have h : SameAt id s0 (s0.run env ops sched) := by
    induction sched using List.reverseRecOn with
    | nil => exact ⟨rfl, rfl, fun _ => rfl⟩
    | append_singleton sched t ih =>
      rw [run_snocG]
      exact ih.trans ((step_eff env ops _ t).same (hw t) (hn t) (hd t))
  exact ⟨h.store, h.vectors, h.node⟩

/-- Another thread writes or deletes an id. -/
def OthersTouch (ops : Nat → FOp V M) (t : Nat) (id : Id) : Prop :=
  ∃ t', t' ≠ t ∧ (opWrites (ops t') id ∨ opDeletes (ops t') id)

theorem others_same {t t' : Nat} {id : Id} (h : ¬ OthersTouch ops t id) (ht : t' ≠ t) (s : GConc V M D) :
    SameAt id s (s.step env ops t') := by
  have hw : ¬ opWrites (ops t') id := fun x => h ⟨t', ht, .inl x⟩
  refine (step_eff env ops s t').same hw ?_ (fun x => h ⟨t', ht, .inr x⟩)
  intro x; apply hw
  cases ho : ops t' <;> simp only [ho, opInserts, opWrites] at x ⊢
  exact x

theorem at_ins (h0 : ∀ t, s0.thr t = .start) {t : Nat} {rows : List (FRow V M)} (ho : ops t = .insert rows)
    (hn : (rows.map FRow.id).Nodup) (hx : ∀ r ∈ rows, ¬ OthersTouch ops t r.id) (sched : List Nat) :
    AtIns env rows t (s0.run env ops sched) ((s0.run env ops sched).thr t) := by
  induction sched using List.reverseRecOn with
  | nil => simp only [run, List.foldl_nil, h0]; trivial
  | append_singleton sched t' ih =>
    rw [run_snocG]
    by_cases e : t' = t
    · subst e; exact ins_step ho hn ih
    · rw [step_thr env ops _ (fun x => e x.symm)]
      refine ih.same fun id hid => ?_
      obtain ⟨r, hr, rfl⟩ := List.mem_map.1 hid
      exact others_same (hx r hr) e _

/-- **C235** An insertion that has returned gave the ids of its rows, and at every later moment all of them are
there, with vector and metadata and with nodes in all their levels, if no other call touches these ids. -/
theorem C235_inserted (h0 : ∀ t, s0.thr t = .start) {t : Nat} {rows : List (FRow V M)} (ho : ops t = .insert rows)
    (hn : (rows.map FRow.id).Nodup) (hx : ∀ r ∈ rows, ¬ OthersTouch ops t r.id) {sched : List Nat} {r : FRes M D}
    (hd : (s0.run env ops sched).thr t = .done r) (hr : r ≠ .raised) :
    r = .ids (rows.map FRow.id) ∧ ∀ j x, rows[j]? = some x →
      (s0.run env ops sched).store.get? x.id = some (x.v, x.m) ∧
      (s0.run env ops sched).vectors.get? x.id = some x.v ∧
      ∀ l ≤ env.level t j, ((s0.run env ops sched).nodeRef l x.id).isSome := by
  have h := at_ins (env := env) h0 ho hn hx sched
  rw [hd] at h
  cases r with
  | ids l => exact ⟨by rw [h.1], h.2⟩
  | raised => exact absurd rfl hr
  | hits l => exact h.elim
  | flag b => exact h.elim

/-- Some call writes an id. -/
def SomeWrites (ops : Nat → FOp V M) (id : Id) : Prop := ∃ t, opWrites (ops t) id

theorem at_del (h0 : ∀ t, s0.thr t = .start) (hk : KeysOnce s0) {t : Nat} {l : List Id} (ho : ops t = .delete l)
    (sched : List Nat) :
    AtDel (SomeWrites ops) l (s0.run env ops sched) ((s0.run env ops sched).thr t) := by
  induction sched using List.reverseRecOn with
  | nil => simp only [run, List.foldl_nil, h0]; trivial
  | append_singleton sched t' ih =>
    rw [run_snocG]
    by_cases e : t' = t
    · subst e; exact del_step ho (gkeys hk sched) ih
    · rw [step_thr env ops _ (fun x => e x.symm)]
      refine ih.eff (step_eff env ops _ t') (fun id h => ⟨t', h⟩) (fun id h => ⟨t', ?_⟩)
      cases ho' : ops t' <;> simp only [ho', opInserts, opWrites] at h ⊢
      exact h

/-- **C235** A deletion that has returned: an id that no call inserts or updates is gone for good, from the storage,
from the index and from every level, however many threads delete it. -/
theorem C235_deleted (h0 : ∀ t, s0.thr t = .start) (hk : KeysOnce s0) {t : Nat} {l : List Id} (ho : ops t = .delete l)
    {sched : List Nat} {r : FRes M D} (hd : (s0.run env ops sched).thr t = .done r) (hr : r ≠ .raised) {id : Id}
    (hm : id ∈ l) (hw : ∀ t', ¬ opWrites (ops t') id) :
    (s0.run env ops sched).store.get? id = none ∧ (s0.run env ops sched).vectors.get? id = none ∧
    ∀ n, (s0.run env ops sched).nodeRef n id = none := by
  have h := at_del (env := env) h0 hk ho sched
  rw [hd] at h
  cases r with
  | flag b => exact h id hm (fun ⟨t', x⟩ => hw t' x)
  | raised => exact absurd rfl hr
  | hits l => exact h.elim
  | ids l => exact h.elim

theorem at_upd (h0 : ∀ t, s0.thr t = .start) {t : Nat} {id : Id} {v : V} {m : Option M} (ho : ops t = .update id v m)
    (hx : ¬ OthersTouch ops t id) (sched : List Nat) :
    AtUpd id v m s0 (s0.run env ops sched) ((s0.run env ops sched).thr t) := by
  induction sched using List.reverseRecOn with
  | nil => simp only [run, List.foldl_nil, h0]; exact ⟨rfl, rfl⟩
  | append_singleton sched t' ih =>
    rw [run_snocG]
    by_cases e : t' = t
    · subst e; exact upd_step ho ih
    · rw [step_thr env ops _ (fun x => e x.symm)]
      exact ih.same (others_same hx e _)

/-- **C235** An update never raises.  When it has returned it gave `True` exactly if the id was stored, and then the
new vector and the new metadata are in place, if no other call touches the id. -/
theorem C235_updated (h0 : ∀ t, s0.thr t = .start) {t : Nat} {id : Id} {v : V} {m : Option M}
    (ho : ops t = .update id v m) (hx : ¬ OthersTouch ops t id) {sched : List Nat} {r : FRes M D}
    (hd : (s0.run env ops sched).thr t = .done r) :
    r = .flag (s0.store.get? id).isSome ∧
    (s0.run env ops sched).store.get? id = (s0.store.get? id).map (fun _ => (v, m)) ∧
    ((s0.store.get? id).isSome →
      (s0.run env ops sched).vectors.get? id = (s0.vectors.get? id).map fun _ => v) ∧
    (s0.store.get? id = none → (s0.run env ops sched).vectors.get? id = s0.vectors.get? id) := by
  have h := at_upd (env := env) h0 ho hx sched
  rw [hd] at h
  rcases h with ⟨h1, h2, h3, h4⟩ | ⟨h1, h2, h3, h4⟩
  · obtain ⟨x, hx'⟩ := Option.isSome_iff_exists.1 h2
    refine ⟨by rw [h1, h2], by rw [h3, hx']; rfl, fun _ => h4, fun e => ?_⟩
    rw [hx'] at e; cases e
  · refine ⟨by rw [h1, h2]; rfl, by rw [h3, h2]; rfl, fun e => ?_, fun _ => h4⟩
    rw [h2] at e; cases e

end

/-! ## When all calls are over -/

/-- An index at rest: the vectors are those of the storage, every node has a vector. -/
structure AtRest (s : GConc V M D) : Prop where
  agree : ∀ id, s.vectors.get? id = (s.store.get? id).map Prod.fst
  nodes : ∀ l id, (s.nodeRef l id).isSome → (s.vectors.get? id).isSome
  levels : s.vectors ≠ [] → s.levels ≠ []
  keys : KeysOnce s

/-- No id is written by two calls, or written by one and deleted by another; new rows have different ids. -/
structure NoClash (ops : Nat → FOp V M) : Prop where
  rows : ∀ t rows, ops t = .insert rows → (rows.map FRow.id).Nodup
  apart : ∀ t id, opWrites (ops t) id → ¬ OthersTouch ops t id

section
variable {env : HParEnv V D} {ops : Nat → FOp V M} {s0 : GConc V M D}

theorem glevels (sched : List Nat) : s0.levels.length ≤ (s0.run env ops sched).levels.length := by
  induction sched using List.reverseRecOn with
  | nil => exact le_refl _
  | append_singleton sched t ih => rw [run_snocG]; exact ih.trans (step_eff env ops _ t).levels

theorem gnodes {id : Id} (hn : ∀ t, ¬ opInserts (ops t) id) (hd : ∀ t, ¬ opDeletes (ops t) id) (sched : List Nat)
    (l : Nat) : (s0.run env ops sched).nodeRef l id = s0.nodeRef l id := by
  induction sched using List.reverseRecOn with
  | nil => rfl
  | append_singleton sched t ih => rw [run_snocG, (step_eff env ops _ t).node (hn t) (hd t), ih]

/-- **C235** Calls that do not clash, all of which returned without raising, leave the index at rest, whatever the
schedule; searches may still be under way or may have raised. -/
theorem C235_at_rest (h0 : ∀ t, s0.thr t = .start) (hs : AtRest s0) (hc : NoClash ops) {sched : List Nat}
    (hd : ∀ t, (∀ q k, ops t ≠ .search q k) → ∃ r, (s0.run env ops sched).thr t = .done r ∧ r ≠ .raised) :
    AtRest (s0.run env ops sched) := by
  set e := s0.run env ops sched with he
  have key : ∀ id, e.vectors.get? id = (e.store.get? id).map Prod.fst ∧
      (∀ l, (e.nodeRef l id).isSome → (e.vectors.get? id).isSome) ∧
      ((e.vectors.get? id).isSome → e.levels ≠ []) := by
    intro id
    have lv0 : (s0.vectors.get? id).isSome → e.levels ≠ [] := by
      intro h hnil
      have h1 : s0.levels ≠ [] := hs.levels (by intro e; rw [e] at h; cases h)
      have h2 := glevels (env := env) (ops := ops) (s0 := s0) sched
      rw [← he, hnil] at h2
      exact h1 (List.length_eq_zero_iff.1 (by simpa using h2))
    by_cases hw : ∃ t, opWrites (ops t) id
    · obtain ⟨t, ht⟩ := hw
      have hx := hc.apart t id ht
      cases ho : ops t with
      | insert rows =>
        rw [ho] at ht
        obtain ⟨x, hxm, rfl⟩ := List.mem_map.1 ht
        obtain ⟨r, hr1, hr2⟩ := hd t (by intro q k h; rw [ho] at h; cases h)
        have h := C235_inserted (env := env) h0 ho (hc.rows t rows ho)
          (fun y hy => hc.apart t y.id (by rw [ho]; exact List.mem_map.2 ⟨y, hy, rfl⟩)) hr1 hr2
        obtain ⟨j, hj⟩ := List.mem_iff_getElem?.1 hxm
        obtain ⟨h1, h2, h3⟩ := h.2 j x hj
        rw [← he] at h1 h2 h3
        refine ⟨by rw [h1, h2]; rfl, fun _ _ => by rw [h2]; rfl, fun _ hnil => ?_⟩
        have := h3 0 (Nat.zero_le _)
        simp [nodeRef, hnil] at this
      | update i v m =>
        rw [ho] at ht
        cases ht
        obtain ⟨r, hr1, hr2⟩ := hd t (by intro q k h; rw [ho] at h; cases h)
        obtain ⟨-, h1, h2, h3⟩ := C235_updated (env := env) h0 ho hx hr1
        rw [← he] at h1 h2 h3
        have hn : ∀ l, e.nodeRef l id = s0.nodeRef l id := by
          intro l
          refine gnodes ?_ ?_ sched l
          · intro t' h'
            by_cases e' : t' = t
            · subst e'; rw [ho] at h'; exact h'
            · refine hx ⟨t', e', .inl ?_⟩
              cases ho' : ops t' <;> simp only [ho', opInserts, opWrites] at h' ⊢
              exact h'
          · intro t' h'
            by_cases e' : t' = t
            · subst e'; rw [ho] at h'; exact h'
            · exact hx ⟨t', e', .inr h'⟩
        have ha := hs.agree id
        cases hst : s0.store.get? id with
        | none =>
          rw [hst] at h1 ha
          have h4 := h3 hst
          refine ⟨by rw [h4, h1, ha]; rfl, fun l hl => ?_, fun h => lv0 (by rwa [h4] at h)⟩
          rw [hn] at hl; rw [h4]; exact hs.nodes l id hl
        | some x =>
          rw [hst] at h1 ha
          have h4 := h2 (by rw [hst]; rfl)
          rw [ha] at h4
          refine ⟨by rw [h4, h1]; rfl, fun l hl => by rw [h4]; rfl, fun _ => lv0 (by rw [ha]; rfl)⟩
      | search q k => rw [ho] at ht; exact ht.elim
      | delete l => rw [ho] at ht; exact ht.elim
    · have hw' : ∀ t, ¬ opWrites (ops t) id := fun t h => hw ⟨t, h⟩
      by_cases hdl : ∃ t, opDeletes (ops t) id
      · obtain ⟨t, ht⟩ := hdl
        cases ho : ops t with
        | delete l =>
          rw [ho] at ht
          obtain ⟨r, hr1, hr2⟩ := hd t (by intro q k h; rw [ho] at h; cases h)
          obtain ⟨h1, h2, h3⟩ := C235_deleted (env := env) h0 hs.keys ho hr1 hr2 ht hw'
          rw [← he] at h1 h2 h3
          exact ⟨by rw [h1, h2]; rfl, fun l hl => by (rw [h3] at hl; cases hl), fun h => by (rw [h2] at h; cases h)⟩
        | insert rows => rw [ho] at ht; exact ht.elim
        | search q k => rw [ho] at ht; exact ht.elim
        | update i v m => rw [ho] at ht; exact ht.elim
      · obtain ⟨h1, h2, h3⟩ := C235_untouched (env := env) (s0 := s0) hw' (fun t h => hdl ⟨t, h⟩) sched
        rw [← he] at h1 h2 h3
        exact ⟨by rw [h1, h2]; exact hs.agree id, fun l hl => by (rw [h3] at hl; rw [h2]; exact hs.nodes l id hl),
          fun h => lv0 (by rwa [h2] at h)⟩
  refine ⟨fun id => (key id).1, fun l id => (key id).2.1 l, fun hne => ?_, gkeys hs.keys sched⟩
  cases hv : e.vectors with
  | nil => exact absurd hv hne
  | cons x xs =>
    refine (key x.1).2.2 ?_
    rw [hv]; simp [Dict.get?]

end

/-! ## A search by itself -/

/-- The next place of a search that runs alone. -/
def nextAlone (env : HParEnv V D) (q : V) (k : Int) (s : GConc V M D) : GAt M D → GAt M D
  | .start => if s.vectors.isEmpty then .done (.hits []) else .srch .limit
  | .srch p => stepSr env q k s p
  | a => a

theorem alone_step {env : HParEnv V D} {ops : Nat → FOp V M} {t : Nat} {q : V} {k : Int} (ho : ops t = .search q k)
    (s : GConc V M D) :
    s.step env ops t = { s with thr := Function.update s.thr t (nextAlone env q k s (s.thr t)) } := by
  cases ha : s.thr t <;> simp only [step, ho, ha, nextAlone] <;> (rw [← ha, Function.update_eq_self])

theorem alone_run {env : HParEnv V D} {ops : Nat → FOp V M} {t : Nat} {q : V} {k : Int} (ho : ops t = .search q k)
    (s : GConc V M D) (n : Nat) :
    s.run env ops (List.replicate n t) =
      { s with thr := Function.update s.thr t ((nextAlone env q k s)^[n] (s.thr t)) } := by
  induction n with
  | zero => simp [run]
  | succ n ih =>
    rw [List.replicate_succ', run_snocG, ih, alone_step ho, Function.iterate_succ_apply']
    simp only [Function.update_self, Function.update_idem]
    have hq : ∀ (s' : GConc V M D) (f : Nat → GAt M D) (a : GAt M D),
        nextAlone env q k { s' with thr := f } a = nextAlone env q k s' a := by
      intro s' f a
      cases a with
      | srch p =>
        cases p with
        | walk k cl cands todo found => cases todo <;> rfl
        | info todo acc => cases todo <;> rfl
        | _ => rfl
      | _ => rfl
    rw [hq]

section
variable {env : HParEnv V D} {q : V} {k₀ : Int} {s : GConc V M D}

/-- The search comes to an end from this place. -/
def Ends (env : HParEnv V D) (q : V) (k : Int) (s : GConc V M D) (a : GAt M D) : Prop :=
  ∃ n r, (nextAlone env q k s)^[n] a = .done r

theorem Ends.back {a : GAt M D} (h : Ends env q k₀ s (nextAlone env q k₀ s a)) : Ends env q k₀ s a := by
  obtain ⟨n, r, h⟩ := h
  exact ⟨n + 1, r, by rw [Function.iterate_succ_apply]; exact h⟩

theorem ends_done (r : FRes M D) : Ends env q k₀ s (.done r) := ⟨0, r, rfl⟩

theorem ends_info (todo : List (Id × D)) (acc : List (Hit D M)) : Ends env q k₀ s (.srch (.info todo acc)) := by
  induction todo generalizing acc with
  | nil => exact Ends.back (ends_done _)
  | cons x todo ih =>
    obtain ⟨id, d⟩ := x
    apply Ends.back
    simp only [nextAlone, stepSr]
    split
    · exact ends_done _
    · exact ih _

theorem ends_nbr {k : Int} {cl : Nat} {cands todo : List (Id × D)}
    (hw : ∀ found, Ends env q k₀ s (.srch (.walk k cl cands todo found))) (r : Nat) (n : Nat) :
    ∀ (j : Nat) (found : List (Id × D)), (s.content r).length - j = n →
      Ends env q k₀ s (.srch (.nbr k cl cands todo found r j)) := by
  induction n with
  | zero =>
    intro j found hj
    apply Ends.back
    simp only [nextAlone, stepSr]
    rw [List.getElem?_eq_none (by omega)]
    exact hw _
  | succ n ih =>
    intro j found hj
    apply Ends.back
    simp only [nextAlone, stepSr]
    split
    · exact hw _
    · split
      · apply Ends.back
        simp only [nextAlone, stepSr]
        split
        · exact ends_done _
        · split
          · exact ends_done _
          · exact ih _ _ (by omega)
      · exact ih _ _ (by omega)

theorem ends_walk (k : Int) (cl : Nat) (cands todo found : List (Id × D)) :
    Ends env q k₀ s (.srch (.walk k cl cands todo found)) := by
  induction cl generalizing cands todo found with
  | zero =>
    induction todo generalizing found with
    | nil => exact Ends.back (ends_info _ _)
    | cons x todo ih =>
      obtain ⟨n, d⟩ := x
      apply Ends.back
      simp only [nextAlone, stepSr]
      split
      · exact ends_done _
      · split
        · apply Ends.back
          simp only [nextAlone, stepSr]
          split
          · exact ends_done _
          · exact ends_nbr ih _ _ _ _ rfl
        · exact ih _
  | succ cl ihc =>
    induction todo generalizing found with
    | nil => exact Ends.back (ihc _ _ _)
    | cons x todo ih =>
      obtain ⟨n, d⟩ := x
      apply Ends.back
      simp only [nextAlone, stepSr]
      split
      · exact ends_done _
      · split
        · apply Ends.back
          simp only [nextAlone, stepSr]
          split
          · exact ends_done _
          · exact ends_nbr ih _ _ _ _ rfl
        · exact ih _

theorem ends_start : Ends env q k₀ s .start := by
  apply Ends.back
  simp only [nextAlone]
  split
  · exact ends_done _
  · apply Ends.back
    apply Ends.back
    apply Ends.back
    simp only [nextAlone, stepSr]
    apply Ends.back
    simp only [nextAlone, stepSr]
    split
    · exact ends_done _
    · rename_i d hd
      split
      · exact ends_walk _ _ _ _ _
      · apply Ends.back
        simp only [nextAlone, stepSr, hd]
        apply Ends.back
        simp only [nextAlone, stepSr, hd, ne_eq, not_true, if_false]
        split
        · exact ends_done _
        · apply Ends.back
          simp only [nextAlone, stepSr]
          split
          · exact ends_done _
          · split
            · exact ends_done _
            · exact ends_walk _ _ _ _ _

/-- Places from which a search of an index at rest does not raise. -/
def SrSafe (s : GConc V M D) : GSr M D → Prop
  | .limit | .topMax _ | .topLen _ _ => s.levels ≠ []
  | .top _ cl => cl < s.levels.length
  | .iter _ cl => ∃ d, s.levels[cl]? = some d ∧ d ≠ []
  | .next _ cl n => ∃ d, s.levels[cl]? = some d ∧ d ≠ [] ∧ d.length = n
  | .entry _ cl e => cl < s.levels.length ∧ (s.vectors.get? e).isSome
  | .walk _ cl cands todo found => cl < s.levels.length ∧ (∀ x ∈ cands, (s.vectors.get? x.1).isSome) ∧
      (∀ x ∈ found, (s.vectors.get? x.1).isSome)
  | .nbrs _ cl cands todo found n => cl < s.levels.length ∧ (∀ x ∈ cands, (s.vectors.get? x.1).isSome) ∧
      (∀ x ∈ found, (s.vectors.get? x.1).isSome) ∧ (s.nodeRef cl n).isSome
  | .nbr _ cl cands todo found _ _ => cl < s.levels.length ∧ (∀ x ∈ cands, (s.vectors.get? x.1).isSome) ∧
      (∀ x ∈ found, (s.vectors.get? x.1).isSome)
  | .vec _ cl cands todo found _ _ nb => cl < s.levels.length ∧ (∀ x ∈ cands, (s.vectors.get? x.1).isSome) ∧
      (∀ x ∈ found, (s.vectors.get? x.1).isSome) ∧ (s.vectors.get? nb).isSome
  | .info todo _ => ∀ x ∈ todo, (s.store.get? x.1).isSome

def AtSafe (s : GConc V M D) : GAt M D → Prop
  | .srch p => SrSafe s p
  | .done r => r ≠ .raised
  | _ => True

theorem safe_next (hs : AtRest s) (hq : ∀ v, ∃ d, env.dist q v = .ok d) {a : GAt M D} (h : AtSafe s a) :
    AtSafe s (nextAlone env q k₀ s a) := by
  have st : ∀ id, (s.vectors.get? id).isSome → (s.store.get? id).isSome := by
    intro id h; rw [hs.agree] at h; simpa using h
  cases a with
  | start =>
    simp only [nextAlone]
    split
    · simp [AtSafe]
    · rename_i hne
      exact hs.levels (by simpa using hne)
  | srch p =>
    simp only [nextAlone]
    cases p with
    | limit => exact h
    | topMax k => exact h
    | topLen k mx =>
      have : s.levels.length ≠ 0 := fun e => h (List.length_eq_zero_iff.1 e)
      simp only [stepSr, AtSafe, SrSafe]; omega
    | top k cl =>
      simp only [stepSr]
      rw [List.getElem?_eq_getElem h]
      simp only
      split
      · exact ⟨h, by simp, by simp⟩
      · rename_i hne
        exact ⟨_, List.getElem?_eq_getElem h, by simpa using hne⟩
    | iter k cl =>
      obtain ⟨d, hd, hne⟩ := h
      simp only [stepSr, hd]
      exact ⟨d, hd, hne, rfl⟩
    | next k cl n =>
      obtain ⟨d, hd, hne, hn⟩ := h
      simp only [stepSr, hd, hn, ne_eq, not_true, if_false]
      cases d with
      | nil => exact absurd rfl hne
      | cons x d =>
        refine ⟨(List.getElem?_eq_some_iff.1 hd).1, hs.nodes cl x.1 ?_⟩
        rw [nodeRef_of hd]; simp [Dict.get?]
    | entry k cl e =>
      obtain ⟨hl, hv⟩ := h
      obtain ⟨v, hv⟩ := Option.isSome_iff_exists.1 hv
      obtain ⟨d, hd⟩ := hq v
      simp only [stepSr, hv, hd]
      exact ⟨hl, by simp [hv], by simp⟩
    | walk k cl cands todo found =>
      obtain ⟨hl, hc, hf⟩ := h
      cases todo with
      | nil =>
        simp only [stepSr]
        cases cl with
        | zero =>
          refine slice_good (C := fun x => (s.store.get? x.1).isSome) ?_ k
          intro x hx
          exact st _ ((List.mem_append.1 hx).elim (hc x) (hf x))
        | succ cl =>
          exact ⟨by omega, slice_good (C := fun x => (s.vectors.get? x.1).isSome) hf _, by simp⟩
      | cons x todo =>
        obtain ⟨n, d⟩ := x
        simp only [stepSr]
        rw [List.getElem?_eq_getElem hl]
        simp only
        split
        · rename_i hm
          refine ⟨hl, hc, hf, ?_⟩
          rw [nodeRef_of (List.getElem?_eq_getElem hl)]; exact hm
        · exact ⟨hl, hc, hf⟩
    | nbrs k cl cands todo found n =>
      obtain ⟨hl, hc, hf, hn⟩ := h
      obtain ⟨r, hr⟩ := Option.isSome_iff_exists.1 hn
      simp only [stepSr, hr]
      exact ⟨hl, hc, hf⟩
    | nbr k cl cands todo found r j =>
      obtain ⟨hl, hc, hf⟩ := h
      simp only [stepSr]
      split
      · exact ⟨hl, hc, hf⟩
      · split
        · rename_i hm; exact ⟨hl, hc, hf, hm⟩
        · exact ⟨hl, hc, hf⟩
    | vec k cl cands todo found r j nb =>
      obtain ⟨hl, hc, hf, hv⟩ := h
      obtain ⟨v, hv⟩ := Option.isSome_iff_exists.1 hv
      obtain ⟨d, hd⟩ := hq v
      simp only [stepSr, hv, hd]
      refine ⟨hl, hc, fun x hx => ?_⟩
      rcases List.mem_append.1 hx with hx | hx
      · exact hf x hx
      · rw [List.mem_singleton.1 hx]; simp [hv]
    | info todo acc =>
      cases todo with
      | nil => simp [stepSr, AtSafe]
      | cons x todo =>
        obtain ⟨id, d⟩ := x
        obtain ⟨y, hy⟩ := Option.isSome_iff_exists.1 (h (id, d) (List.mem_cons_self ..))
        simp only [stepSr]
        simp only at hy
        rw [hy]
        exact fun x hx => h x (List.mem_cons_of_mem _ hx)
  | _ => exact h

end

/-- **C235** A search of an index at rest, with nobody else at work, ends with an answer: at most `k` results in order
of distance, each a stored vector with its own distance and metadata. -/
theorem C235_later_search {env : HParEnv V D} {ops : Nat → FOp V M} {s : GConc V M D} (hs : AtRest s) {t : Nat} {q : V}
    {k : Int} (ho : ops t = .search q k) (ht : s.thr t = .start) (hq : ∀ v, ∃ d, env.dist q v = .ok d) :
    ∃ n l, (s.run env ops (List.replicate n t)).thr t = .done (.hits l) ∧
      (∀ h ∈ l, ∃ v, s.store.get? h.id = some (v, h.md) ∧ env.dist q v = .ok h.dist) ∧
      (l.map Hit.dist).Pairwise (· ≤ ·) ∧ (0 ≤ k → l.length ≤ k.toNat) := by
  obtain ⟨n, r, hr⟩ := ends_start (env := env) (q := q) (k₀ := k) (s := s)
  have safe : ∀ n, AtSafe s ((nextAlone env q k s)^[n] .start) := by
    intro n
    induction n with
    | zero => trivial
    | succ n ih => rw [Function.iterate_succ_apply']; exact safe_next hs hq ih
  let C : Id × D → Prop := fun x => ∃ v, s.vectors.get? x.1 = some v ∧ env.dist q v = .ok x.2
  let H : Hit D M → Prop := fun h => ∃ v, s.store.get? h.id = some (v, h.md) ∧ env.dist q v = .ok h.dist
  have hC : ∀ id v d, s.vectors.get? id = some v → env.dist q v = .ok d → C (id, d) := fun id v d h1 h2 => ⟨v, h1, h2⟩
  have hH : ∀ id d v m, s.store.get? id = some (v, m) → C (id, d) → H ⟨id, d, m⟩ := by
    rintro id d v m h1 ⟨w, h2, h3⟩
    rw [hs.agree, h1] at h2
    cases h2
    exact ⟨v, h1, h3⟩
  have good : ∀ n, AtGood C H k ((nextAlone env q k s)^[n] .start) := by
    intro n
    induction n with
    | zero => trivial
    | succ n ih =>
      rw [Function.iterate_succ_apply']
      cases ha : (nextAlone env q k s)^[n] GAt.start with
      | start =>
        simp only [nextAlone]
        split
        · exact ⟨by simp, by simp, by simp⟩
        · trivial
      | srch p => rw [ha] at ih; exact sr_good hC hH ih
      | done x => rw [ha] at ih; exact ih
      | _ => rw [ha] at ih; exact ih.elim
  have h1 := safe n
  have h2 := good n
  rw [hr] at h1 h2
  cases r with
  | hits l =>
    refine ⟨n, l, ?_, h2⟩
    rw [alone_run ho, ht, hr]
    simp
  | raised => exact absurd rfl h1
  | ids l => exact h2.elim
  | flag b => exact h2.elim

/-! ## C234: a search beside everything else -/

/-- A moment (an initial part of the schedule) at which thread `t` makes a statement of its call. -/
def GDuring (env : HParEnv V D) (ops : Nat → FOp V M) (s0 : GConc V M D) (sched : List Nat) (t : Nat)
    (pre : List Nat) : Prop :=
  pre ++ [t] <+: sched ∧ ∀ r, (s0.run env ops pre).thr t ≠ .done r

/-- **C234** (partial: a search may raise, `C234_search_raises_refuted`) Beside any insertions, updates and deletions,
a search that returns gives at most `k` results in order of distance; the distance of each is that of a vector that
the index had under its id at some moment of the search, its metadata were stored under the id at some moment of the
search. -/
theorem C234_search_sound_partial {env : HParEnv V D} {ops : Nat → FOp V M} {s0 : GConc V M D}
    (h0 : ∀ t, s0.thr t = .start) {t : Nat} {q : V} {k : Int} (ho : ops t = .search q k) {sched : List Nat}
    {l : List (Hit D M)} (hd : (s0.run env ops sched).thr t = .done (.hits l)) :
    (∀ h ∈ l,
      (∃ p v, GDuring env ops s0 sched t p ∧ (s0.run env ops p).vectors.get? h.id = some v ∧
        env.dist q v = .ok h.dist) ∧
      (∃ p v, GDuring env ops s0 sched t p ∧ (s0.run env ops p).store.get? h.id = some (v, h.md))) ∧
    (l.map Hit.dist).Pairwise (· ≤ ·) ∧ (0 ≤ k → l.length ≤ k.toNat) := by
  let C (sched : List Nat) : Id × D → Prop := fun x =>
    ∃ p v, GDuring env ops s0 sched t p ∧ (s0.run env ops p).vectors.get? x.1 = some v ∧ env.dist q v = .ok x.2
  let H (sched : List Nat) : Hit D M → Prop := fun h =>
    C sched (h.id, h.dist) ∧ ∃ p v, GDuring env ops s0 sched t p ∧ (s0.run env ops p).store.get? h.id = some (v, h.md)
  have main : ∀ sched, AtGood (C sched) (H sched) k ((s0.run env ops sched).thr t) := by
    intro sched
    induction sched using List.reverseRecOn with
    | nil => simp only [run, List.foldl_nil, h0]; trivial
    | append_singleton sched t' ih =>
      have more : ∀ p, GDuring env ops s0 sched t p → GDuring env ops s0 (sched ++ [t']) t p := fun p h =>
        ⟨h.1.trans (List.prefix_append _ _), h.2⟩
      have ih' : AtGood (C (sched ++ [t'])) (H (sched ++ [t'])) k ((s0.run env ops sched).thr t) := by
        refine ih.mono ?_ ?_
        · rintro x ⟨p, v, hp, h⟩; exact ⟨p, v, more p hp, h⟩
        · rintro x ⟨⟨p, v, hp, h⟩, p', v', hp', h'⟩
          exact ⟨⟨p, v, more p hp, h⟩, p', v', more p' hp', h'⟩
      rw [run_snocG]
      by_cases e : t' = t
      · subst e
        by_cases hdone : ∃ r, (s0.run env ops sched).thr t' = .done r
        · obtain ⟨r, hr⟩ := hdone
          have e0 : (s0.run env ops sched).step env ops t' = s0.run env ops sched := by simp only [step, ho, hr]
          rw [e0]; exact ih'
        · have hdur : GDuring env ops s0 (sched ++ [t']) t' sched :=
            ⟨List.prefix_rfl, fun r h => hdone ⟨r, h⟩⟩
          refine search_step ho ?_ ?_ ih'
          · intro id v d h1 h2; exact ⟨sched, v, hdur, h1, h2⟩
          · intro id d v m h1 h2; exact ⟨h2, sched, v, hdur, h1⟩
      · rw [step_thr env ops _ (fun x => e x.symm)]; exact ih'
  have h := main sched
  rw [hd] at h
  exact ⟨fun x hx => h.1 x hx, h.2⟩

end Valori.Props
