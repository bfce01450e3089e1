import Verif.Lemmas.IvfTrained

/-!
# The invariant of threads on one trained IVF index, when no two of them touch the same id
-/

namespace Valori
open Spec (Hit)
variable {V M D : Type}
namespace TConc

/-- An index at rest: no key twice, the cache agrees with the storage, the list of ids has the stored ids, each once,
every stored id is in the list of one cluster, once, and the lists have no other ids. -/
structure Settled (s : TConc V M D) : Prop where
  storeKeys : s.store.keys.Nodup
  cacheKeys : s.cache.keys.Nodup
  agree : ∀ id, s.cache.get? id = (s.store.get? id).map Prod.fst
  ids : ∀ id, s.ids.count id = if (s.store.get? id).isSome then 1 else 0
  placed : ∀ id, (s.store.get? id).isSome → ∃ k, Placed s id k
  absent : ∀ id, s.store.get? id = none → Nowhere s id

theorem Settled.single {s : TConc V M D} (h : Settled s) (id : Id) : Single s id := by
  cases hs : s.store.get? id with
  | none =>
    have h1 := h.agree id
    have h2 := h.ids id
    rw [hs] at h1 h2
    exact Gone.single ⟨hs, h1, h2, h.absent id hs⟩
  | some x => exact (h.placed id (by rw [hs]; rfl)).choose_spec.single

theorem Settled.gone {s : TConc V M D} (h : Settled s) {id : Id} (hs : s.store.get? id = none) : Gone s id := by
  have h1 := h.agree id
  have h2 := h.ids id
  rw [hs] at h1 h2
  exact ⟨hs, h1, h2, h.absent id hs⟩

/-- An id is touched by one thread only, an insertion has different ids, and they are new. -/
structure Apart (ops : Nat → FOp V M) (s0 : TConc V M D) : Prop where
  owner : ∀ t t' id, opTouches (ops t) id → opTouches (ops t') id → t = t'
  rows : ∀ t rows, ops t = .insert rows → (rows.map FRow.id).Nodup
  fresh : ∀ t id, opInserts (ops t) id → s0.store.get? id = none

/-- Some thread deletes the id. -/
def Doomed (ops : Nat → FOp V M) (id : Id) : Prop := ∃ t, opDeletes (ops t) id

/-- A searching thread at a place: it never puts anything into the cache, since an id that is in a list and not in the
cache is being deleted. -/
def AtSr (ops : Nat → FOp V M) (s : TConc V M D) : TAt V M D → Prop
  | .start | .done (.hits _) | .done .raised => True
  | .srch (.fetch _ _ _ _ id) => s.store.get? id = none ∧ Doomed ops id
  | .srch (.put _ _ _ _ _ _) => False
  | .srch _ => True
  | _ => False

/-- A thread at its place. -/
def AtOp (env : IConcEnv V D) (ops : Nat → FOp V M) (s0 s : TConc V M D) (t : Nat) : Prop :=
  match ops t with
  | .insert rows => AtIns env rows s (s.thr t)
  | .update id v m => AtUpd env id v m s0 s (s.thr t)
  | .delete l => AtDel l s0 s (s.thr t)
  | .search _ _ => AtSr ops s (s.thr t)

/-- The invariant. -/
structure TInv (env : IConcEnv V D) (ops : Nat → FOp V M) (s0 s : TConc V M D) : Prop where
  fixed : Fixed s0 s
  storeKeys : s.store.keys.Nodup
  cacheKeys : s.cache.keys.Nodup
  idle : ∀ id, (∀ t, ¬ opTouches (ops t) id) → Same id s0 s
  thr : ∀ t, AtOp env ops s0 s t

variable [LinearOrder D] {env : IConcEnv V D} {ops : Nat → FOp V M} {s0 s : TConc V M D}

theorem start_inv (h0 : ∀ t, s0.thr t = .start) (hs : Settled s0) (ha : Apart ops s0) : TInv env ops s0 s0 := by
  refine ⟨⟨rfl, rfl, rfl⟩, hs.storeKeys, hs.cacheKeys, fun id _ => .refl id s0, fun t => ?_⟩
  unfold AtOp
  rw [h0]
  cases ho : ops t with
  | insert rows =>
    intro j r hr
    refine hs.gone (ha.fresh t r.id ?_)
    rw [ho]; exact List.mem_map.2 ⟨r, List.mem_of_getElem? hr, rfl⟩
  | update id v m => exact .refl id s0
  | delete l => exact fun id _ => .refl id s0
  | search q k => trivial

/-- In a state that meets the invariant, an id in a list that is not cached is no longer stored, and some thread
deletes it. -/
theorem TInv.filled (h : TInv env ops s0 s) (hs : Settled s0) {id : Id} {r : Nat} (hr : id ∈ s.content r)
    (hc : s.cache.get? id = none) : s.store.get? id = none ∧ Doomed ops id := by
  have rest : Same id s0 s → False := by
    intro e
    have h1 : id ∈ s0.content r := (e.mem r).1 hr
    have h2 := hs.agree id
    rw [← e.cache, hc] at h2
    cases hst : s0.store.get? id with
    | none => exact hs.absent id hst r h1
    | some x => rw [hst] at h2; cases h2
  by_cases ht : ∃ t, opTouches (ops t) id
  · obtain ⟨t, ht⟩ := ht
    have h1 := h.thr t
    unfold AtOp at h1
    cases ho : ops t with
    | insert rows =>
      rw [ho] at ht h1
      have hid : id ∈ rows.map FRow.id := ht.elim (fun h => h) (fun h => h.elim)
      obtain ⟨row, hrow, rfl⟩ := List.mem_map.1 hid
      obtain ⟨j, hj⟩ := List.mem_iff_getElem?.1 hrow
      have stage : ∀ n, RowAt env s row n → False := by
        intro n hn
        rcases n with _ | _ | _ | _ | n
        · exact Gone.lists hn r hr
        · exact hn.2.2.2 r hr
        · exact hn.2.2.2 r hr
        · exact hn.2.2.2 r hr
        · have := hn.2.2.1; rw [hc] at this; cases this
      cases hth : s.thr t with
      | start => rw [hth] at h1; exact (stage 0 (h1 j row hj)).elim
      | ins p => rw [hth] at h1; exact (stage _ (h1.1 j row hj)).elim
      | done x =>
        rw [hth] at h1
        cases x with
        | ids l => exact (stage 4 (h1.2 j row hj)).elim
        | _ => exact h1.elim
      | _ => rw [hth] at h1; exact h1.elim
    | search q k => rw [ho] at ht; exact (ht.elim (fun h => h) (fun h => h)).elim
    | update i v m =>
      rw [ho] at ht h1
      have hid : id = i := ht.elim (fun h => h) (fun h => h.elim)
      subst hid
      cases hth : s.thr t with
      | start => rw [hth] at h1; exact (rest h1).elim
      | upd p =>
        rw [hth] at h1
        have h2 := h1.2
        cases p with
        | cache => have := h2.1; rw [hc] at this; cases this
        | new k => exact h2.elim
        | _ => have := h2.1; rw [hc] at this; cases this
      | done x =>
        rw [hth] at h1
        cases x with
        | flag b =>
          cases b with
          | true => have := h1.2.1; rw [hc] at this; cases this
          | false => exact (rest h1.2).elim
        | _ => exact h1.elim
      | _ => rw [hth] at h1; exact h1.elim
    | delete l =>
      rw [ho] at ht h1
      have hid : id ∈ l := ht.elim (fun h => h.elim) (fun h => h)
      have hdoom : Doomed ops id := ⟨t, by rw [ho]; exact hid⟩
      cases hth : s.thr t with
      | start => rw [hth] at h1; exact (rest (h1 id hid)).elim
      | del i ok p =>
        rw [hth] at h1
        by_cases hm : id ∈ l.take i
        · exact ((h1.past id hm).lists r hr).elim
        · by_cases hcur : p = .stor ∨ l[i]? ≠ some id
          · exact (rest (h1.future id hid hm hcur)).elim
          · have hp : p ≠ .stor := fun e => hcur (.inl e)
            have hi : l[i]? = some id := by
              by_contra e; exact hcur (.inr e)
            have h2 := h1.now id hi
            refine ⟨?_, hdoom⟩
            cases p with
            | stor => exact absurd rfl hp
            | _ => exact h2.1
      | delLen ok => rw [hth] at h1; exact ((h1.1 id hid).lists r hr).elim
      | delCount ok n => rw [hth] at h1; exact ((h1.1 id hid).lists r hr).elim
      | done x =>
        rw [hth] at h1
        cases x with
        | flag b => exact ((h1.1 id hid).lists r hr).elim
        | _ => exact h1.elim
      | _ => rw [hth] at h1; exact h1.elim
  · exact (rest (h.idle id fun t h' => ht ⟨t, h'⟩)).elim

theorem step_storeKeys (env : IConcEnv V D) (ops : Nat → FOp V M) (t : Nat) (h : s.store.keys.Nodup) :
    (s.step env ops t).store.keys.Nodup := by
  unfold step stepIns stepUpd stepDel
  repeat' split
  all_goals first
    | exact h
    | exact Dict.nodup_set h _ _
    | exact Dict.nodup_pop h _

theorem step_cacheKeys (env : IConcEnv V D) (ops : Nat → FOp V M) (t : Nat) (h : s.cache.keys.Nodup) :
    (s.step env ops t).cache.keys.Nodup := by
  unfold step stepIns stepUpd stepDel
  repeat' split
  all_goals first
    | exact h
    | exact Dict.nodup_set h _ _
    | exact Dict.nodup_pop h _
    | (simp only; split <;> first | exact h | exact Dict.nodup_set h _ _)

theorem step_others (env : IConcEnv V D) (ops : Nat → FOp V M) (s : TConc V M D) {t u : Nat} (hu : u ≠ t) :
    (s.step env ops t).thr u = s.thr u := by
  unfold step stepIns stepUpd stepDel
  repeat' split
  all_goals first
    | rfl
    | exact Function.update_of_ne hu ..

theorem sr_place {q : V} {k : Int} {p : TSr V M D} (h : AtSr ops s (.srch p))
    (hf : ∀ id r, id ∈ s.content r → s.cache.get? id = none → s.store.get? id = none ∧ Doomed ops id) :
    (stepSr env q k s p).2 = none ∧ AtSr ops s (stepSr env q k s p).1 := by
  cases p with
  | cents =>
    simp only [stepSr]
    cases IConc.probesOf env q s.cents <;> exact ⟨rfl, trivial⟩
  | probe todo got =>
    cases todo with
    | nil => exact ⟨rfl, trivial⟩
    | cons c todo =>
      simp only [stepSr]
      split <;> exact ⟨trivial, trivial⟩
  | take c todo got =>
    simp only [stepSr]
    cases s.clusters.get? c <;> exact ⟨rfl, trivial⟩
  | walk r todo i got =>
    simp only [stepSr]
    cases hi : (s.content r)[i]? with
    | none => exact ⟨rfl, trivial⟩
    | some id =>
      refine ⟨rfl, ?_⟩
      simp only
      by_cases hm : s.cache.mem id
      · rw [if_pos hm]; trivial
      · rw [if_neg hm]
        refine hf id r (List.mem_of_getElem? hi) ?_
        cases hg : s.cache.get? id with
        | none => rfl
        | some x => exact absurd (by unfold Dict.mem; rw [hg]; rfl) hm
  | vec r todo i got id =>
    simp only [stepSr]
    cases s.cache.get? id with
    | none => exact ⟨rfl, trivial⟩
    | some v =>
      simp only
      cases env.dist q v <;> exact ⟨rfl, trivial⟩
  | fetch r todo i got id =>
    simp only [stepSr, h.1]
    exact ⟨trivial, trivial⟩
  | put r todo i got id v => exact h.elim
  | info todo acc =>
    cases todo with
    | nil => exact ⟨rfl, trivial⟩
    | cons x todo =>
      obtain ⟨id, d⟩ := x
      simp only [stepSr]
      cases s.store.get? id <;> exact ⟨rfl, trivial⟩

/-- A step of a search changes nothing but its place. -/
theorem sr_step {t : Nat} {q : V} {k : Int} (ho : ops t = .search q k) (h : AtSr ops s (s.thr t))
    (hf : ∀ id r, id ∈ s.content r → s.cache.get? id = none → s.store.get? id = none ∧ Doomed ops id) :
    ∃ a, s.step env ops t = { s with thr := Function.update s.thr t a } ∧ AtSr ops s a := by
  cases ha : s.thr t with
  | start =>
    simp only [step, ho, ha]
    refine ⟨_, rfl, ?_⟩
    split <;> trivial
  | srch p =>
    rw [ha] at h
    obtain ⟨h1, h2⟩ := sr_place (env := env) (q := q) (k := k) h hf
    simp only [step, ho, ha, h1]
    exact ⟨_, rfl, h2⟩
  | done x =>
    rw [ha] at h
    refine ⟨s.thr t, ?_, by rw [ha]; exact h⟩
    simp only [step, ho, ha]
    rw [← ha, Function.update_eq_self]
  | _ => rw [ha] at h; exact h.elim

/-- What a step does: the thread stays at its place, nothing else than the ids it touches changes, and an id that it
deletes does not come back. -/
theorem TInv.local (h : TInv env ops s0 s) (hs : Settled s0) (ha : Apart ops s0) (hr : Ready env s0) (t : Nat) :
    AtOp env ops s0 (s.step env ops t) t ∧ Fixed s (s.step env ops t) ∧
      (∀ x, ¬ opTouches (ops t) x → Same x s (s.step env ops t)) ∧
      ((∃ l, ops t = .delete l) → Less s (s.step env ops t)) := by
  have h1 := h.thr t
  have hr' := hr.fixed h.fixed
  unfold AtOp at h1
  cases ho : ops t with
  | insert rows =>
    rw [ho] at h1
    obtain ⟨a, b, c⟩ := ins_step ho (ha.rows t rows ho) hr' h1
    refine ⟨by unfold AtOp; rw [ho]; exact a, b, fun x hx => c x fun h' => hx (.inl h'), ?_⟩
    rintro ⟨l, hl⟩; cases hl
  | update id v m =>
    rw [ho] at h1
    obtain ⟨a, b, c⟩ := upd_step ho hr' (fun h' => by rw [hs.agree]; simpa using h') (hs.single id) h.fixed.clusters h1
    refine ⟨by unfold AtOp; rw [ho]; exact a, b, fun x hx => c x fun h' => hx (.inl h'), ?_⟩
    rintro ⟨l, hl⟩; cases hl
  | delete l =>
    rw [ho] at h1
    obtain ⟨a, b, c, d⟩ := del_step (env := env) ho hs.single (fun id => by rw [hs.ids]; split <;> omega) h.storeKeys h.cacheKeys
      h.fixed.clusters h1
    exact ⟨by unfold AtOp; rw [ho]; exact a, b, fun x hx => d x fun h' => hx (.inr h'), fun _ => c⟩
  | search q k =>
    rw [ho] at h1
    obtain ⟨a, e, h2⟩ := sr_step (env := env) ho h1 (fun id r => h.filled hs)
    refine ⟨?_, ?_, ?_, ?_⟩
    · unfold AtOp
      rw [ho, e]
      simp only [Function.update_self]
      cases a with
      | srch p => cases p <;> exact h2
      | _ => exact h2
    · rw [e]; exact ⟨rfl, rfl, rfl⟩
    · intro x _; rw [e]; exact same_thr x s s.count _
    · rintro ⟨l, hl⟩; cases hl

theorem TInv.next (h : TInv env ops s0 s) (hs : Settled s0) (ha : Apart ops s0) (hr : Ready env s0) (t : Nat) :
    TInv env ops s0 (s.step env ops t) := by
  obtain ⟨h1, h2, h3, h4⟩ := h.local hs ha hr t
  refine ⟨h.fixed.trans h2, step_storeKeys env ops t h.storeKeys, step_cacheKeys env ops t h.cacheKeys,
    fun id hid => (h.idle id hid).trans (h3 id (hid t)), fun u => ?_⟩
  by_cases hu : u = t
  · subst hu; exact h1
  have h5 := h.thr u
  have other : ∀ id, opTouches (ops u) id → Same id s (s.step env ops t) := fun id hid =>
    h3 id fun h' => hu (ha.owner u t id hid h')
  unfold AtOp at h5 ⊢
  rw [step_others env ops s hu]
  cases ho : ops u with
  | insert rows =>
    rw [ho] at h5 other
    exact h5.same (fun r hr => other r.id (.inl (List.mem_map.2 ⟨r, hr, rfl⟩))) h2
  | update id v m =>
    rw [ho] at h5 other
    exact h5.same (other id (.inl rfl)) h2
  | delete l =>
    rw [ho] at h5 other
    exact h5.same (fun id hid => other id (.inr hid)) h2.clusters
  | search q k =>
    rw [ho] at h5
    generalize s.thr u = a at h5
    cases a with
    | srch p =>
      cases p with
      | fetch r todo i got id =>
        refine ⟨?_, h5.2⟩
        by_cases htch : opTouches (ops t) id
        · obtain ⟨t', ht'⟩ := h5.2
          have e := ha.owner t t' id htch (.inr ht')
          subst e
          refine (h4 ?_).store id h5.1
          cases hl : ops t with
          | delete l => exact ⟨l, rfl⟩
          | _ => rw [hl] at ht'; exact ht'.elim
        · rw [(h3 id htch).store]; exact h5.1
      | _ => exact h5
    | done x => cases x <;> exact h5
    | _ => exact h5

theorem run_inv (h0 : ∀ t, s0.thr t = .start) (hs : Settled s0) (ha : Apart ops s0) (hr : Ready env s0)
    (sched : List Nat) : TInv env ops s0 (s0.run env ops sched) := by
  induction sched using List.reverseRecOn with
  | nil => exact start_inv h0 hs ha
  | append_singleton sched t ih => rw [run_snocT]; exact ih.next hs ha hr t

end TConc
end Valori
