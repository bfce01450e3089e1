import Verif.Lemmas.IvfTrainedInv
import Verif.Lemmas.IvfConcSearch

/-!
# Searches of a trained IVF index beside other calls
-/

namespace Valori
open Spec (Hit)
variable {V M D : Type}
namespace TConc

variable [LinearOrder D] {env : IConcEnv V D} {ops : Nat → FOp V M} {s0 s : TConc V M D}

/-! ## What a search has collected -/

/-- What holds of a search at a statement, when `P` holds of all vectors it has fetched, `C` of all candidates and `H` of
all results. -/
def SrFine (P : Id × V → Prop) (C : Id × D → Prop) (H : Hit D M → Prop) (k : Int) : TSr V M D → Prop
  | .cents => True
  | .probe _ got | .take _ _ got | .walk _ _ _ got | .vec _ _ _ got _ | .fetch _ _ _ got _ => ∀ x ∈ got, C x
  | .put _ _ _ got id v => (∀ x ∈ got, C x) ∧ P (id, v)
  | .info todo acc => (∀ x ∈ todo, C x) ∧ (∀ h ∈ acc, H h) ∧
      (acc.map Hit.dist ++ todo.map Prod.snd).Pairwise (· ≤ ·) ∧ (0 ≤ k → acc.length + todo.length ≤ k.toNat)

/-- The same for the place of a searching thread. -/
def AtFine (P : Id × V → Prop) (C : Id × D → Prop) (H : Hit D M → Prop) (k : Int) : TAt V M D → Prop
  | .start => True
  | .srch p => SrFine P C H k p
  | .done (.hits l) => (∀ h ∈ l, H h) ∧ (l.map Hit.dist).Pairwise (· ≤ ·) ∧ (0 ≤ k → l.length ≤ k.toNat)
  | .done .raised => True
  | _ => False

theorem AtFine.mono {P P' : Id × V → Prop} {C C' : Id × D → Prop} {H H' : Hit D M → Prop} {k : Int} {a : TAt V M D}
    (h : AtFine P C H k a) (hP : ∀ x, P x → P' x) (hC : ∀ x, C x → C' x) (hH : ∀ x, H x → H' x) :
    AtFine P' C' H' k a := by
  cases a with
  | srch p =>
    cases p with
    | cents => trivial
    | put r todo i got id v => exact ⟨fun x hx => hC x (h.1 x hx), hP _ h.2⟩
    | info todo acc => exact ⟨fun x hx => hC x (h.1 x hx), fun x hx => hH x (h.2.1 x hx), h.2.2⟩
    | _ => exact fun x hx => hC x (h x hx)
  | done r =>
    cases r with
    | hits l => exact ⟨fun x hx => hH x (h.1 x hx), h.2⟩
    | _ => exact h
  | _ => exact h

theorem sr_fine {q : V} {P : Id × V → Prop} {C : Id × D → Prop} {H : Hit D M → Prop} {k : Int} {p : TSr V M D}
    (hV : ∀ id v d, s.cache.get? id = some v → env.dist q v = .ok d → C (id, d))
    (hP : ∀ id v m, s.store.get? id = some (v, m) → P (id, v))
    (hC : ∀ id v d, P (id, v) → env.dist q v = .ok d → C (id, d))
    (hH : ∀ id d v m, s.store.get? id = some (v, m) → C (id, d) → H ⟨id, d, m⟩)
    (h : SrFine P C H k p) : AtFine P C H k (stepSr env q k s p).1 := by
  have more : ∀ {got : List (Id × D)} {x : Id × D}, (∀ x ∈ got, C x) → C x → ∀ y ∈ got ++ [x], C y := by
    intro got x h1 h2 y hy
    rcases List.mem_append.1 hy with hy | hy
    · exact h1 y hy
    · rw [List.mem_singleton.1 hy]; exact h2
  cases p with
  | cents =>
    simp only [stepSr]
    cases IConc.probesOf env q s.cents with
    | error e => trivial
    | ok ps => intro x hx; cases hx
  | probe todo got =>
    cases todo with
    | nil =>
      have h : ∀ x ∈ got, C x := h
      refine ⟨GConc.slice_good h k, by simp, ?_, ?_⟩
      · simp only [List.map_nil, List.nil_append, List.pairwise_map]
        exact (pySortBy_sorted _ _).sublist (sliceTo_sublist _ _)
      · intro hk
        rw [sliceTo_nonneg _ hk]
        simp only [List.length_nil, List.length_take]
        omega
    | cons c todo =>
      simp only [stepSr]
      split <;> exact h
  | take c todo got =>
    simp only [stepSr]
    cases s.clusters.get? c with
    | none => trivial
    | some r => exact h
  | walk r todo i got =>
    simp only [stepSr]
    cases (s.content r)[i]? with
    | none => exact h
    | some id => simp only; split <;> exact h
  | vec r todo i got id =>
    simp only [stepSr]
    cases hv : s.cache.get? id with
    | none => trivial
    | some v =>
      simp only
      cases hd : env.dist q v with
      | error e => trivial
      | ok d => exact more h (hV id v d hv hd)
  | fetch r todo i got id =>
    simp only [stepSr]
    cases hv : s.store.get? id with
    | none => exact h
    | some x =>
      obtain ⟨v, m⟩ := x
      exact ⟨h, hP id v m hv⟩
  | put r todo i got id v =>
    simp only [stepSr]
    cases hd : env.dist q v with
    | error e => trivial
    | ok d => exact more h.1 (hC id v d h.2 hd)
  | info todo acc =>
    obtain ⟨h1, h2, h3, h4⟩ := h
    cases todo with
    | nil =>
      simp only [stepSr]
      exact ⟨h2, by simpa using h3, by simpa using h4⟩
    | cons x todo =>
      obtain ⟨id, d⟩ := x
      simp only [stepSr]
      cases hv : s.store.get? id with
      | none => trivial
      | some x =>
        obtain ⟨v, m⟩ := x
        refine ⟨fun x hx => h1 x (List.mem_cons_of_mem _ hx), fun y hy => ?_, ?_, ?_⟩
        · rcases List.mem_append.1 hy with hy | hy
          · exact h2 y hy
          · rw [List.mem_singleton.1 hy]; exact hH id d v m hv (h1 _ (List.mem_cons_self ..))
        · simpa using h3
        · intro hk
          have := h4 hk
          simp only [List.length_append, List.length_cons, List.length_nil] at this ⊢
          omega

theorem fine_step {q : V} {P : Id × V → Prop} {C : Id × D → Prop} {H : Hit D M → Prop} {k : Int} {t : Nat}
    (ho : ops t = .search q k)
    (hV : ∀ id v d, s.cache.get? id = some v → env.dist q v = .ok d → C (id, d))
    (hP : ∀ id v m, s.store.get? id = some (v, m) → P (id, v))
    (hC : ∀ id v d, P (id, v) → env.dist q v = .ok d → C (id, d))
    (hH : ∀ id d v m, s.store.get? id = some (v, m) → C (id, d) → H ⟨id, d, m⟩)
    (h : AtFine P C H k (s.thr t)) : AtFine P C H k ((s.step env ops t).thr t) := by
  cases ha : s.thr t with
  | start =>
    simp only [step, ho, ha, Function.update_self]
    split
    · exact ⟨by simp, by simp, by simp⟩
    · trivial
  | srch p =>
    rw [ha] at h
    simp only [step, ho, ha, Function.update_self]
    exact sr_fine hV hP hC hH h
  | done r =>
    rw [ha] at h
    have e0 : s.step env ops t = s := by simp only [step, ho, ha]
    rw [e0, ha]; exact h
  | _ => rw [ha] at h; exact h.elim

/-! ## When a search raises -/

/-- A call other than a deletion takes nothing out of the storage. -/
theorem grows_store {t : Nat} (ho : ∀ l, ops t ≠ .delete l) {id : Id} (h : (s.store.get? id).isSome) :
    ((s.step env ops t).store.get? id).isSome := by
  have hset : ∀ (x : Id) (y : V × Option M), ((s.store.set x y).get? id).isSome := by
    intro x y
    rw [Dict.get?_set]
    split <;> [rfl; exact h]
  unfold step stepIns stepUpd
  repeat' split
  all_goals first
    | exact h
    | exact hset _ _
    | (rename_i hd _; exact absurd hd (ho _))

theorem grows_cache {t : Nat} (ho : ∀ l, ops t ≠ .delete l) {id : Id} (h : (s.cache.get? id).isSome) :
    ((s.step env ops t).cache.get? id).isSome := by
  have hset : ∀ (x : Id) (y : V), ((s.cache.set x y).get? id).isSome := by
    intro x y
    rw [Dict.get?_set]
    split <;> [rfl; exact h]
  unfold step stepIns stepUpd
  repeat' split
  all_goals first
    | exact h
    | exact hset _ _
    | (rename_i hd _; exact absurd hd (ho _))
    | (simp only; split <;> first | exact h | exact hset _ _)

/-- The id is stored and cached, unless some thread deletes it. -/
def Alive (ops : Nat → FOp V M) (s : TConc V M D) (id : Id) : Prop :=
  Doomed ops id ∨ ((s.store.get? id).isSome ∧ (s.cache.get? id).isSome)

theorem Alive.step (h : TInv env ops s0 s) (hs : Settled s0) (ha : Apart ops s0) (hr : Ready env s0) {id : Id}
    (hl : Alive ops s id) (t : Nat) : Alive ops (s.step env ops t) id := by
  rcases hl with hl | ⟨h1, h2⟩
  · exact .inl hl
  by_cases hd : Doomed ops id
  · exact .inl hd
  refine .inr ?_
  by_cases hdel : ∃ l, ops t = .delete l
  · obtain ⟨l, hl⟩ := hdel
    have e := (h.local hs ha hr t).2.2.1 id (by
      rw [hl]
      rintro (h' | h')
      · exact h'
      · exact hd ⟨t, by rw [hl]; exact h'⟩)
    rw [e.store, e.cache]
    exact ⟨h1, h2⟩
  · exact ⟨grows_store (fun l hl => hdel ⟨l, hl⟩) h1, grows_cache (fun l hl => hdel ⟨l, hl⟩) h2⟩

/-- In a state that meets the invariant, an id that is cached is stored, unless some thread deletes it. -/
theorem TInv.alive (h : TInv env ops s0 s) (hs : Settled s0) {id : Id} (hc : (s.cache.get? id).isSome) :
    Alive ops s id := by
  by_cases hd : Doomed ops id
  · exact .inl hd
  refine .inr ⟨?_, hc⟩
  have rest : Same id s0 s → (s.store.get? id).isSome := by
    intro e
    have h2 := hs.agree id
    rw [e.cache, h2] at hc
    rw [e.store]
    simpa using hc
  by_cases ht : ∃ t, opTouches (ops t) id
  · obtain ⟨t, ht⟩ := ht
    have h1 := h.thr t
    unfold AtOp at h1
    cases ho : ops t with
    | insert rows =>
      rw [ho] at ht h1
      have hid : id ∈ rows.map FRow.id := ht.elim (fun h => h) (fun h => h.elim)
      obtain ⟨row, hrow, rfl⟩ := List.mem_map.1 hid
      obtain ⟨j, hj⟩ := List.mem_iff_getElem?.1 hrow
      have stage : ∀ n, RowAt env s row n → (s.store.get? row.id).isSome := by
        intro n hn
        rcases n with _ | _ | _ | _ | n
        · rw [Gone.cache hn] at hc; cases hc
        all_goals (rw [hn.1]; rfl)
      cases hth : s.thr t with
      | start => rw [hth] at h1; exact stage 0 (h1 j row hj)
      | ins p => rw [hth] at h1; exact stage _ (h1.1 j row hj)
      | done x =>
        rw [hth] at h1
        cases x with
        | ids l => exact stage 4 (h1.2 j row hj)
        | _ => exact h1.elim
      | _ => rw [hth] at h1; exact h1.elim
    | search q k => rw [ho] at ht; exact (ht.elim (fun h => h) (fun h => h)).elim
    | update i v m =>
      rw [ho] at ht h1
      have hid : id = i := ht.elim (fun h => h) (fun h => h.elim)
      subst hid
      cases hth : s.thr t with
      | start => rw [hth] at h1; exact rest h1
      | upd p => rw [hth] at h1; rw [h1.1.2.1]; rfl
      | done x =>
        rw [hth] at h1
        cases x with
        | flag b =>
          cases b with
          | true => rw [h1.1.2.1]; rfl
          | false => exact rest h1.2
        | _ => exact h1.elim
      | _ => rw [hth] at h1; exact h1.elim
    | delete l =>
      rw [ho] at ht
      exact absurd ⟨t, by rw [ho]; exact ht.elim (fun h => h.elim) (fun h => h)⟩ hd
  · exact rest (h.idle id fun t h' => ht ⟨t, h'⟩)

/-- What a search that may still raise knows. -/
def SrAlive (ops : Nat → FOp V M) (s : TConc V M D) : TSr V M D → Prop
  | .cents => True
  | .probe _ got | .walk _ _ _ got | .fetch _ _ _ got _ | .put _ _ _ got _ _ => ∀ x ∈ got, Alive ops s x.1
  | .take c _ got => (∀ x ∈ got, Alive ops s x.1) ∧ s.clusters.mem c = true
  | .vec _ _ _ got id => (∀ x ∈ got, Alive ops s x.1) ∧ Alive ops s id
  | .info todo _ => ∀ x ∈ todo, Alive ops s x.1

/-- The same for the place of a searching thread; when it raises, some thread deletes an id that is no longer
stored or no longer cached. -/
def AtAlive (ops : Nat → FOp V M) (s : TConc V M D) : TAt V M D → Prop
  | .srch p => SrAlive ops s p
  | .done .raised => ∃ id, Doomed ops id
  | _ => True

theorem AtAlive.mono {s' : TConc V M D} {a : TAt V M D} (h : AtAlive ops s a) (f : s'.clusters = s.clusters)
    (e : ∀ id, Alive ops s id → Alive ops s' id) : AtAlive ops s' a := by
  cases a with
  | srch p =>
    cases p with
    | cents => trivial
    | take c todo got => exact ⟨fun x hx => e _ (h.1 x hx), by rw [f]; exact h.2⟩
    | vec r todo i got id => exact ⟨fun x hx => e _ (h.1 x hx), e _ h.2⟩
    | _ => exact fun x hx => e _ (h x hx)
  | done x => cases x <;> exact h
  | _ => trivial

theorem alive_place {q : V} {k : Int} {p : TSr V M D} (hd : ∀ v, ∃ d, env.dist q v = .ok d)
    (hc : ∀ id, (s.cache.get? id).isSome → Alive ops s id) (hp : AtSr ops s (.srch p)) (h : SrAlive ops s p) :
    AtAlive ops s (stepSr env q k s p).1 := by
  cases p with
  | cents =>
    obtain ⟨ps, hps⟩ := IConc.probes_defined hd s.cents
    simp only [stepSr, hps]
    intro x hx; cases hx
  | probe todo got =>
    cases todo with
    | nil => exact GConc.slice_good (C := fun x => Alive ops s x.1) h k
    | cons c todo =>
      simp only [stepSr]
      split
      · rename_i hm; exact ⟨h, hm⟩
      · exact h
  | take c todo got =>
    obtain ⟨r, hr⟩ := Option.isSome_iff_exists.1 h.2
    simp only [stepSr, hr]
    exact h.1
  | walk r todo i got =>
    simp only [stepSr]
    cases (s.content r)[i]? with
    | none => exact h
    | some id =>
      simp only
      by_cases hm : s.cache.mem id
      · rw [if_pos hm]; exact ⟨h, hc id hm⟩
      · rw [if_neg hm]; exact h
  | vec r todo i got id =>
    simp only [stepSr]
    cases hv : s.cache.get? id with
    | none =>
      rcases h.2 with h2 | ⟨_, h2⟩
      · exact ⟨id, h2⟩
      · rw [hv] at h2; cases h2
    | some v =>
      obtain ⟨d, hdv⟩ := hd v
      simp only [hdv]
      intro x hx
      rcases List.mem_append.1 hx with hx | hx
      · exact h.1 x hx
      · rw [List.mem_singleton.1 hx]; exact h.2
  | fetch r todo i got id =>
    simp only [stepSr, hp.1]
    exact h
  | put r todo i got id v => exact hp.elim
  | info todo acc =>
    cases todo with
    | nil => trivial
    | cons x todo =>
      obtain ⟨id, d⟩ := x
      simp only [stepSr]
      cases hv : s.store.get? id with
      | none =>
        rcases h (id, d) (List.mem_cons_self ..) with h2 | ⟨h2, _⟩
        · exact ⟨id, h2⟩
        · rw [hv] at h2; cases h2
      | some x => exact fun y hy => h y (List.mem_cons_of_mem _ hy)

theorem alive_next {q : V} {k : Int} {u : Nat} (ho : ops u = .search q k) (hd : ∀ v, ∃ d, env.dist q v = .ok d)
    (h : TInv env ops s0 s) (hs : Settled s0) (ha : Apart ops s0) (hr : Ready env s0) (hl : AtAlive ops s (s.thr u))
    (t : Nat) : AtAlive ops (s.step env ops t) ((s.step env ops t).thr u) := by
  have hmono : AtAlive ops s ((s.step env ops t).thr u) →
      AtAlive ops (s.step env ops t) ((s.step env ops t).thr u) := fun h' =>
    h'.mono (h.local hs ha hr t).2.1.clusters fun id hid => hid.step h hs ha hr t
  apply hmono
  by_cases hu : u = t
  · subst hu
    have h1 := h.thr u
    unfold AtOp at h1
    rw [ho] at h1
    cases hth : s.thr u with
    | start =>
      simp only [step, ho, hth, Function.update_self]
      split <;> trivial
    | srch p =>
      rw [hth] at h1 hl
      simp only [step, ho, hth, Function.update_self]
      exact alive_place hd (fun id => h.alive hs) h1 hl
    | done x =>
      rw [hth] at hl
      simp only [step, ho, hth]; exact hl
    | _ => rw [hth] at h1; exact h1.elim
  · rw [step_others env ops s hu]; exact hl

end TConc
end Valori
