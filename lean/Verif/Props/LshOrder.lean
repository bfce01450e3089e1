import Verif.Props.LshConc

/-!
# C243: calls on an LSH index that keep out of each other's way leave the same index in whatever order
-/

namespace Valori.Props
open Valori Valori.LConc
open Valori.Spec (NHit)
variable {V M S : Type} [LinearOrder S] {env : LConcEnv V S} {ops : Nat → LOp V M} {s0 : LConc V M S}

/-- The two executions have begun the same calls, and these have ended. -/
def BothOver (a b : LConc V M S) : Prop :=
  ∀ t, (a.thr t = .start ∧ b.thr t = .start) ∨ (∃ r r', a.thr t = .done r ∧ b.thr t = .done r')

theorem lives_same {a b : LConc V M S} {id : Nat} {v : V} {m : M} (h : Lives env a id v m) (h' : Lives env b id v m) :
    Same id a b := by
  obtain ⟨a1, a2, c, a3, -, a5⟩ := h
  obtain ⟨b1, b2, c', b3, -, b5⟩ := h'
  rw [a3, Option.some.injEq] at b3
  subst b3
  exact ⟨b1.trans a1.symm, b2.trans a2.symm, fun j x => by rw [a5, b5]⟩

theorem gone_same {a b : LConc V M S} {id : Nat} (h : Gone a id) (h' : Gone b id) : Same id a b :=
  ⟨h'.1.trans h.1.symm, h'.2.1.trans h.2.1.symm, fun j c => by
    rw [List.count_eq_zero.2 (h.2.2 j c), List.count_eq_zero.2 (h'.2.2 j c)]⟩

theorem same_symm {a b : LConc V M S} {id : Nat} (h : Same id a b) : Same id b a :=
  ⟨h.vec.symm, h.md.symm, fun j c => (h.cnt j c).symm⟩

/-- An id beyond the end, in both. -/
theorem beyond_same {a b : LConc V M S} {x n : Nat} (hx : n ≤ x) (a1 : a.vectors.length = n) (a2 : a.metas.length = n)
    (a3 : Absent a x) (b1 : b.vectors.length = n) (b2 : b.metas.length = n) (b3 : Absent b x) : Same x a b :=
  ⟨by rw [List.getElem?_eq_none (by omega), List.getElem?_eq_none (by omega)],
   by rw [List.getElem?_eq_none (by omega), List.getElem?_eq_none (by omega)], fun j c => by rw [a3 j c, b3 j c]⟩

theorem same_everywhere (hr : AtRest env s0) (h0 : ∀ t, s0.thr t = .start) (ha : Apart ops s0)
    (hf : ∀ t, OpFits env s0 (ops t)) {sched sched' : List Nat}
    (hb : BothOver (s0.run env ops sched) (s0.run env ops sched')) :
    (s0.run env ops sched).nextId = (s0.run env ops sched').nextId ∧
    ∀ x, Same x (s0.run env ops sched) (s0.run env ops sched') := by
  have ia := LInv.run hr h0 ha hf sched
  have ib := LInv.run hr h0 ha hf sched'
  have old : ∀ x, x < s0.nextId → Same x (s0.run env ops sched) (s0.run env ops sched') := by
    intro x hx
    by_cases hn : ∃ t, Names (ops t) x
    · obtain ⟨t, ht⟩ := hn
      have h1 := ia.thr t
      have h2 := ib.thr t
      cases ho : ops t with
      | insert rows => rw [ho] at ht; exact ht.elim
      | search q k => rw [ho] at ht; exact ht.elim
      | update y v m =>
        rw [ho] at ht h1 h2
        have ht : x = y := ht
        subst ht
        rcases hb t with ⟨e1, e2⟩ | ⟨r, r', e1, e2⟩
        · rw [e1] at h1; rw [e2] at h2
          exact (same_symm h1).trans h2
        · rcases C241_updated hr h0 ha hf ho e1 with ⟨-, w, m0, l1, l2⟩ | ⟨-, g1, g2⟩ <;>
            rcases C241_updated hr h0 ha hf ho e2 with ⟨-, w', m0', l1', l2'⟩ | ⟨-, g1', g2'⟩
          · have hm : m0 = m0' := by
              have := l1.2.1.symm.trans l1'.2.1
              simpa using this
            subst hm
            exact lives_same l2 l2'
          · exact (lives_not_gone l1 g1').elim
          · exact (lives_not_gone l1' g1).elim
          · exact gone_same g2 g2'
      | delete l =>
        rw [ho] at ht h1 h2
        rcases hb t with ⟨e1, e2⟩ | ⟨r, r', e1, e2⟩
        · rw [e1] at h1; rw [e2] at h2
          exact (same_symm (h1 x ht)).trans (h2 x ht)
        · exact gone_same ((C241_deleted hr h0 ha hf ho e1).2 x ht) ((C241_deleted hr h0 ha hf ho e2).2 x ht)
    · exact (same_symm (ia.idle x hx fun t h => hn ⟨t, h⟩)).trans (ib.idle x hx fun t h => hn ⟨t, h⟩)
  by_cases hi : ∃ t rows, ops t = .insert rows
  · obtain ⟨t, rows, ho⟩ := hi
    have h1 := ia.thr t
    have h2 := ib.thr t
    rw [ho] at h1 h2
    rcases hb t with ⟨e1, e2⟩ | ⟨r, r', e1, e2⟩
    · rw [e1] at h1; rw [e2] at h2
      obtain ⟨a1, a2, a3, a4⟩ := h1
      obtain ⟨b1, b2, b3, b4⟩ := h2
      refine ⟨a1.trans b1.symm, fun x => ?_⟩
      by_cases hx : x < s0.nextId
      · exact old x hx
      · exact beyond_same (by omega) a2 a3 (a4 x (by omega)) b2 b3 (b4 x (by omega))
    · rw [e1] at h1; rw [e2] at h2
      cases r with
      | ids l =>
        cases r' with
        | ids l' =>
          obtain ⟨-, a2, a3, a4, a5, a6⟩ := h1
          obtain ⟨-, b2, b3, b4, b5, b6⟩ := h2
          refine ⟨a4.trans b4.symm, fun x => ?_⟩
          by_cases hx : x < s0.nextId
          · exact old x hx
          · by_cases hx' : x < s0.nextId + rows.length
            · have hj : x - s0.nextId < rows.length := by omega
              have la := a2 (x - s0.nextId) _ _ hj (List.getElem?_eq_getElem hj)
              have lb := b2 (x - s0.nextId) _ _ hj (List.getElem?_eq_getElem hj)
              rw [show s0.nextId + (x - s0.nextId) = x by omega] at la lb
              exact lives_same la lb
            · exact beyond_same (by omega) a5 a6 (a3 x (by omega)) b5 b6 (b3 x (by omega))
        | _ => exact h2.elim
      | _ => exact h1.elim
  · have qa := ia.quiet fun t rows h => hi ⟨t, rows, h⟩
    have qb := ib.quiet fun t rows h => hi ⟨t, rows, h⟩
    refine ⟨qa.1.nxt.trans qb.1.nxt.symm, fun x => ?_⟩
    by_cases hx : x < s0.nextId
    · exact old x hx
    · exact beyond_same (n := s0.nextId) (by omega) (qa.1.vec.trans hr.vec) (qa.1.md.trans hr.md) (qa.2 x (by omega))
        (qb.1.vec.trans hr.vec) (qb.1.md.trans hr.md) (qb.2 x (by omega))

/-- **C243** Calls that keep out of each other's way: two executions in which the same calls have ended, one after the
other or statement by statement, leave the same vectors, the same metadata and the same next id, and every bucket has
the same ids. -/
theorem C243_index (hr : AtRest env s0) (h0 : ∀ t, s0.thr t = .start) (ha : Apart ops s0)
    (hf : ∀ t, OpFits env s0 (ops t)) {sched sched' : List Nat}
    (hb : BothOver (s0.run env ops sched) (s0.run env ops sched')) :
    (s0.run env ops sched').vectors = (s0.run env ops sched).vectors ∧
    (s0.run env ops sched').metas = (s0.run env ops sched).metas ∧
    (s0.run env ops sched').nextId = (s0.run env ops sched).nextId ∧
    ∀ j c, ((s0.run env ops sched').bucket j c).Perm ((s0.run env ops sched).bucket j c) := by
  obtain ⟨h1, h2⟩ := same_everywhere hr h0 ha hf hb
  exact ⟨List.ext_getElem? fun x => (h2 x).vec, List.ext_getElem? fun x => (h2 x).md, h1.symm,
    fun j c => List.perm_iff_count.2 fun x => (h2 x).cnt j c⟩

/-- **C243** Insertions, updates and deletions also return the same. -/
theorem C243_replies (hr : AtRest env s0) (h0 : ∀ t, s0.thr t = .start) (ha : Apart ops s0)
    (hf : ∀ t, OpFits env s0 (ops t)) {sched sched' : List Nat} {t : Nat} (hs : ∀ q k, ops t ≠ .search q k)
    {r r' : LRes M S} (h : (s0.run env ops sched).thr t = .done r) (h' : (s0.run env ops sched').thr t = .done r') :
    r = r' := by
  cases ho : ops t with
  | search q k => exact absurd ho (hs q k)
  | insert rows => rw [(C241_inserted hr h0 ha hf ho h).1, (C241_inserted hr h0 ha hf ho h').1]
  | delete l => rw [(C241_deleted hr h0 ha hf ho h).1, (C241_deleted hr h0 ha hf ho h').1]
  | update id v m =>
    rcases C241_updated hr h0 ha hf ho h with ⟨e, w, m0, l1, -⟩ | ⟨e, g1, -⟩ <;>
      rcases C241_updated hr h0 ha hf ho h' with ⟨e', w', m0', l1', -⟩ | ⟨e', g1', -⟩
    · rw [e, e']
    · exact (lives_not_gone l1 g1').elim
    · exact (lives_not_gone l1' g1).elim
    · rw [e, e']

/-- The calls of `lapart` without a search, statement by statement and one after the other: all have ended in both. -/
example :
    let a := (lindex [0, 5, 0]).run lenv lapart (lsched ++ [1, 1, 1, 1, 1, 1, 1, 2, 2, 2, 2])
    let b := (lindex [0, 5, 0]).run lenv lapart (List.replicate 20 3 ++ List.replicate 20 2 ++ List.replicate 20 1)
    a.thr 1 = .done (.ids [3, 4]) ∧ b.thr 1 = .done (.ids [3, 4]) ∧ a.thr 2 = .done (.flag true) ∧
    b.thr 2 = .done (.flag true) ∧ a.thr 3 = .done (.flag true) ∧ b.thr 3 = .done (.flag true) ∧
    a.vectors = [some 0, some 6, none, some 0, some 3] ∧ b.vectors = [some 0, some 6, none, some 0, some 3] :=
  ⟨by rfl, by rfl, by rfl, by rfl, by rfl, by rfl, by rfl, by rfl⟩

/-- One insertion and one deletion, deletion first or insertion first: the hypothesis on the ends. -/
example : let ops : Nat → LOp Nat Nat := fun t => if t = 0 then .insert [(0, 7)] else .delete [0]
    let s := lindex [0, 5]
    let a := s.run lenv ops (List.replicate 20 0 ++ List.replicate 20 1)
    let b := s.run lenv ops (List.replicate 20 1 ++ List.replicate 20 0)
    BothOver a b ∧ a.bucket 0 [false, false, false] = [2] ∧ b.vectors = [none, some 5, some 0] := by
  refine ⟨fun t => ?_, rfl, rfl⟩
  match t with
  | 0 => exact .inr ⟨_, _, rfl, rfl⟩
  | 1 => exact .inr ⟨_, _, rfl, rfl⟩
  | _ + 2 => exact .inl ⟨rfl, rfl⟩

/-- Why only one thread may insert: with two the ids depend on who comes first. -/
example :
    let ops : Nat → LOp Nat Nat := fun t => if t = 0 then .insert [(0, 7)] else .insert [(5, 8)]
    let s := lindex [3]
    let a := s.run lenv ops (List.replicate 20 0 ++ List.replicate 20 1)
    let b := s.run lenv ops (List.replicate 20 1 ++ List.replicate 20 0)
    BothOver a b ∧ a.thr 0 = .done (.ids [1]) ∧ b.thr 0 = .done (.ids [2]) ∧
      a.vectors = [some 3, some 0, some 5] ∧ b.vectors = [some 3, some 5, some 0] := by
  refine ⟨fun t => ?_, rfl, rfl, rfl, rfl⟩
  match t with
  | 0 => exact .inr ⟨_, _, rfl, rfl⟩
  | 1 => exact .inr ⟨_, _, rfl, rfl⟩
  | _ + 2 => exact .inl ⟨rfl, rfl⟩

end Valori.Props
