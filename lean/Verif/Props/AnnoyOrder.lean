import Verif.Props.AnnoyConc

/-!
# C243: calls on an Annoy index that keep out of each other's way leave the same index in whatever order
-/

namespace Valori.AConc
variable {L V F M : Type} {env : AConcEnv L V F} {ops : Nat → AOp V M} {s0 s : AConc L V F M} {held : L → Nat → Prop}

/-- The library after it was given the first `n` rows, with ids from `id` on. -/
def given (env : AConcEnv L V F) (l : L) (id : Nat) (rows : List (V × M)) : Nat → Option L
  | 0 => some l
  | n + 1 => (given env l id rows n).bind fun l' => (rows[n]?).bind fun x => env.addItem l' (id + n) x.1

/-- The rows the library was given by the inserting thread. -/
def handed (rows : List (V × M)) : AAt F M → Nat
  | .ins i _ _ => i
  | .done _ => rows.length
  | _ => 0

theorem lib_others {t : Nat} (h : ∀ rows, ops t ≠ .insert rows) : (s.step env ops t).lib = s.lib := by
  unfold step
  cases ho : ops t with
  | insert rows => exact absurd ho (h rows)
  | delete ids =>
    cases s.thr t with
    | del todo p =>
      cases todo with
      | nil => cases p <;> rfl
      | cons id rest => cases p <;> simp only [stepDel] <;> first | rfl | (split <;> rfl)
    | _ => rfl
  | search q k => cases s.thr t <;> rfl

theorem thr_others {t u : Nat} (h : u ≠ t) : (s.step env ops u).thr t = s.thr t := by
  unfold step
  split <;> simp [Function.update_of_ne (Ne.symm h)]

/-- The library has been given the rows of the one inserting thread that are done, and nothing else. -/
theorem run_given (hl : LibOk env held) (hr : AtRest held s0) (h0 : ∀ t, s0.thr t = .start) (ha : Apart ops s0)
    {t : Nat} {rows : List (V × M)} (ho : ops t = .insert rows) (sched : List Nat) :
    given env s0.lib s0.nextId rows (handed rows ((s0.run env ops sched).thr t)) = some (s0.run env ops sched).lib := by
  induction sched using List.reverseRecOn with
  | nil => rw [show s0.run env ops [] = s0 from rfl, h0]; rfl
  | append_singleton sched u ih =>
    have hrun : s0.run env ops (sched ++ [u]) = (s0.run env ops sched).step env ops u := by
      simp only [run, List.foldl_append, List.foldl_cons, List.foldl_nil]
    rw [hrun]
    have hi := (run_invA hl hr h0 ha sched).ins t rows ho
    generalize s0.run env ops sched = s at ih hi
    by_cases hu : u = t
    · subst hu
      unfold step
      rw [ho]
      cases hp : s.thr u with
      | start =>
        rw [hp] at ih
        simp only [Function.update_self]
        rw [show handed rows (nextRow rows 0 [] : AAt F M) = 0 from ?_]
        · exact ih
        · unfold nextRow
          split
          · rfl
          · simp only [handed]; omega
      | ins i ids p =>
        rw [hp] at ih hi
        obtain ⟨hlt, -, hi⟩ := hi
        have hrow : rows[i]? = some rows[i] := List.getElem?_eq_getElem hlt
        simp only [Function.update_self]
        cases p with
        | read => exact ih
        | load id => exact ih
        | put id n => exact ih
        | vec id => simp only [stepIns, hrow]; exact ih
        | md id => simp only [stepIns, hrow]; exact ih
        | add id =>
          obtain ⟨rfl, -⟩ := hi
          obtain ⟨l', hl'⟩ := hl.add s.lib (s0.nextId + i) rows[i].1
          simp only [stepIns, hrow, hl']
          rw [show handed rows (nextRow rows (i + 1) (ids ++ [s0.nextId + i]) : AAt F M) = i + 1 from ?_]
          · have ih : given env s0.lib s0.nextId rows i = some s.lib := ih
            simp only [given, ih, hrow, Option.bind_some]
            exact hl'
          · unfold nextRow
            split
            · rfl
            · simp only [handed]; omega
      | done r => rw [hp] at ih; simp only [hp]; exact ih
      | del _ _ => rw [hp] at hi; exact hi.elim
      | srch _ => rw [hp] at hi; exact hi.elim
    · rw [thr_others hu, lib_others (fun rows' h => hu (ha.one u t rows' rows h ho))]
      exact ih

theorem run_lib_quiet (h : ∀ t rows, ops t ≠ .insert rows) (sched : List Nat) : (s0.run env ops sched).lib = s0.lib := by
  induction sched using List.reverseRecOn with
  | nil => rfl
  | append_singleton sched u ih =>
    have hrun : s0.run env ops (sched ++ [u]) = (s0.run env ops sched).step env ops u := by
      simp only [run, List.foldl_append, List.foldl_cons, List.foldl_nil]
    rw [hrun, lib_others (h u), ih]

end Valori.AConc

namespace Valori.Props
open Valori Valori.AConc
open Valori.Spec (AnHit)

variable {L V F M : Type} {env : AConcEnv L V F} {ops : Nat → AOp V M} {s0 : AConc L V F M} {held : L → Nat → Prop}

/-- All insertions and deletions have ended. -/
def AllOverA (ops : Nat → AOp V M) (s : AConc L V F M) : Prop :=
  ∀ t, (∀ q k, ops t ≠ .search q k) → ∃ r, s.thr t = .done r

/-- **C243**, Annoy: one thread inserts and others delete ids given before; two executions in which insertions and
deletions have ended leave the same vectors, the same metadata, the same next id and the same library object. -/
theorem C243_annoy (hl : LibOk env held) (hr : AtRest held s0) (h0 : ∀ t, s0.thr t = .start) (ha : Apart ops s0)
    {sched sched' : List Nat} (hb : AllOverA ops (s0.run env ops sched)) (hb' : AllOverA ops (s0.run env ops sched')) :
    (s0.run env ops sched).vectors = (s0.run env ops sched').vectors ∧
    (s0.run env ops sched).metas = (s0.run env ops sched').metas ∧
    (s0.run env ops sched).nextId = (s0.run env ops sched').nextId ∧
    (s0.run env ops sched).lib = (s0.run env ops sched').lib := by
  have ia := run_invA hl hr h0 ha sched
  have ib := run_invA hl hr h0 ha sched'
  have old : ∀ id : Nat, id < s0.nextId →
      (s0.run env ops sched).vectors[id]? = (s0.run env ops sched').vectors[id]? ∧
      (s0.run env ops sched).metas[id]? = (s0.run env ops sched').metas[id]? := by
    intro id hid
    by_cases hn : Named ops id
    · obtain ⟨t, ids, ho, hi⟩ := hn
      obtain ⟨r, hd⟩ := hb t fun q k h => by rw [ho] at h; cases h
      obtain ⟨r', hd'⟩ := hb' t fun q k h => by rw [ho] at h; cases h
      have g := (C245_deleted hl hr h0 ha ho hd).2 id hi
      have g' := (C245_deleted hl hr h0 ha ho hd').2 id hi
      exact ⟨g.1.trans g'.1.symm, g.2.trans g'.2.symm⟩
    · have g := C245_untouched hl hr h0 ha hid hn sched
      have g' := C245_untouched hl hr h0 ha hid hn sched'
      exact ⟨g.1.trans g'.1.symm, g.2.trans g'.2.symm⟩
  by_cases hi : ∃ t rows, ops t = .insert rows
  · obtain ⟨t, rows, ho⟩ := hi
    obtain ⟨r, hd⟩ := hb t fun q k h => by rw [ho] at h; cases h
    obtain ⟨r', hd'⟩ := hb' t fun q k h => by rw [ho] at h; cases h
    have g := ia.ins t rows ho
    have g' := ib.ins t rows ho
    have e := run_given hl hr h0 ha ho sched
    have e' := run_given hl hr h0 ha ho sched'
    rw [hd] at g e
    rw [hd'] at g' e'
    obtain ⟨-, a1, a2, a3⟩ := g
    obtain ⟨-, b1, b2, b3⟩ := g'
    refine ⟨List.ext_getElem? fun id => ?_, List.ext_getElem? fun id => ?_, a1.trans b1.symm,
      Option.some.inj (e.symm.trans e')⟩
    · by_cases h : id < s0.nextId
      · exact (old id h).1
      · by_cases h' : id < s0.nextId + rows.length
        · obtain ⟨i, rfl⟩ : ∃ i, id = s0.nextId + i := ⟨id - s0.nextId, by omega⟩
          rw [ia.newVec t rows ho i (by omega), ib.newVec t rows ho i (by omega)]
        · rw [List.getElem?_eq_none (by omega), List.getElem?_eq_none (by omega)]
    · by_cases h : id < s0.nextId
      · exact (old id h).2
      · by_cases h' : id < s0.nextId + rows.length
        · obtain ⟨i, rfl⟩ : ∃ i, id = s0.nextId + i := ⟨id - s0.nextId, by omega⟩
          rw [ia.newMd t rows ho i (by omega), ib.newMd t rows ho i (by omega)]
        · rw [List.getElem?_eq_none (by omega), List.getElem?_eq_none (by omega)]
  · have hq : ∀ t rows, ops t ≠ .insert rows := fun t rows h => hi ⟨t, rows, h⟩
    obtain ⟨a1, a2, a3⟩ := ia.quiet hq
    obtain ⟨b1, b2, b3⟩ := ib.quiet hq
    refine ⟨List.ext_getElem? fun id => ?_, List.ext_getElem? fun id => ?_, a1.trans b1.symm,
      (run_lib_quiet hq sched).trans (run_lib_quiet hq sched').symm⟩
    · by_cases h : id < s0.nextId
      · exact (old id h).1
      · rw [List.getElem?_eq_none (by omega), List.getElem?_eq_none (by omega)]
    · by_cases h : id < s0.nextId
      · exact (old id h).2
      · rw [List.getElem?_eq_none (by omega), List.getElem?_eq_none (by omega)]

/-- In the case of C245 insertion and deletion come to their ends, in this order and statement by statement. -/
example : AllOverA anOps (anTwo.run anv anOps (List.replicate 13 0 ++ List.replicate 4 1)) ∧
    AllOverA anOps (anTwo.run anv anOps ([0, 1, 0, 1, 0, 1, 0, 1] ++ List.replicate 9 0)) := by
  constructor <;> intro t h <;> match t with
    | 0 => exact ⟨_, rfl⟩
    | 1 => exact ⟨_, rfl⟩
    | _ + 2 => exact absurd rfl (h 4 5)

end Valori.Props
