import Verif.Spec.AnnoyConc
import Mathlib.Data.List.Induction

/-!
# Several threads on one Annoy index: the invariant
-/

namespace Valori.AConc
open Valori.Spec (AnHit)

variable {L V F M : Type} {env : AConcEnv L V F} {ops : Nat → AOp V M} {s0 s : AConc L V F M} {held : L → Nat → Prop}

/-- Lengths and next id. -/
def Sizes (s : AConc L V F M) (nx vl ml : Nat) : Prop :=
  s.nextId = nx ∧ s.vectors.length = vl ∧ s.metas.length = ml

/-- How far an insertion of `rows` is that found `n` ids. -/
def AtIns (n : Nat) (rows : List (V × M)) (s : AConc L V F M) : AAt F M → Prop
  | .start => Sizes s n n n
  | .ins i ids p => i < rows.length ∧ ids = List.range' n i ∧
    match p with
    | .read => Sizes s (n + i) (n + i) (n + i)
    | .load id => id = n + i ∧ Sizes s (n + i) (n + i) (n + i)
    | .put id x => id = n + i ∧ x = n + i ∧ Sizes s (n + i) (n + i) (n + i)
    | .vec id => id = n + i ∧ Sizes s (n + i + 1) (n + i) (n + i)
    | .md id => id = n + i ∧ Sizes s (n + i + 1) (n + i + 1) (n + i)
    | .add id => id = n + i ∧ Sizes s (n + i + 1) (n + i + 1) (n + i + 1)
  | .done r => r = .ids (List.range' n rows.length) ∧ Sizes s (n + rows.length) (n + rows.length) (n + rows.length)
  | _ => False

/-- How far a deletion is. -/
def AtDel (ids : List Nat) (s : AConc L V F M) : AAt F M → Prop
  | .start => True
  | .del todo p => todo ≠ [] ∧ (∃ pre, ids = pre ++ todo ∧ ∀ id ∈ pre, Gone s id) ∧
    match p with
    | .md => ∀ id ∈ todo.head?, s.vectors[id]? = some none
    | _ => True
  | .done r => r = .flag true ∧ ∀ id ∈ ids, Gone s id
  | _ => False

/-- The library was asked in a state of the execution, and its answer is what has been looked at and what remains. -/
def Asked (env : AConcEnv L V F) (ops : Nat → AOp V M) (s0 : AConc L V F M) (sched : List Nat) (q : V) (k : Int)
    (s : AConc L V F M) (todo : List (Nat × F)) (acc : List (AnHit F M)) : Prop :=
  ∃ p sk ns, p <+: sched ∧ env.nns (s0.run env ops p).lib q k sk = some ns ∧
    acc.map (fun h => (h.id, h.score)) ++ todo.map (fun x => (x.1, env.sim x.2)) = ns.map (fun x => (x.1, env.sim x.2)) ∧
    (∀ x ∈ todo, x.1 < s.metas.length ∧ x.1 < s.vectors.length) ∧ ∀ h ∈ acc, MetaOk ops s0 h.id h.md

/-- How far a search is. -/
def AtSr (env : AConcEnv L V F) (ops : Nat → AOp V M) (s0 : AConc L V F M) (sched : List Nat) (q : V) (k : Int)
    (s : AConc L V F M) : AAt F M → Prop
  | .start => True
  | .srch (.nns _) => True
  | .srch (.test todo acc) => Asked env ops s0 sched q k s todo acc
  | .srch (.md n d todo acc) => Asked env ops s0 sched q k s ((n, d) :: todo) acc
  | .done r => ∃ l, r = .hits l ∧ Asked env ops s0 sched q k s [] l
  | _ => False

/-- What holds all the time. -/
structure Inv (env : AConcEnv L V F) (held : L → Nat → Prop) (ops : Nat → AOp V M) (s0 : AConc L V F M)
    (sched : List Nat) (s : AConc L V F M) : Prop where
  ins : ∀ t rows, ops t = .insert rows → AtIns s0.nextId rows s (s.thr t)
  del : ∀ t ids, ops t = .delete ids → AtDel ids s (s.thr t)
  sr : ∀ t q k, ops t = .search q k → AtSr env ops s0 sched q k s (s.thr t)
  quiet : (∀ t rows, ops t ≠ .insert rows) → Sizes s s0.nextId s0.nextId s0.nextId
  vecLen : s0.nextId ≤ s.vectors.length
  mdLen : s0.nextId ≤ s.metas.length
  vec : ∀ id, id < s0.nextId → s.vectors[id]? = s0.vectors[id]? ∨ (s.vectors[id]? = some none ∧ Named ops id)
  md : ∀ id, id < s0.nextId → s.metas[id]? = s0.metas[id]? ∨ (s.metas[id]? = some none ∧ Named ops id)
  newVec : ∀ t rows, ops t = .insert rows → ∀ i, s0.nextId + i < s.vectors.length →
    s.vectors[s0.nextId + i]? = (rows[i]?).map fun x => some x.1
  newMd : ∀ t rows, ops t = .insert rows → ∀ i, s0.nextId + i < s.metas.length →
    s.metas[s0.nextId + i]? = (rows[i]?).map fun x => some x.2
  lib : ∀ n, held s.lib n → n < s.metas.length ∧ n < s.vectors.length

theorem Inv.start (hr : AtRest held s0) (h0 : ∀ t, s0.thr t = .start) : Inv env held ops s0 [] s0 := by
  refine ⟨fun t rows _ => ?_, fun t ids _ => ?_, fun t q k _ => ?_, fun _ => ⟨rfl, hr.vec, hr.md⟩, hr.vec.ge, hr.md.ge,
    fun _ _ => .inl rfl, fun _ _ => .inl rfl, fun _ _ _ i h => ?_, fun _ _ _ i h => ?_, fun n h => ?_⟩
  · rw [h0]; exact ⟨rfl, hr.vec, hr.md⟩
  · rw [h0]; trivial
  · rw [h0]; trivial
  · rw [hr.vec] at h; omega
  · rw [hr.md] at h; omega
  · have := hr.lib n h
    rw [hr.md, hr.vec]; exact ⟨this, this⟩

theorem AtIns.sizes {n : Nat} {rows : List (V × M)} {s s' : AConc L V F M} {p : AAt F M} (h : AtIns n rows s p)
    (h1 : s'.nextId = s.nextId) (h2 : s'.vectors.length = s.vectors.length) (h3 : s'.metas.length = s.metas.length) :
    AtIns n rows s' p := by
  have e : ∀ a b c, Sizes s a b c → Sizes s' a b c := fun a b c ⟨x, y, z⟩ => ⟨h1.trans x, h2.trans y, h3.trans z⟩
  cases p with
  | start => exact e _ _ _ h
  | ins i ids p =>
    obtain ⟨a, b, c⟩ := h
    refine ⟨a, b, ?_⟩
    cases p with
    | read => exact e _ _ _ c
    | load id => exact ⟨c.1, e _ _ _ c.2⟩
    | put id n => exact ⟨c.1, c.2.1, e _ _ _ c.2.2⟩
    | vec id => exact ⟨c.1, e _ _ _ c.2⟩
    | md id => exact ⟨c.1, e _ _ _ c.2⟩
    | add id => exact ⟨c.1, e _ _ _ c.2⟩
  | del _ _ => exact h.elim
  | srch _ => exact h.elim
  | done r => exact ⟨h.1, e _ _ _ h.2⟩

theorem AtDel.stays {ids : List Nat} {s s' : AConc L V F M} {p : AAt F M} (h : AtDel ids s p)
    (h1 : ∀ id : Nat, s.vectors[id]? = some none → s'.vectors[id]? = some none)
    (h2 : ∀ id : Nat, s.metas[id]? = some none → s'.metas[id]? = some none) : AtDel ids s' p := by
  have e : ∀ id, Gone s id → Gone s' id := fun id h => ⟨h1 id h.1, h2 id h.2⟩
  cases p with
  | start => trivial
  | del todo p =>
    obtain ⟨a, ⟨pre, b, c⟩, d⟩ := h
    refine ⟨a, ⟨pre, b, fun id hid => e id (c id hid)⟩, ?_⟩
    cases p with
    | test => trivial
    | vec => trivial
    | md => exact fun id hid => h1 id (d id hid)
  | ins _ _ _ => exact h.elim
  | srch _ => exact h.elim
  | done r => exact ⟨h.1, fun id hid => e id (h.2 id hid)⟩

theorem Asked.stays {sched : List Nat} {u : Nat} {q : V} {k : Int} {s s' : AConc L V F M} {todo : List (Nat × F)}
    {acc : List (AnHit F M)} (h : Asked env ops s0 sched q k s todo acc) (h1 : s.vectors.length ≤ s'.vectors.length)
    (h2 : s.metas.length ≤ s'.metas.length) : Asked env ops s0 (sched ++ [u]) q k s' todo acc := by
  obtain ⟨p, sk, ns, a, b, c, d, e⟩ := h
  exact ⟨p, sk, ns, a.trans (List.prefix_append _ _), b, c, fun x hx => ⟨by have := (d x hx).1; omega,
    by have := (d x hx).2; omega⟩, e⟩

theorem AtSr.stays {sched : List Nat} {u : Nat} {q : V} {k : Int} {s s' : AConc L V F M} {p : AAt F M}
    (h : AtSr env ops s0 sched q k s p) (h1 : s.vectors.length ≤ s'.vectors.length)
    (h2 : s.metas.length ≤ s'.metas.length) : AtSr env ops s0 (sched ++ [u]) q k s' p := by
  cases p with
  | start => trivial
  | srch p =>
    cases p with
    | nns _ => trivial
    | test _ _ => exact Asked.stays h h1 h2
    | md _ _ _ _ => exact Asked.stays h h1 h2
  | ins _ _ _ => exact h.elim
  | del _ _ => exact h.elim
  | done r => obtain ⟨l, a, b⟩ := h; exact ⟨l, a, b.stays h1 h2⟩

/-! ## A search -/

theorem Inv.metaOk {sched : List Nat} (h : Inv env held ops s0 sched s) {n : Nat} {m : Option M}
    (hm : s.metas[n]? = some m) : MetaOk ops s0 n m := by
  have hlt : n < s.metas.length := (List.getElem?_eq_some_iff.1 hm).1
  by_cases hn : n < s0.nextId
  · rcases h.md n hn with e | ⟨e, e'⟩
    · exact .inl (by rw [← e, hm])
    · rw [e] at hm
      exact .inr (.inl ⟨(Option.some.inj hm).symm, e'⟩)
  · by_cases hi : ∃ t rows, ops t = .insert rows
    · obtain ⟨t, rows, ho⟩ := hi
      have := h.newMd t rows ho (n - s0.nextId) (by omega)
      rw [show s0.nextId + (n - s0.nextId) = n by omega, hm] at this
      cases hx : rows[n - s0.nextId]? with
      | none => rw [hx] at this; cases this
      | some x =>
        rw [hx] at this
        exact .inr (.inr ⟨t, rows, x.1, x.2, ho, by omega, hx, Option.some.inj this⟩)
    · have := (h.quiet fun t rows ho => hi ⟨t, rows, ho⟩).2.2
      omega

theorem asked_next {sched : List Nat} {q : V} {k : Int} {todo : List (Nat × F)} {acc : List (AnHit F M)}
    (h : Asked env ops s0 sched q k s todo acc) : AtSr env ops s0 sched q k s (nextHit acc todo) := by
  cases todo with
  | nil => exact ⟨acc, rfl, h⟩
  | cons x todo => exact h

theorem sr_own (hl : LibOk env held) {sched : List Nat} (h : Inv env held ops s0 sched s)
    (hs : s = s0.run env ops sched) {q : V} {k : Int} {p : ASr F M} (hp : AtSr env ops s0 sched q k s (.srch p)) :
    AtSr env ops s0 sched q k s (stepSrch env q k s p) := by
  cases p with
  | nns sk =>
    obtain ⟨ns, hn⟩ := hl.answers s.lib q k sk
    simp only [stepSrch, hn]
    refine asked_next ⟨sched, sk, ns, List.prefix_rfl, by rw [← hs]; exact hn, by simp, fun x hx => ?_, by simp⟩
    exact h.lib x.1 (hl.named _ _ _ _ _ hn x hx)
  | test todo acc =>
    cases todo with
    | nil => exact ⟨acc, rfl, hp⟩
    | cons x todo =>
      obtain ⟨n, d⟩ := x
      have hlt : n < s.vectors.length := by
        obtain ⟨_, _, _, _, _, _, e, _⟩ := hp
        exact (e _ List.mem_cons_self).2
      simp only [stepSrch, if_pos hlt]
      exact hp
  | md n d todo acc =>
    obtain ⟨p, sk, ns, a, b, c, e, f⟩ := hp
    have hlt : n < s.metas.length := (e _ List.mem_cons_self).1
    obtain ⟨m, hm⟩ : ∃ m, s.metas[n]? = some m := ⟨_, List.getElem?_eq_getElem hlt⟩
    simp only [stepSrch, hm]
    refine asked_next ⟨p, sk, ns, a, b, ?_, fun x hx => e x (List.mem_cons_of_mem _ hx), fun x hx => ?_⟩
    · rw [← c]; simp
    · rcases List.mem_append.1 hx with hx | hx
      · exact f x hx
      · rw [List.mem_singleton] at hx
        subst hx
        exact h.metaOk hm

/-! ## The steps -/

theorem Inv.srStep {sched : List Nat} (h : Inv env held ops s0 sched s) {u : Nat} {q : V} {k : Int}
    (ho : ops u = .search q k) {p : AAt F M} (hp : AtSr env ops s0 sched q k s p) :
    Inv env held ops s0 (sched ++ [u]) { s with thr := Function.update s.thr u p } := by
  have other : ∀ t, t ≠ u → Function.update s.thr u p t = s.thr t := fun t ht => Function.update_of_ne ht _ _
  refine ⟨fun t rows ht => ?_, fun t ids ht => ?_, fun t q' k' ht => ?_, h.quiet, h.vecLen, h.mdLen, h.vec, h.md, h.newVec,
    h.newMd, h.lib⟩
  · have hne : t ≠ u := fun e => by rw [e, ho] at ht; cases ht
    show AtIns _ _ _ (Function.update s.thr u p t)
    rw [other t hne]; exact (h.ins t rows ht).sizes rfl rfl rfl
  · have hne : t ≠ u := fun e => by rw [e, ho] at ht; cases ht
    show AtDel _ _ (Function.update s.thr u p t)
    rw [other t hne]; exact (h.del t ids ht).stays (fun _ e => e) (fun _ e => e)
  · show AtSr _ _ _ _ _ _ _ (Function.update s.thr u p t)
    by_cases e : t = u
    · subst e
      rw [ho] at ht; cases ht
      rw [Function.update_self]
      exact hp.stays le_rfl le_rfl
    · rw [other t e]; exact (h.sr t q' k' ht).stays le_rfl le_rfl

theorem Inv.insStep {sched : List Nat} (ha : Apart ops s0) (h : Inv env held ops s0 sched s) {u : Nat}
    {rows : List (V × M)} (ho : ops u = .insert rows) {p : AAt F M} (s' : AConc L V F M)
    (hv : s'.vectors = s.vectors ∨ ∃ i x, rows[i]? = some x ∧ s.vectors.length = s0.nextId + i ∧
      s'.vectors = s.vectors ++ [some x.1])
    (hm : s'.metas = s.metas ∨ ∃ i x, rows[i]? = some x ∧ s.metas.length = s0.nextId + i ∧
      s'.metas = s.metas ++ [some x.2])
    (hl : ∀ n, held s'.lib n → n < s'.metas.length ∧ n < s'.vectors.length) (hp : AtIns s0.nextId rows s' p) :
    Inv env held ops s0 (sched ++ [u]) { s' with thr := Function.update s.thr u p } := by
  have other : ∀ t, t ≠ u → Function.update s.thr u p t = s.thr t := fun t ht => Function.update_of_ne ht _ _
  have hvl : s.vectors.length ≤ s'.vectors.length := by
    rcases hv with e | ⟨i, x, -, -, e⟩ <;> rw [e] <;> simp
  have hml : s.metas.length ≤ s'.metas.length := by
    rcases hm with e | ⟨i, x, -, -, e⟩ <;> rw [e] <;> simp
  have hvk : ∀ id, id < s.vectors.length → s'.vectors[id]? = s.vectors[id]? := by
    intro id hid
    rcases hv with e | ⟨i, x, -, -, e⟩ <;> rw [e]
    rw [List.getElem?_append_left hid]
  have hmk : ∀ id, id < s.metas.length → s'.metas[id]? = s.metas[id]? := by
    intro id hid
    rcases hm with e | ⟨i, x, -, -, e⟩ <;> rw [e]
    rw [List.getElem?_append_left hid]
  refine ⟨fun t rows' ht => ?_, fun t ids ht => ?_, fun t q' k' ht => ?_, fun hq => absurd ho (hq u rows),
    h.vecLen.trans hvl, h.mdLen.trans hml, fun id hid => ?_, fun id hid => ?_, fun t rows' ht i hi => ?_,
    fun t rows' ht i hi => ?_, hl⟩
  · have e := ha.one t u rows' rows ht ho
    subst e
    rw [ho] at ht; cases ht
    show AtIns _ _ _ (Function.update s.thr t p t)
    rw [Function.update_self]
    exact hp.sizes rfl rfl rfl
  · have hne : t ≠ u := fun e => by rw [e, ho] at ht; cases ht
    show AtDel _ _ (Function.update s.thr u p t)
    rw [other t hne]
    refine (h.del t ids ht).stays (fun id e => ?_) (fun id e => ?_)
    · exact (hvk id (List.getElem?_eq_some_iff.1 e).1).trans e
    · exact (hmk id (List.getElem?_eq_some_iff.1 e).1).trans e
  · have hne : t ≠ u := fun e => by rw [e, ho] at ht; cases ht
    show AtSr _ _ _ _ _ _ _ (Function.update s.thr u p t)
    rw [other t hne]
    exact (h.sr t q' k' ht).stays hvl hml
  · show s'.vectors[id]? = _ ∨ (s'.vectors[id]? = _ ∧ _)
    rw [hvk id (by have := h.vecLen; omega)]
    exact h.vec id hid
  · show s'.metas[id]? = _ ∨ (s'.metas[id]? = _ ∧ _)
    rw [hmk id (by have := h.mdLen; omega)]
    exact h.md id hid
  · have e := ha.one t u rows' rows ht ho
    subst e
    rw [ho] at ht; cases ht
    show s'.vectors[s0.nextId + i]? = _
    rcases hv with e | ⟨j, x, hx, hj, e⟩
    · rw [e]; exact h.newVec t rows ho i (by rw [← e]; exact hi)
    · by_cases hlt : s0.nextId + i < s.vectors.length
      · rw [hvk _ hlt]; exact h.newVec t rows ho i hlt
      · have hi : s0.nextId + i < s'.vectors.length := hi
        rw [e, List.length_append, List.length_singleton] at hi
        have : i = j := by omega
        subst this
        rw [e, List.getElem?_append_right (by omega), hx, hj]; simp
  · have e := ha.one t u rows' rows ht ho
    subst e
    rw [ho] at ht; cases ht
    show s'.metas[s0.nextId + i]? = _
    rcases hm with e | ⟨j, x, hx, hj, e⟩
    · rw [e]; exact h.newMd t rows ho i (by rw [← e]; exact hi)
    · by_cases hlt : s0.nextId + i < s.metas.length
      · rw [hmk _ hlt]; exact h.newMd t rows ho i hlt
      · have hi : s0.nextId + i < s'.metas.length := hi
        rw [e, List.length_append, List.length_singleton] at hi
        have : i = j := by omega
        subst this
        rw [e, List.getElem?_append_right (by omega), hx, hj]; simp

theorem set_none {α : Type} (l : List (Option α)) (i id : Nat) (h : l[id]? = some none) :
    (l.set i none)[id]? = some none := by
  rw [List.getElem?_set]
  split
  · rename_i e
    subst e
    rw [if_pos (List.getElem?_eq_some_iff.1 h).1]
  · exact h

theorem Inv.delStep {sched : List Nat} (h : Inv env held ops s0 sched s) {u : Nat} {ids : List Nat}
    (ho : ops u = .delete ids) {p : AAt F M} (s' : AConc L V F M) (hn : s'.nextId = s.nextId) (hlb : s'.lib = s.lib)
    (hv : s'.vectors = s.vectors ∨ ∃ i, i < s0.nextId ∧ Named ops i ∧ s'.vectors = s.vectors.set i none)
    (hm : s'.metas = s.metas ∨ ∃ i, i < s0.nextId ∧ Named ops i ∧ s'.metas = s.metas.set i none)
    (hp : AtDel ids s' p) :
    Inv env held ops s0 (sched ++ [u]) { s' with thr := Function.update s.thr u p } := by
  have other : ∀ t, t ≠ u → Function.update s.thr u p t = s.thr t := fun t ht => Function.update_of_ne ht _ _
  have hvl : s'.vectors.length = s.vectors.length := by
    rcases hv with e | ⟨i, -, -, e⟩ <;> rw [e]
    simp
  have hml : s'.metas.length = s.metas.length := by
    rcases hm with e | ⟨i, -, -, e⟩ <;> rw [e]
    simp
  have hvk : ∀ id : Nat, s'.vectors[id]? = s.vectors[id]? ∨
      (id < s0.nextId ∧ Named ops id ∧ s'.vectors[id]? = some none) := by
    intro id
    rcases hv with e | ⟨i, h1, h2, e⟩
    · rw [e]; exact .inl rfl
    · rw [e, List.getElem?_set]
      split
      · rename_i e'
        subst e'
        rw [if_pos (by have := h.vecLen; omega)]
        exact .inr ⟨h1, h2, rfl⟩
      · exact .inl rfl
  have hmk : ∀ id : Nat, s'.metas[id]? = s.metas[id]? ∨
      (id < s0.nextId ∧ Named ops id ∧ s'.metas[id]? = some none) := by
    intro id
    rcases hm with e | ⟨i, h1, h2, e⟩
    · rw [e]; exact .inl rfl
    · rw [e, List.getElem?_set]
      split
      · rename_i e'
        subst e'
        rw [if_pos (by have := h.mdLen; omega)]
        exact .inr ⟨h1, h2, rfl⟩
      · exact .inl rfl
  refine ⟨fun t rows' ht => ?_, fun t ids' ht => ?_, fun t q' k' ht => ?_, fun hq => ?_,
    by rw [show _ = _ from hvl]; exact h.vecLen, by rw [show _ = _ from hml]; exact h.mdLen, fun id hid => ?_,
    fun id hid => ?_, fun t rows' ht i hi => ?_, fun t rows' ht i hi => ?_, fun n hh => ?_⟩
  · have hne : t ≠ u := fun e => by rw [e, ho] at ht; cases ht
    show AtIns _ _ _ (Function.update s.thr u p t)
    rw [other t hne]
    exact (h.ins t rows' ht).sizes hn hvl hml
  · show AtDel _ _ (Function.update s.thr u p t)
    by_cases e : t = u
    · subst e
      rw [ho] at ht; cases ht
      rw [Function.update_self]
      exact hp.stays (fun _ e => e) (fun _ e => e)
    · rw [other t e]
      refine (h.del t ids' ht).stays (fun id e => ?_) (fun id e => ?_)
      · rcases hvk id with e' | ⟨-, -, e'⟩
        · exact e'.trans e
        · exact e'
      · rcases hmk id with e' | ⟨-, -, e'⟩
        · exact e'.trans e
        · exact e'
  · have hne : t ≠ u := fun e => by rw [e, ho] at ht; cases ht
    show AtSr _ _ _ _ _ _ _ (Function.update s.thr u p t)
    rw [other t hne]
    exact (h.sr t q' k' ht).stays hvl.ge hml.ge
  · obtain ⟨a, b, c⟩ := h.quiet hq
    exact ⟨hn.trans a, hvl.trans b, hml.trans c⟩
  · rcases hvk id with e | ⟨-, e', e⟩
    · show s'.vectors[id]? = _ ∨ (s'.vectors[id]? = _ ∧ _)
      rw [e]; exact h.vec id hid
    · exact .inr ⟨e, e'⟩
  · rcases hmk id with e | ⟨-, e', e⟩
    · show s'.metas[id]? = _ ∨ (s'.metas[id]? = _ ∧ _)
      rw [e]; exact h.md id hid
    · exact .inr ⟨e, e'⟩
  · rcases hvk (s0.nextId + i) with e | ⟨e, -, -⟩
    · exact e.trans (h.newVec t rows' ht i (hvl ▸ hi))
    · omega
  · rcases hmk (s0.nextId + i) with e | ⟨e, -, -⟩
    · exact e.trans (h.newMd t rows' ht i (hml ▸ hi))
    · omega
  · have := h.lib n (hlb ▸ hh)
    exact ⟨by rw [show _ = _ from hml]; exact this.1, by rw [show _ = _ from hvl]; exact this.2⟩

theorem nextRow_at {n i : Nat} {rows : List (V × M)} (hi : i ≤ rows.length) (h : Sizes s (n + i) (n + i) (n + i)) :
    AtIns n rows s (nextRow rows i (List.range' n i)) := by
  unfold nextRow
  split
  · exact ⟨by assumption, rfl, h⟩
  · have : i = rows.length := by omega
    subst this
    exact ⟨rfl, h⟩

theorem nextDel_at {ids pre todo : List Nat} (h : ids = pre ++ todo) (hg : ∀ id ∈ pre, Gone s id) :
    AtDel ids s (nextDel todo) := by
  cases todo with
  | nil => exact ⟨rfl, by rw [h, List.append_nil]; exact hg⟩
  | cons x l => exact ⟨by simp, ⟨pre, h, hg⟩, trivial⟩

theorem Inv.idle {sched : List Nat} (h : Inv env held ops s0 sched s) (u : Nat) : Inv env held ops s0 (sched ++ [u]) s :=
  ⟨h.ins, h.del, fun t q k ht => (h.sr t q k ht).stays le_rfl le_rfl, h.quiet, h.vecLen, h.mdLen, h.vec, h.md, h.newVec,
    h.newMd, h.lib⟩

theorem Inv.next (hl : LibOk env held) (ha : Apart ops s0) {sched : List Nat} (h : Inv env held ops s0 sched s)
    (hs : s = s0.run env ops sched) (u : Nat) : Inv env held ops s0 (sched ++ [u]) (s.step env ops u) := by
  cases ho : ops u with
  | search q k =>
    have hu := h.sr u q k ho
    cases ht : s.thr u with
    | start => simp only [step, ho, ht]; exact h.srStep ho trivial
    | srch p => simp only [step, ho, ht]; rw [ht] at hu; exact h.srStep ho (sr_own hl h hs hu)
    | ins _ _ _ => rw [ht] at hu; exact hu.elim
    | del _ _ => rw [ht] at hu; exact hu.elim
    | done _ => simp only [step, ho, ht]; exact h.idle u
  | insert rows =>
    have hu := h.ins u rows ho
    cases ht : s.thr u with
    | start =>
      rw [ht] at hu
      simp only [step, ho, ht]
      exact h.insStep ha ho s (.inl rfl) (.inl rfl) h.lib (nextRow_at (i := 0) (by omega) hu)
    | ins i ids p =>
      rw [ht] at hu
      obtain ⟨hi, rfl, hp⟩ := hu
      obtain ⟨x, hx⟩ : ∃ x, rows[i]? = some x := ⟨_, List.getElem?_eq_getElem hi⟩
      simp only [step, ho, ht]
      cases p with
      | read =>
        simp only [stepIns]
        exact h.insStep ha ho s (.inl rfl) (.inl rfl) h.lib ⟨hi, rfl, hp.1, hp⟩
      | load id =>
        simp only [stepIns]
        exact h.insStep ha ho s (.inl rfl) (.inl rfl) h.lib ⟨hi, rfl, hp.1, hp.2.1, hp.2⟩
      | put id n =>
        simp only [stepIns]
        exact h.insStep ha ho { s with nextId := n + 1 } (.inl rfl) (.inl rfl) h.lib
          ⟨hi, rfl, hp.1, by rw [hp.2.1], hp.2.2.2⟩
      | vec id =>
        obtain ⟨h1, h2, h3, h4⟩ := hp
        simp only [stepIns, hx]
        refine h.insStep ha ho { s with vectors := s.vectors ++ [some x.1] } (.inr ⟨i, x, hx, h3, rfl⟩) (.inl rfl)
          (fun n hn => ?_) ⟨hi, rfl, h1, h2, by simp [h3], h4⟩
        have := h.lib n hn
        exact ⟨this.1, by simp only [List.length_append]; omega⟩
      | md id =>
        obtain ⟨h1, h2, h3, h4⟩ := hp
        simp only [stepIns, hx]
        refine h.insStep ha ho { s with metas := s.metas ++ [some x.2] } (.inl rfl) (.inr ⟨i, x, hx, h4, rfl⟩)
          (fun n hn => ?_) ⟨hi, rfl, h1, h2, h3, by simp [h4]⟩
        have := h.lib n hn
        exact ⟨by simp only [List.length_append]; omega, this.2⟩
      | add id =>
        obtain ⟨h1, h2, h3, h4⟩ := hp
        obtain ⟨l, hal⟩ := hl.add s.lib id x.1
        simp only [stepIns, hx, hal]
        subst h1
        have e : List.range' s0.nextId i ++ [s0.nextId + i] = List.range' s0.nextId (i + 1) := by
          rw [List.range'_concat]; simp
        rw [e]
        refine h.insStep ha ho { s with lib := l } (.inl rfl) (.inl rfl) (fun n hn => ?_)
          (nextRow_at (by omega) ⟨h2, h3, h4⟩)
        rcases hl.grows _ _ _ _ n hal hn with hn | hn
        · exact h.lib n hn
        · show n < s.metas.length ∧ n < s.vectors.length
          omega
    | srch _ => rw [ht] at hu; exact hu.elim
    | del _ _ => rw [ht] at hu; exact hu.elim
    | done _ => simp only [step, ho, ht]; exact h.idle u
  | delete ids =>
    have hu := h.del u ids ho
    cases ht : s.thr u with
    | start =>
      simp only [step, ho, ht]
      exact h.delStep ho s rfl rfl (.inl rfl) (.inl rfl) (nextDel_at (pre := []) rfl (by simp))
    | del todo p =>
      rw [ht] at hu
      obtain ⟨hne, ⟨pre, he, hg⟩, hp⟩ := hu
      obtain ⟨id, rest, rfl⟩ : ∃ a l, todo = a :: l := List.exists_cons_of_ne_nil hne
      have hmem : id ∈ ids := by rw [he]; simp
      have hold := ha.old u ids ho id hmem
      have hnm : Named ops id := ⟨u, ids, ho, hmem⟩
      have hv : id < s.vectors.length := by have := h.vecLen; omega
      have hm : id < s.metas.length := by have := h.mdLen; omega
      simp only [step, ho, ht]
      cases p with
      | test =>
        simp only [stepDel, if_pos hv]
        exact h.delStep ho s rfl rfl (.inl rfl) (.inl rfl) ⟨by simp, ⟨pre, he, hg⟩, trivial⟩
      | vec =>
        simp only [stepDel, if_pos hv]
        refine h.delStep ho { s with vectors := s.vectors.set id none } rfl rfl (.inr ⟨id, hold, hnm, rfl⟩) (.inl rfl)
          ⟨by simp, ⟨pre, he, fun x hx => ⟨set_none _ _ _ (hg x hx).1, (hg x hx).2⟩⟩, fun x hx => ?_⟩
        simp only [List.head?_cons, Option.mem_def, Option.some.injEq] at hx
        subst hx
        simp [List.getElem?_set, hv]
      | md =>
        have hvn := hp id (by simp)
        simp only [stepDel, if_pos hm]
        refine h.delStep ho { s with metas := s.metas.set id none } rfl rfl (.inl rfl) (.inr ⟨id, hold, hnm, rfl⟩)
          (nextDel_at (pre := pre ++ [id]) (by rw [he]; simp) fun x hx => ?_)
        rcases List.mem_append.1 hx with hx | hx
        · exact ⟨(hg x hx).1, set_none _ _ _ (hg x hx).2⟩
        · rw [List.mem_singleton] at hx
          subst hx
          exact ⟨hvn, by simp [List.getElem?_set, hm]⟩
    | srch _ => rw [ht] at hu; exact hu.elim
    | ins _ _ _ => rw [ht] at hu; exact hu.elim
    | done _ => simp only [step, ho, ht]; exact h.idle u

theorem run_invA (hl : LibOk env held) (hr : AtRest held s0) (h0 : ∀ t, s0.thr t = .start) (ha : Apart ops s0)
    (sched : List Nat) : Inv env held ops s0 sched (s0.run env ops sched) := by
  induction sched using List.reverseRecOn with
  | nil => exact Inv.start hr h0
  | append_singleton l u ih =>
    have : s0.run env ops (l ++ [u]) = (s0.run env ops l).step env ops u := by simp [run]
    rw [this]
    exact ih.next hl ha rfl u

end Valori.AConc
