import Mathlib.Data.List.Induction
import Verif.Lemmas.LshConcInv

/-!
# Steps of the calls on an LSH index
-/

namespace Valori
namespace LConc
variable {V M S : Type} {env : LConcEnv V S} {s s' s0 : LConc V M S} {id : Nat}

/-! ## Insertions -/

theorem same_append_vec {x : Nat} (hx : x < s.vectors.length) (y : Option V) :
    Same x s { s with vectors := s.vectors ++ [y] } :=
  ⟨by simp only [List.getElem?_append_left hx], rfl, fun _ _ => rfl⟩

theorem same_append_md {x : Nat} (hx : x < s.metas.length) (y : Option M) :
    Same x s { s with metas := s.metas ++ [y] } :=
  ⟨rfl, by simp only [List.getElem?_append_left hx], fun _ _ => rfl⟩

/-- After the last table of a row. -/
theorem next_row {rows : List (V × M)} {n0 i : Nat} (hi : i < rows.length) (h1 : RowsIn env rows n0 s (i + 1))
    (h2 : ∀ x, n0 + i < x → Absent s x) (hn : s.nextId = n0 + i + 1) (hv : s.vectors.length = n0 + i + 1)
    (hm : s.metas.length = n0 + i + 1) :
    AtIns env rows n0 s (nextRow rows (i + 1) ((List.range i).map (n0 + ·) ++ [n0 + i])) := by
  have hids : (List.range i).map (n0 + ·) ++ [n0 + i] = (List.range (i + 1)).map (n0 + ·) := by
    rw [List.range_succ, List.map_append]; rfl
  unfold nextRow
  split
  · rename_i hlt
    exact ⟨hlt, hids, h1, fun x hx => h2 x (by omega), hn, hv, hm, h2 _ (by omega)⟩
  · have e : rows.length = i + 1 := by omega
    refine ⟨by rw [hids, e], by rw [e]; exact h1, fun x hx => h2 x (by omega), ?_, ?_, ?_⟩ <;> rw [e] <;> assumption

theorem ins_step {rows : List (V × M)} {n0 i : Nat} {ids : List Nat} {p : LIns}
    (hf : ∀ x ∈ rows, Fits env s x.1) (h : AtIns env rows n0 s (.ins i ids p)) :
    AtIns env rows n0 (stepIns env rows s i ids p).2 (stepIns env rows s i ids p).1 ∧
    (∀ x, x < n0 → Same x s (stepIns env rows s i ids p).2) ∧
    (stepIns env rows s i ids p).2.tables.length = s.tables.length ∧
    s.vectors.length ≤ (stepIns env rows s i ids p).2.vectors.length ∧
    s.metas.length ≤ (stepIns env rows s i ids p).2.metas.length := by
  obtain ⟨h1, rfl, h3, h4, h5⟩ := h
  have hrow : rows[i]? = some rows[i] := List.getElem?_eq_getElem h1
  cases p with
  | read =>
    exact ⟨⟨h1, rfl, h3, h4, h5.1, h5.1, h5.2⟩, fun x _ => .refl x s, rfl, le_rfl, le_rfl⟩
  | load id =>
    exact ⟨⟨h1, rfl, h3, h4, h5.1, h5.2.1, h5.2.2.1, h5.2.2.2⟩, fun x _ => .refl x s, rfl, le_rfl, le_rfl⟩
  | put id n =>
    obtain ⟨a1, a2, a3, a4, a5⟩ := h5
    have e : ∀ x, Same x s { s with nextId := n + 1 } := fun x => ⟨rfl, rfl, fun _ _ => rfl⟩
    exact ⟨⟨h1, rfl, h3.same (fun x _ => e x) rfl, fun x hx => (h4 x hx).same (e x), a1, congrArg (· + 1) a2, a3, a4,
      a5.same (e _)⟩, fun x _ => e x, rfl, le_rfl, le_rfl⟩
  | vec id =>
    obtain ⟨a1, a2, a3, a4, a5⟩ := h5
    simp only [stepIns, hrow]
    have e : ∀ x, x < n0 + i → Same x s { s with vectors := s.vectors ++ [some rows[i].1] } := fun x hx =>
      same_append_vec (by omega) _
    have e' : ∀ x, Absent s x → Absent { s with vectors := s.vectors ++ [some rows[i].1] } x := fun x h => h
    refine ⟨⟨h1, rfl, ?_, fun x hx => e' x (h4 x hx), a1, a2, by simp [a3], a4, ?_, e' _ a5⟩,
      fun x hx => e x (by omega), by trivial, by simp, le_rfl⟩
    · intro j v m hj hr
      exact (h3 j v m hj hr).same (e _ (by omega)) rfl
    · intro v m hr
      rw [hrow] at hr
      have : rows[i].1 = v := by rw [Option.some.inj hr]
      subst this
      simp only [← a3, List.getElem?_concat_length]
  | md id =>
    obtain ⟨a1, a2, a3, a4, a5, a6⟩ := h5
    obtain ⟨codes, hc, hcl⟩ := hf rows[i] (List.getElem_mem h1)
    simp only [stepIns, hrow, hc]
    have e : ∀ x, x < n0 + i → Same x s { s with metas := s.metas ++ [some rows[i].2] } := fun x hx =>
      same_append_md (by omega) _
    have e' : ∀ x, Absent s x → Absent { s with metas := s.metas ++ [some rows[i].2] } x := fun x h => h
    refine ⟨⟨h1, rfl, ?_, fun x hx => e' x (h4 x hx), a1, a2, a3, by simp [a4], hcl, ?_, (e' _ a6).held codes 0⟩,
      fun x hx => e x (by omega), by trivial, le_rfl, by simp⟩
    · intro j v m hj hr
      exact (h3 j v m hj hr).same (e _ (by omega)) rfl
    · intro v m hr
      have h6 := a5 v m hr
      rw [hrow] at hr
      have hv : rows[i].1 = v := by rw [Option.some.inj hr]
      have hm : rows[i].2 = m := by rw [Option.some.inj hr]
      rw [hv] at hc
      refine ⟨h6, ?_, hc⟩
      rw [hm]
      simp only [← a4, List.getElem?_concat_length]
  | add id j codes =>
    obtain ⟨rfl, a2, a3, a4, a5, a6, a7⟩ := h5
    simp only [stepIns]
    cases hc : codes[j]? with
    | some c =>
      have hj : j < s.tables.length := by rw [← a5]; exact (List.getElem?_eq_some_iff.1 hc).1
      have ht : (s.push j c (n0 + i)).tables.length = s.tables.length := by simp [push]
      have e : ∀ x, x ≠ n0 + i → Same x s (s.push j c (n0 + i)) := fun x hx => same_push hx j c
      refine ⟨⟨h1, rfl, ?_, fun x hx => (h4 x hx).same (e x (by omega)), rfl, a2, a3, a4, a5.trans ht.symm, a6,
        held_push a7 hc hj⟩, fun x hx => e x (by omega), ht, le_rfl, le_rfl⟩
      intro j' v m hj' hr
      exact (h3 j' v m hj' hr).same (e _ (by omega)) ht
    | none =>
      have hj : codes.length ≤ j := List.getElem?_eq_none_iff.1 hc
      refine ⟨next_row h1 ?_ h4 a2 a3 a4, fun x _ => .refl x s, by trivial, le_rfl, le_rfl⟩
      intro j' v m hj' hr
      by_cases hlt : j' < i
      · exact h3 j' v m hlt hr
      · have : j' = i := by omega
        subst this
        have h6 := a6 v m hr
        exact a7.lives h6.1 h6.2.1 h6.2.2 a5 hj

/-! ## Updates -/

theorem upd_step {v : V} {m : Option M} {p : LUpd} (hf : Fits env s v) (h0 : (∃ w m0, Lives env s0 id w m0) ∨ Gone s0 id)
    (ht0 : s.tables.length = s0.tables.length) (h : AtUpd env id v m s0 s (.upd p)) :
    AtUpd env id v m s0 (stepUpd env id v m s p).2 (stepUpd env id v m s p).1 ∧
    (∀ x, x ≠ id → Same x s (stepUpd env id v m s p).2) ∧
    (stepUpd env id v m s p).2.tables.length = s.tables.length ∧
    SameLen s (stepUpd env id v m s p).2 := by
  have same : ∀ x, x ≠ id → Same x s s := fun x _ => .refl x s
  have len : SameLen s s := ⟨rfl, rfl, rfl⟩
  cases p with
  | live =>
    have h : Same id s0 s := h
    rcases h0 with ⟨w, m0, hw⟩ | hg
    · have hs := hw.same h ht0
      simp only [stepUpd, hs.1]
      exact ⟨⟨w, m0, hw, hs⟩, same, by trivial, len⟩
    · have hs := hg.same h
      simp only [stepUpd, hs.1]
      exact ⟨⟨hg, hs⟩, same, by trivial, len⟩
  | old =>
    obtain ⟨w, m0, hw, hs⟩ := h
    have hs : Lives env s id w m0 := hs
    obtain ⟨codes, hc, hcl, hh⟩ := hs.held
    simp only [stepUpd, hs.1, hc]
    exact ⟨⟨w, m0, hw, hs.2.1, (List.getElem?_eq_some_iff.1 hs.1).1, hcl, hh⟩, same, by trivial, len⟩
  | drop j codes =>
    obtain ⟨w, m0, hw, a1, a2, a3, a4⟩ := h
    simp only [stepUpd]
    cases hc : codes[j]? with
    | some c =>
      have hj : j < s.tables.length := by rw [← a3]; exact (List.getElem?_eq_some_iff.1 hc).1
      have ht : (s.pull j c id).tables.length = s.tables.length := by simp [pull]
      refine ⟨⟨w, m0, hw, a1, a2, a3.trans ht.symm, ?_⟩, fun x hx => same_pull hx j c, ht, ⟨rfl, rfl, rfl⟩⟩
      rw [ht]; exact held_pull a4 hc hj
    | none =>
      have hj : codes.length ≤ j := List.getElem?_eq_none_iff.1 hc
      exact ⟨⟨w, m0, hw, a1, a2, a4.absent (by omega)⟩, same, by trivial, len⟩
  | vec =>
    obtain ⟨w, m0, hw, a1, a2, a3⟩ := h
    have hv : (s.vectors.set id (some v))[id]? = some (some v) := by simp [a2]
    simp only [stepUpd]
    refine ⟨?_, fun x hx => same_set_vec hx _, by trivial, ⟨by simp, rfl, rfl⟩⟩
    cases m with
    | none => exact ⟨w, m0, hw, a1, hv, a3⟩
    | some m => exact ⟨w, m0, hw, rfl, a1, hv, a3⟩
  | md =>
    obtain ⟨w, m0, hw, a0, a1, a2, a3⟩ := h
    have hl := (List.getElem?_eq_some_iff.1 a1).1
    obtain ⟨m1, rfl⟩ := Option.isSome_iff_exists.1 a0
    simp only [stepUpd, hl, if_true]
    refine ⟨⟨w, m0, hw, ?_, a2, a3⟩, fun x hx => same_set_md hx _, by trivial, ⟨rfl, by simp, rfl⟩⟩
    simp [hl]
  | again =>
    obtain ⟨w, m0, hw, a1, a2, a3⟩ := h
    obtain ⟨codes, hc, hcl⟩ := hf
    simp only [stepUpd, a2, hc]
    exact ⟨⟨w, m0, hw, a1, a2, hc, hcl, a3.held codes 0⟩, same, by trivial, len⟩
  | add j codes =>
    obtain ⟨w, m0, hw, a1, a2, a3, a4, a5⟩ := h
    simp only [stepUpd]
    cases hc : codes[j]? with
    | some c =>
      have hj : j < s.tables.length := by rw [← a4]; exact (List.getElem?_eq_some_iff.1 hc).1
      have ht : (s.push j c id).tables.length = s.tables.length := by simp [push]
      exact ⟨⟨w, m0, hw, a1, a2, a3, a4.trans ht.symm, held_push a5 hc hj⟩, fun x hx => same_push hx j c, ht,
        ⟨rfl, rfl, rfl⟩⟩
    | none =>
      have hj : codes.length ≤ j := List.getElem?_eq_none_iff.1 hc
      exact ⟨⟨w, m0, hw, a5.lives a2 a1 a3 a4 hj⟩, same, by trivial, len⟩

/-! ## Deletions -/

/-- After an id has been treated. -/
theorem next_del {pre : List Nat} {rest : List Nat} (h1 : ∀ x ∈ pre, Gone s x) (h2 : Gone s id)
    (h3 : ∀ x ∈ rest, x ∉ pre → x ≠ id → Same x s0 s) : AtDel (pre ++ id :: rest) s0 s (nextDel rest) := by
  have hall : ∀ x ∈ pre ++ [id], Gone s x := by
    intro x hx
    rcases List.mem_append.1 hx with hx | hx
    · exact h1 x hx
    · rw [List.mem_singleton.1 hx]; exact h2
  cases rest with
  | nil => exact hall
  | cons y rest =>
    refine ⟨pre ++ [id], y, rest, by simp, rfl, hall, ?_, ?_⟩
    · intro x hx hp hy
      exact h3 x (by simp [hx]) (fun h => hp (by simp [h])) (fun h => hp (by simp [h]))
    · intro hp
      exact h3 y (by simp) (fun h => hp (by simp [h])) (fun h => hp (by simp [h]))

theorem del_step {l : List Nat} {rest : List Nat} {p : LDel}
    (h0 : ∀ x ∈ l, (∃ w m0, Lives env s0 x w m0) ∨ Gone s0 x) (ht0 : s.tables.length = s0.tables.length)
    (hlv : id < s.vectors.length) (hlm : id < s.metas.length) (h : AtDel l s0 s (.del (id :: rest) p)) :
    AtDel l s0 (stepDel env s id rest p).2 (stepDel env s id rest p).1 ∧
    (∀ x, x ≠ id → Same x s (stepDel env s id rest p).2) ∧
    (stepDel env s id rest p).2.tables.length = s.tables.length ∧
    SameLen s (stepDel env s id rest p).2 := by
  have same : ∀ x, x ≠ id → Same x s s := fun x _ => .refl x s
  have len : SameLen s s := ⟨rfl, rfl, rfl⟩
  obtain ⟨pre, id', rest', rfl, he, h3, h4, h5⟩ := h
  obtain ⟨rfl, rfl⟩ := List.cons.inj he
  -- what comes after a change of this id only
  have keep : ∀ {s' : LConc V M S} {p' : LDel}, id ∉ pre → (∀ x, x ≠ id → Same x s s') →
      AtDelP s0 s' pre id p' → AtDel (pre ++ id :: rest) s0 s' (.del (id :: rest) p') := by
    intro s' p' hp e hP
    exact ⟨pre, id, rest, rfl, rfl, fun x hx => (h3 x hx).same (e x fun h => hp (h ▸ hx)),
      fun x hx h6 h7 => (h4 x hx h6 h7).trans (e x h7), hP⟩
  cases p with
  | test =>
    simp only [stepDel, hlv, if_true]
    exact ⟨⟨pre, id, rest, rfl, rfl, h3, h4, h5⟩, same, by trivial, len⟩
  | old =>
    by_cases hp : id ∈ pre
    · have hg := h3 id hp
      simp only [stepDel, hg.1]
      exact ⟨next_del h3 hg h4, same, by trivial, len⟩
    · have hs := h5 hp
      rcases h0 id (by simp) with ⟨w, m0, hw⟩ | hg
      · have hl := hw.same hs ht0
        obtain ⟨codes, hc, hcl, hh⟩ := hl.held
        simp only [stepDel, hl.1, hc]
        exact ⟨keep hp same ⟨hp, hcl, hh⟩, same, by trivial, len⟩
      · have hg' := hg.same hs
        simp only [stepDel, hg'.1]
        exact ⟨next_del h3 hg' h4, same, by trivial, len⟩
  | drop j codes =>
    obtain ⟨hp, a2, a3⟩ := h5
    simp only [stepDel]
    cases hc : codes[j]? with
    | some c =>
      have hj : j < s.tables.length := by rw [← a2]; exact (List.getElem?_eq_some_iff.1 hc).1
      have ht : (s.pull j c id).tables.length = s.tables.length := by simp [pull]
      have e : ∀ x, x ≠ id → Same x s (s.pull j c id) := fun x hx => same_pull hx j c
      refine ⟨keep hp e ⟨hp, a2.trans ht.symm, ?_⟩, e, ht, ⟨rfl, rfl, rfl⟩⟩
      rw [ht]; exact held_pull a3 hc hj
    | none =>
      have hj : codes.length ≤ j := List.getElem?_eq_none_iff.1 hc
      exact ⟨keep hp same ⟨hp, a3.absent (by omega)⟩, same, by trivial, len⟩
  | vec =>
    obtain ⟨hp, a2⟩ := h5
    have e : ∀ x, x ≠ id → Same x s { s with vectors := s.vectors.set id none } := fun x hx => same_set_vec hx _
    simp only [stepDel]
    exact ⟨keep hp e ⟨hp, a2, by simp [hlv]⟩, e, by trivial, ⟨by simp, rfl, rfl⟩⟩
  | md =>
    obtain ⟨hp, a2, a3⟩ := h5
    have e : ∀ x, x ≠ id → Same x s { s with metas := s.metas.set id none } := fun x hx => same_set_md hx _
    simp only [stepDel, hlm, if_true]
    refine ⟨next_del (fun x hx => (h3 x hx).same (e x fun h => hp (h ▸ hx))) ?_
      (fun x hx h6 h7 => (h4 x hx h6 h7).trans (e x h7)), e, by trivial, ⟨rfl, by simp, rfl⟩⟩
    rw [gone_iff]
    exact ⟨a3, by simp [hlm], a2⟩

/-! ## All threads -/

variable [LinearOrder S] {ops : Nat → LOp V M}

/-- What holds after any statements, for calls that keep out of each other's way. -/
structure LInv (env : LConcEnv V S) (ops : Nat → LOp V M) (s0 s : LConc V M S) : Prop where
  thr : ∀ t, AtOp env s0.nextId s0 s (s.thr t) (ops t)
  idle : ∀ id, id < s0.nextId → (∀ t, ¬ Names (ops t) id) → Same id s0 s
  quiet : (∀ t rows, ops t ≠ .insert rows) → SameLen s0 s ∧ ∀ x, s0.nextId ≤ x → Absent s x
  tables : s.tables.length = s0.tables.length
  vec : s0.nextId ≤ s.vectors.length
  md : s0.nextId ≤ s.metas.length

theorem LInv.start (hr : AtRest env s0) (h0 : ∀ t, s0.thr t = .start) : LInv env ops s0 s0 := by
  have hnew : ∀ x, s0.nextId ≤ x → Absent s0 x := fun x hx j c => List.count_eq_zero.2 (hr.new x hx j c)
  refine ⟨fun t => ?_, fun id _ _ => .refl id s0, fun _ => ⟨⟨rfl, rfl, rfl⟩, hnew⟩, rfl, hr.vec.ge, hr.md.ge⟩
  rw [h0 t]
  cases ops t with
  | insert rows => exact ⟨rfl, hr.vec, hr.md, hnew⟩
  | update id v m => exact Same.refl id s0
  | delete l => exact fun x _ => Same.refl x s0
  | search q k => trivial

/-- The thread may change what the index has of the id. -/
def Owns (ops : Nat → LOp V M) (n0 : Nat) (t id : Nat) : Prop :=
  (∃ rows, ops t = .insert rows) ∧ n0 ≤ id ∨ Names (ops t) id

/-- One statement: the thread keeps its promise and changes only what it owns. -/
theorem LInv.local (h : LInv env ops s0 s) (hr : AtRest env s0) (ha : Apart ops s0) (hf : ∀ t, OpFits env s0 (ops t))
    (t : Nat) :
    AtOp env s0.nextId s0 (s.step env ops t) ((s.step env ops t).thr t) (ops t) ∧
    (∀ x, ¬ Owns ops s0.nextId t x → Same x s (s.step env ops t)) ∧
    (s.step env ops t).tables.length = s.tables.length ∧
    s.vectors.length ≤ (s.step env ops t).vectors.length ∧ s.metas.length ≤ (s.step env ops t).metas.length ∧
    ((∀ rows, ops t ≠ .insert rows) → SameLen s (s.step env ops t)) := by
  have h1 := h.thr t
  have fits : ∀ v, Fits env s0 v → Fits env s v := fun v ⟨codes, hc, hl⟩ => ⟨codes, hc, hl.trans h.tables.symm⟩
  have len : SameLen s s := ⟨rfl, rfl, rfl⟩
  have hft := hf t
  -- a statement that leaves the index alone
  have nothing : ∀ a : LAt M S, AtOp env s0.nextId s0 s a (ops t) →
      s.step env ops t = { s with thr := Function.update s.thr t a } →
      AtOp env s0.nextId s0 (s.step env ops t) ((s.step env ops t).thr t) (ops t) ∧
      (∀ x, ¬ Owns ops s0.nextId t x → Same x s (s.step env ops t)) ∧
      (s.step env ops t).tables.length = s.tables.length ∧
      s.vectors.length ≤ (s.step env ops t).vectors.length ∧ s.metas.length ≤ (s.step env ops t).metas.length ∧
      ((∀ rows, ops t ≠ .insert rows) → SameLen s (s.step env ops t)) := by
    intro a hop e
    have e1 : ∀ x, Same x s { s with thr := Function.update s.thr t a } := fun x => ⟨rfl, rfl, fun _ _ => rfl⟩
    rw [e]
    refine ⟨?_, fun x _ => e1 x, rfl, le_rfl, le_rfl, fun _ => ⟨rfl, rfl, rfl⟩⟩
    simp only [Function.update_self]
    cases ho : ops t with
    | insert rows => rw [ho] at hop; exact AtIns.same hop (fun x _ => e1 x) ⟨rfl, rfl, rfl⟩ rfl
    | update id v m => rw [ho] at hop; exact AtUpd.same hop (e1 id) le_rfl rfl
    | delete l => rw [ho] at hop; exact AtDel.same hop (fun x _ => e1 x) rfl
    | search q k => trivial
  have stay : s.step env ops t = s → AtOp env s0.nextId s0 (s.step env ops t) ((s.step env ops t).thr t) (ops t) ∧
      (∀ x, ¬ Owns ops s0.nextId t x → Same x s (s.step env ops t)) ∧
      (s.step env ops t).tables.length = s.tables.length ∧
      s.vectors.length ≤ (s.step env ops t).vectors.length ∧ s.metas.length ≤ (s.step env ops t).metas.length ∧
      ((∀ rows, ops t ≠ .insert rows) → SameLen s (s.step env ops t)) := by
    intro e
    rw [e]
    exact ⟨h1, fun x _ => .refl x s, rfl, le_rfl, le_rfl, fun _ => len⟩
  cases ho : ops t with
  | insert rows =>
    rw [ho] at h1 hft
    cases hs : s.thr t with
    | start =>
      rw [← ho]
      refine nothing (nextRow rows 0 []) ?_ (by simp only [step, ho, hs])
      rw [hs] at h1
      obtain ⟨a1, a2, a3, a4⟩ := h1
      rw [ho]
      unfold nextRow
      split
      · rename_i hlt
        exact ⟨hlt, rfl, fun j v m hj => absurd hj (by omega), fun x hx => a4 x (by omega), a1, a2, a3, a4 _ le_rfl⟩
      · have e : rows.length = 0 := by omega
        refine ⟨by rw [e]; rfl, fun j v m hj => absurd hj (by omega), fun x hx => a4 x (by omega), ?_, ?_, ?_⟩ <;>
          rw [e] <;> assumption
    | ins i ids p =>
      rw [hs] at h1
      have hst := ins_step (env := env) (fun x hx => fits _ (hft x hx)) h1
      have e : s.step env ops t = { (stepIns env rows s i ids p).2 with
          thr := Function.update s.thr t (stepIns env rows s i ids p).1 } := by simp only [step, ho, hs]
      rw [e]
      have e1 : ∀ x, Same x (stepIns env rows s i ids p).2 { (stepIns env rows s i ids p).2 with
          thr := Function.update s.thr t (stepIns env rows s i ids p).1 } := fun x => ⟨rfl, rfl, fun _ _ => rfl⟩
      refine ⟨?_, fun x hx => ?_, hst.2.2.1, hst.2.2.2.1, hst.2.2.2.2, fun hn => absurd rfl (hn rows)⟩
      · simp only [Function.update_self]
        exact AtIns.same hst.1 (fun x _ => e1 x) ⟨rfl, rfl, rfl⟩ rfl
      · refine (hst.2.1 x ?_).trans (e1 x)
        by_contra hge
        exact hx (.inl ⟨⟨rows, ho⟩, by omega⟩)
    | done r => rw [← ho]; exact stay (by simp only [step, ho, hs])
    | _ => rw [hs] at h1; exact h1.elim
  | update id v m =>
    have hid : id < s0.nextId := ha.old t id (by rw [ho]; rfl)
    rw [ho] at h1 hft
    cases hs : s.thr t with
    | start =>
      rw [← ho]
      rw [hs] at h1
      have hlv : id < s.vectors.length := lt_of_lt_of_le hid h.vec
      refine nothing (.upd .live) ?_ (by simp only [step, ho, hs, hlv, if_true])
      rw [ho]; exact h1
    | upd p =>
      rw [hs] at h1
      have hst := upd_step (env := env) (fits v hft) (hr.old id hid) h.tables h1
      have e : s.step env ops t = { (stepUpd env id v m s p).2 with
          thr := Function.update s.thr t (stepUpd env id v m s p).1 } := by simp only [step, ho, hs]
      rw [e]
      have e1 : ∀ x, Same x (stepUpd env id v m s p).2 { (stepUpd env id v m s p).2 with
          thr := Function.update s.thr t (stepUpd env id v m s p).1 } := fun x => ⟨rfl, rfl, fun _ _ => rfl⟩
      refine ⟨?_, fun x hx => ?_, hst.2.2.1, hst.2.2.2.vec.ge, hst.2.2.2.md.ge,
        fun _ => ⟨hst.2.2.2.vec, hst.2.2.2.md, hst.2.2.2.nxt⟩⟩
      · simp only [Function.update_self]
        exact AtUpd.same hst.1 (e1 id) le_rfl rfl
      · refine (hst.2.1 x ?_).trans (e1 x)
        intro hxe
        exact hx (.inr (by rw [ho]; exact hxe))
    | done r => rw [← ho]; exact stay (by simp only [step, ho, hs])
    | _ => rw [hs] at h1; exact h1.elim
  | delete l =>
    rw [ho] at h1
    cases hs : s.thr t with
    | start =>
      rw [← ho]
      rw [hs] at h1
      have h1 : ∀ x ∈ l, Same x s0 s := h1
      refine nothing (nextDel l) ?_ (by simp only [step, ho, hs])
      rw [ho]
      cases l with
      | nil => exact fun x hx => absurd hx List.not_mem_nil
      | cons y rest =>
        exact ⟨[], y, rest, rfl, rfl, fun x hx => absurd hx (List.not_mem_nil), fun x hx _ _ => h1 x (by simp [hx]),
          fun _ => h1 y (by simp)⟩
    | del todo p =>
      rw [hs] at h1
      have h1' := h1
      obtain ⟨pre, id, rest, hl, rfl, _⟩ := h1'
      have hid : id < s0.nextId := ha.old t id (by rw [ho, hl]; simp [Names])
      have hst := del_step (env := env) (fun x hx => hr.old x (ha.old t x (by rw [ho]; exact hx))) h.tables
        (lt_of_lt_of_le hid h.vec) (lt_of_lt_of_le hid h.md) h1
      have e : s.step env ops t = { (stepDel env s id rest p).2 with
          thr := Function.update s.thr t (stepDel env s id rest p).1 } := by simp only [step, ho, hs]
      rw [e]
      have e1 : ∀ x, Same x (stepDel env s id rest p).2 { (stepDel env s id rest p).2 with
          thr := Function.update s.thr t (stepDel env s id rest p).1 } := fun x => ⟨rfl, rfl, fun _ _ => rfl⟩
      refine ⟨?_, fun x hx => ?_, hst.2.2.1, hst.2.2.2.vec.ge, hst.2.2.2.md.ge,
        fun _ => ⟨hst.2.2.2.vec, hst.2.2.2.md, hst.2.2.2.nxt⟩⟩
      · simp only [Function.update_self]
        exact AtDel.same hst.1 (fun x _ => e1 x) rfl
      · refine (hst.2.1 x ?_).trans (e1 x)
        intro hxe
        exact hx (.inr (by rw [ho, hxe, hl]; simp [Names]))
    | done r => rw [← ho]; exact stay (by simp only [step, ho, hs])
    | _ => rw [hs] at h1; exact h1.elim
  | search q k =>
    rw [← ho]
    have ht : ∀ a, AtOp env s0.nextId s0 s a (ops t) := fun a => by rw [ho]; trivial
    cases hs : s.thr t with
    | start =>
      cases hq : env.hash q with
      | none => exact nothing (.done .raised) (ht _) (by simp only [step, ho, hs, hq])
      | some codes => exact nothing (.srch (.exact 0 codes [])) (ht _) (by simp only [step, ho, hs, hq])
    | srch p => exact nothing (stepSr env q k s p) (ht _) (by simp only [step, ho, hs])
    | _ => exact stay (by simp only [step, ho, hs])

theorem LInv.step (h : LInv env ops s0 s) (hr : AtRest env s0) (ha : Apart ops s0) (hf : ∀ t, OpFits env s0 (ops t))
    (t : Nat) : LInv env ops s0 (s.step env ops t) := by
  obtain ⟨l1, l2, l3, l4, l5, l6⟩ := h.local hr ha hf t
  refine ⟨fun u => ?_, fun id hid hn => ?_, fun hq => ?_, l3.trans h.tables, h.vec.trans l4, h.md.trans l5⟩
  · by_cases e : u = t
    · subst e; exact l1
    · rw [step_othersL env ops s e]
      have h1 := h.thr u
      cases ho : ops u with
      | insert rows =>
        rw [ho] at h1
        have hni : ∀ rows', ops t ≠ .insert rows' := fun rows' h' => e (ha.one u t rows rows' ho h')
        refine AtIns.same h1 (fun x hx => l2 x ?_) (l6 hni) l3
        rintro (⟨⟨rows', h'⟩, _⟩ | h')
        · exact hni rows' h'
        · have := ha.old t x h'; omega
      | update id v m =>
        rw [ho] at h1
        have hn : Names (ops u) id := by rw [ho]; rfl
        refine AtUpd.same h1 (l2 id ?_) l4 l3
        rintro (⟨_, h'⟩ | h')
        · have := ha.old u id hn; omega
        · exact e (ha.ids u t id hn h')
      | delete l =>
        rw [ho] at h1
        refine AtDel.same h1 (fun x hx => l2 x ?_) l3
        have hn : Names (ops u) x := by rw [ho]; exact hx
        rintro (⟨_, h'⟩ | h')
        · have := ha.old u x hn; omega
        · exact e (ha.ids u t x hn h')
      | search q k => trivial
  · refine (h.idle id hid hn).trans (l2 id ?_)
    rintro (⟨_, h'⟩ | h')
    · omega
    · exact hn t h'
  · have f := l6 (hq t)
    have g := h.quiet hq
    refine ⟨⟨f.vec.trans g.1.vec, f.md.trans g.1.md, f.nxt.trans g.1.nxt⟩, fun x hx => (g.2 x hx).same (l2 x ?_)⟩
    rintro (⟨⟨rows, h'⟩, _⟩ | h')
    · exact hq t rows h'
    · have := ha.old t x h'; omega

theorem LInv.run (hr : AtRest env s0) (h0 : ∀ t, s0.thr t = .start) (ha : Apart ops s0)
    (hf : ∀ t, OpFits env s0 (ops t)) (sched : List Nat) : LInv env ops s0 (s0.run env ops sched) := by
  induction sched using List.reverseRecOn with
  | nil => exact .start hr h0
  | append_singleton sched t ih => rw [run_snocL]; exact ih.step hr ha hf t

end LConc
end Valori
