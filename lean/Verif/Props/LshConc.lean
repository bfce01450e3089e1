import Verif.Lemmas.LshConcSteps
import Verif.Props.LshConcCases

/-!
# C241: what threads on one LSH index leave
-/

namespace Valori.Props
open Valori Valori.LConc
variable {V M S : Type} [LinearOrder S] {env : LConcEnv V S} {ops : Nat → LOp V M} {s0 : LConc V M S}

/-- **C241** An id that no call names is left alone: at every moment the index has its vector and its metadata, and
every bucket has it as often as before. -/
theorem C241_untouched (hr : AtRest env s0) (h0 : ∀ t, s0.thr t = .start) (ha : Apart ops s0)
    (hf : ∀ t, OpFits env s0 (ops t)) {id : Nat} (hid : id < s0.nextId) (hn : ∀ t, ¬ Names (ops t) id)
    (sched : List Nat) :
    (s0.run env ops sched).vectors[id]? = s0.vectors[id]? ∧ (s0.run env ops sched).metas[id]? = s0.metas[id]? ∧
    ∀ j c, ((s0.run env ops sched).bucket j c).count id = (s0.bucket j c).count id := by
  have h := (LInv.run hr h0 ha hf sched).idle id hid hn
  exact ⟨h.vec, h.md, h.cnt⟩

/-- **C241** An insertion that has ended returned the next ids in the order of its rows, and every row is in the
index under its id. -/
theorem C241_inserted (hr : AtRest env s0) (h0 : ∀ t, s0.thr t = .start) (ha : Apart ops s0)
    (hf : ∀ t, OpFits env s0 (ops t)) {t : Nat} {rows : List (V × M)} (ho : ops t = .insert rows) {sched : List Nat}
    {r : LRes M S} (hd : (s0.run env ops sched).thr t = .done r) :
    r = .ids ((List.range rows.length).map (s0.nextId + ·)) ∧
    ∀ i v m, rows[i]? = some (v, m) → Lives env (s0.run env ops sched) (s0.nextId + i) v m := by
  have h := (LInv.run hr h0 ha hf sched).thr t
  rw [ho, hd] at h
  cases r with
  | ids l =>
    obtain ⟨h1, h2, _⟩ := h
    exact ⟨by rw [h1], fun i v m hi => h2 i v m (List.getElem?_eq_some_iff.1 hi).1 hi⟩
  | _ => exact h.elim

/-- **C241** An update that has ended returned whether the index had the vector; if so the index has the new vector
with the new metadata, or with the old ones if none were given, and otherwise it still has nothing. -/
theorem C241_updated (hr : AtRest env s0) (h0 : ∀ t, s0.thr t = .start) (ha : Apart ops s0)
    (hf : ∀ t, OpFits env s0 (ops t)) {t : Nat} {id : Nat} {v : V} {m : Option M} (ho : ops t = .update id v m)
    {sched : List Nat} {r : LRes M S} (hd : (s0.run env ops sched).thr t = .done r) :
    (r = .flag true ∧ ∃ w m0, Lives env s0 id w m0 ∧ Lives env (s0.run env ops sched) id v (m.getD m0)) ∨
    (r = .flag false ∧ Gone s0 id ∧ Gone (s0.run env ops sched) id) := by
  have h := (LInv.run hr h0 ha hf sched).thr t
  rw [ho, hd] at h
  cases r with
  | flag b =>
    cases b with
    | true => exact .inl ⟨rfl, h⟩
    | false => exact .inr ⟨rfl, h⟩
  | _ => exact h.elim

/-- **C241** A deletion that has ended returned true, and all its ids are gone. -/
theorem C241_deleted (hr : AtRest env s0) (h0 : ∀ t, s0.thr t = .start) (ha : Apart ops s0)
    (hf : ∀ t, OpFits env s0 (ops t)) {t : Nat} {l : List Nat} (ho : ops t = .delete l) {sched : List Nat}
    {r : LRes M S} (hd : (s0.run env ops sched).thr t = .done r) :
    r = .flag true ∧ ∀ id ∈ l, Gone (s0.run env ops sched) id := by
  have h := (LInv.run hr h0 ha hf sched).thr t
  rw [ho, hd] at h
  cases r with
  | flag b =>
    cases b with
    | true => exact ⟨rfl, h⟩
    | false => exact h.elim
  | _ => exact h.elim

/-- **C241** When every call that has begun has ended, the index is at rest again: every id lives, once in each of its
buckets and in no other, or is gone. -/
theorem C241_at_rest (hr : AtRest env s0) (h0 : ∀ t, s0.thr t = .start) (ha : Apart ops s0)
    (hf : ∀ t, OpFits env s0 (ops t)) {sched : List Nat}
    (hall : ∀ t, (s0.run env ops sched).thr t = .start ∨ ∃ r, (s0.run env ops sched).thr t = .done r) :
    AtRest env (s0.run env ops sched) := by
  have hinv := LInv.run hr h0 ha hf sched
  -- ids given before
  have hold : ∀ id, id < s0.nextId → (∃ v m, Lives env (s0.run env ops sched) id v m) ∨
      Gone (s0.run env ops sched) id := by
    intro id hid
    have rest : Same id s0 (s0.run env ops sched) → (∃ v m, Lives env (s0.run env ops sched) id v m) ∨
        Gone (s0.run env ops sched) id := by
      intro e
      rcases hr.old id hid with ⟨v, m, h⟩ | h
      · exact .inl ⟨v, m, h.same e hinv.tables⟩
      · exact .inr (h.same e)
    by_cases hn : ∃ t, Names (ops t) id
    · obtain ⟨t, ht⟩ := hn
      have h1 := hinv.thr t
      cases ho : ops t with
      | insert rows => rw [ho] at ht; exact ht.elim
      | search q k => rw [ho] at ht; exact ht.elim
      | update x v m =>
        rw [ho] at ht h1
        have ht : id = x := ht
        subst ht
        rcases hall t with hs | ⟨r, hs⟩
        · rw [hs] at h1; exact rest h1
        · rcases C241_updated hr h0 ha hf ho hs with ⟨_, w, m0, _, h⟩ | ⟨_, _, h⟩
          · exact .inl ⟨_, _, h⟩
          · exact .inr h
      | delete l =>
        rw [ho] at ht h1
        rcases hall t with hs | ⟨r, hs⟩
        · rw [hs] at h1; exact rest (h1 id ht)
        · exact .inr ((C241_deleted hr h0 ha hf ho hs).2 id ht)
    · exact rest (hinv.idle id hid fun t h => hn ⟨t, h⟩)
  have notin : ∀ {x : Nat}, Absent (s0.run env ops sched) x → ∀ j c, x ∉ (s0.run env ops sched).bucket j c :=
    fun h j c => List.count_eq_zero.1 (h j c)
  by_cases hi : ∃ t rows, ops t = .insert rows
  · obtain ⟨t, rows, ho⟩ := hi
    have h1 := hinv.thr t
    rw [ho] at h1
    rcases hall t with hs | ⟨r, hs⟩
    · rw [hs] at h1
      obtain ⟨a1, a2, a3, a4⟩ := h1
      exact ⟨a2.trans a1.symm, a3.trans a1.symm, fun id hid => hold id (by omega),
        fun id hid => notin (a4 id (by omega))⟩
    · rw [hs] at h1
      cases r with
      | ids l =>
        obtain ⟨_, a2, a3, a4, a5, a6⟩ := h1
        refine ⟨a5.trans a4.symm, a6.trans a4.symm, fun id hid => ?_, fun id hid => notin (a3 id (by omega))⟩
        by_cases hlt : id < s0.nextId
        · exact hold id hlt
        · have hj : id - s0.nextId < rows.length := by omega
          have := a2 (id - s0.nextId) _ _ hj (List.getElem?_eq_getElem hj)
          rw [show s0.nextId + (id - s0.nextId) = id by omega] at this
          exact .inl ⟨_, _, this⟩
      | _ => exact h1.elim
  · have hq := hinv.quiet fun t rows h => hi ⟨t, rows, h⟩
    have hnx := hq.1.nxt
    refine ⟨?_, ?_, fun id hid => hold id (by omega), fun id hid => notin (hq.2 id (by omega))⟩
    · rw [hq.1.vec, hnx]; exact hr.vec
    · rw [hq.1.md, hnx]; exact hr.md

/-! ## A case that meets the hypotheses -/

/-- The index of `Props/LshConcCases` at rest. -/
theorem lindex_at_rest : AtRest lenv (lindex [0, 5, 0]) := by
  have none' : ∀ id : Nat, 3 ≤ id → ∀ j c, id ∉ (lindex [0, 5, 0]).bucket j c := by
    intro id hid j c h
    have ht : (lindex [0, 5, 0]).tables = [[([false, false, false], [0, 2]), ([true, false, true], [1])]] := by decide
    unfold bucket at h
    rw [ht] at h
    match j with
    | 0 =>
      simp only [List.getElem?_cons_zero, Option.getD_some, Dict.get?] at h
      split at h
      · simp at h; omega
      · split at h
        · simp at h; omega
        · simp at h
    | j + 1 => simp [Dict.get?] at h
  have live : ∀ (id v m : Nat) (c0 : Code), (lindex [0, 5, 0]).vectors[id]? = some (some v) →
      (lindex [0, 5, 0]).metas[id]? = some (some m) → lenv.hash v = some [c0] →
      (∀ c, ((lindex [0, 5, 0]).bucket 0 c).count id = if c0 = c then 1 else 0) →
      Lives lenv (lindex [0, 5, 0]) id v m := by
    intro id v m c0 h1 h2 h3 h4
    refine ⟨h1, h2, [c0], h3, rfl, fun j c => ?_⟩
    match j with
    | 0 => simpa using h4 c
    | j + 1 => simp [bucket, lindex, Dict.get?]
  have b : ∀ c, (lindex [0, 5, 0]).bucket 0 c =
      if [false, false, false] = c then [0, 2] else if [true, false, true] = c then [1] else [] := by
    intro c
    have ht : (lindex [0, 5, 0]).tables = [[([false, false, false], [0, 2]), ([true, false, true], [1])]] := by decide
    unfold bucket
    rw [ht]
    simp only [List.getElem?_cons_zero, Option.getD_some, Dict.get?]
    split
    · rfl
    · split <;> rfl
  refine ⟨by decide, by decide, fun id hid => ?_, fun id hid => none' id hid⟩
  have hid : id < 3 := hid
  left
  match id with
  | 0 =>
    refine ⟨0, 100, live 0 0 100 [false, false, false] (by decide) (by decide) (by decide) fun c => ?_⟩
    rw [b]; split
    · rfl
    · split <;> rfl
  | 1 =>
    refine ⟨5, 101, live 1 5 101 [true, false, true] (by decide) (by decide) (by decide) fun c => ?_⟩
    rw [b]
    by_cases h1 : [false, false, false] = c
    · subst h1; decide
    · rw [if_neg h1]; split <;> rfl
  | 2 =>
    refine ⟨0, 102, live 2 0 102 [false, false, false] (by decide) (by decide) (by decide) fun c => ?_⟩
    rw [b]; split
    · rfl
    · split <;> rfl

/-- An insertion, an update, a deletion and searches. -/
def lapart : Nat → LOp Nat Nat
  | 1 => .insert [(0, 7), (3, 8)]
  | 2 => .update 1 6 (some 9)
  | 3 => .delete [2]
  | _ => .search 0 2

/-- The hypotheses of the theorems can be met: an insertion, an update, a deletion and a search end. -/
example : AtRest lenv (lindex [0, 5, 0]) ∧ (∀ t, (lindex [0, 5, 0]).thr t = .start) ∧
    Apart lapart (lindex [0, 5, 0]) ∧ (∀ t, OpFits lenv (lindex [0, 5, 0]) (lapart t)) ∧
    (∀ t, ¬ Names (lapart t) 0) ∧
    ((lindex [0, 5, 0]).run lenv lapart (lsched ++ [1, 1, 1, 1, 1, 1, 1, 2, 2, 2, 2])).thr 1 = .done (.ids [3, 4]) ∧
    ((lindex [0, 5, 0]).run lenv lapart (lsched ++ [1, 1, 1, 1, 1, 1, 1, 2, 2, 2, 2])).thr 2 = .done (.flag true) ∧
    ((lindex [0, 5, 0]).run lenv lapart (lsched ++ [1, 1, 1, 1, 1, 1, 1, 2, 2, 2, 2])).thr 3 = .done (.flag true) ∧
    ((lindex [0, 5, 0]).run lenv lapart (lsched ++ [1, 1, 1, 1, 1, 1, 1, 2, 2, 2, 2])).vectors =
      [some 0, some 6, none, some 0, some 3] := by
  refine ⟨lindex_at_rest, fun _ => rfl, ⟨?_, ?_, ?_⟩, ?_, ?_, by rfl, by rfl, by rfl, by rfl⟩
  · intro t u rows rows' h h'
    match t, u with
    | 1, 1 => rfl
    | 0, _ => cases h
    | 2, _ => cases h
    | 3, _ => cases h
    | _ + 4, _ => cases h
    | 1, 0 => cases h'
    | 1, 2 => cases h'
    | 1, 3 => cases h'
    | 1, _ + 4 => cases h'
  · intro t u id h h'
    match t, u with
    | 2, 2 => rfl
    | 3, 3 => rfl
    | 2, 3 =>
      have h1 : id = 1 := h
      have h2 : id ∈ [2] := h'
      rw [List.mem_singleton] at h2; omega
    | 3, 2 =>
      have h1 : id = 1 := h'
      have h2 : id ∈ [2] := h
      rw [List.mem_singleton] at h2; omega
    | 0, _ => exact h.elim
    | 1, _ => exact h.elim
    | _ + 4, _ => exact h.elim
    | 2, 0 => exact h'.elim
    | 2, 1 => exact h'.elim
    | 2, _ + 4 => exact h'.elim
    | 3, 0 => exact h'.elim
    | 3, 1 => exact h'.elim
    | 3, _ + 4 => exact h'.elim
  · intro t id h
    match t with
    | 0 => exact h.elim
    | 1 => exact h.elim
    | 2 => have h1 : id = 1 := h; subst h1; decide
    | 3 => have h2 : id ∈ [2] := h; rw [List.mem_singleton] at h2; subst h2; decide
    | _ + 4 => exact h.elim
  · intro t
    match t with
    | 0 => trivial
    | 1 =>
      intro x hx
      have hx : x ∈ [(0, 7), (3, 8)] := hx
      simp only [List.mem_cons, List.not_mem_nil, or_false] at hx
      rcases hx with rfl | rfl <;> exact ⟨_, rfl, rfl⟩
    | 2 => exact ⟨_, rfl, rfl⟩
    | 3 => trivial
    | _ + 4 => trivial
  · intro t h
    match t with
    | 0 => exact h
    | 1 => exact h
    | 2 => have h1 : 0 = 1 := h; cases h1
    | 3 => have h2 : 0 ∈ [2] := h; revert h2; decide
    | _ + 4 => exact h

/-! ## Calls that name the same id -/

/-- Two updates of id 0. -/
def lboth : Nat → LOp Nat Nat
  | 0 => .update 0 3 (some 8)
  | _ => .update 0 6 (some 9)

def lbothSched : List Nat := [0, 0, 0, 0, 0, 1, 1, 1, 1, 1, 0, 1, 1, 0, 0, 0, 0, 1, 1, 1, 1]

/-- **C241** Two updates of the same id may both return true and leave the vector of one with the metadata of the
other, and the id twice in a bucket; alone after each other, in either order, they do not. -/
theorem C241_updates_refuted :
    (let s := (lindex [0, 5]).run lenv lboth lbothSched
     s.thr 0 = .done (.flag true) ∧ s.thr 1 = .done (.flag true) ∧ s.vectors[0]? = some (some 6) ∧
     s.metas[0]? = some (some 8) ∧ s.bucket 0 [false, true, true] = [0, 0]) ∧
    (let s := (lindex [0, 5]).run lenv lboth (List.replicate 11 0 ++ List.replicate 11 1)
     s.thr 0 = .done (.flag true) ∧ s.thr 1 = .done (.flag true) ∧ s.vectors[0]? = some (some 6) ∧
     s.metas[0]? = some (some 9)) ∧
    (let s := (lindex [0, 5]).run lenv lboth (List.replicate 11 1 ++ List.replicate 11 0)
     s.thr 0 = .done (.flag true) ∧ s.thr 1 = .done (.flag true) ∧ s.vectors[0]? = some (some 3) ∧
     s.metas[0]? = some (some 8)) :=
  ⟨⟨rfl, rfl, rfl, rfl, rfl⟩, ⟨rfl, rfl, rfl, rfl⟩, ⟨rfl, rfl, rfl, rfl⟩⟩

/-- An update and a deletion of id 0. -/
def lrevive : Nat → LOp Nat Nat
  | 0 => .update 0 3 (some 8)
  | _ => .delete [0]

/-- **C241** An update and a deletion of the same id may both return true with the vector still in the index; in
either order after each other the vector is gone. -/
theorem C241_revived_refuted :
    (let s := (lindex [0, 5]).run lenv lrevive ([0, 0, 0, 0, 0] ++ List.replicate 8 1 ++ List.replicate 6 0)
     s.thr 0 = .done (.flag true) ∧ s.thr 1 = .done (.flag true) ∧ s.vectors[0]? = some (some 3)) ∧
    (let s := (lindex [0, 5]).run lenv lrevive (List.replicate 11 0 ++ List.replicate 8 1)
     s.thr 0 = .done (.flag true) ∧ s.thr 1 = .done (.flag true) ∧ s.vectors[0]? = some none) ∧
    (let s := (lindex [0, 5]).run lenv lrevive (List.replicate 8 1 ++ List.replicate 11 0)
     s.thr 0 = .done (.flag false) ∧ s.thr 1 = .done (.flag true) ∧ s.vectors[0]? = some none) :=
  ⟨⟨rfl, rfl, rfl⟩, ⟨rfl, rfl, rfl⟩, ⟨rfl, rfl, rfl⟩⟩

end Valori.Props
