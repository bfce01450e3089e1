import Verif.Lemmas.LshConc
import Verif.Spec.LshConc

/-!
# What threads on an LSH index leave
-/

namespace Valori
namespace LConc
variable {V M S : Type} {env : LConcEnv V S} {s s' s0 : LConc V M S} {id : Nat}

/-! ## One id -/

/-- The index has the same of an id. -/
structure Same (id : Nat) (s s' : LConc V M S) : Prop where
  vec : s'.vectors[id]? = s.vectors[id]?
  md : s'.metas[id]? = s.metas[id]?
  cnt : ∀ j c, (s'.bucket j c).count id = (s.bucket j c).count id

theorem Same.refl (id : Nat) (s : LConc V M S) : Same id s s := ⟨rfl, rfl, fun _ _ => rfl⟩

theorem Same.trans {s'' : LConc V M S} (h : Same id s s') (h' : Same id s' s'') : Same id s s'' :=
  ⟨h'.vec.trans h.vec, h'.md.trans h.md, fun j c => (h'.cnt j c).trans (h.cnt j c)⟩

theorem Same.thr (h : Same id s s') (f : Nat → LAt M S) : Same id s { s' with thr := f } := ⟨h.vec, h.md, h.cnt⟩

/-- The id is exactly once in the buckets of its codes in the tables `a`, …, `b - 1` and in no other bucket. -/
def Held (s : LConc V M S) (id : Nat) (codes : List Code) (a b : Nat) : Prop :=
  ∀ j c, (s.bucket j c).count id = if a ≤ j ∧ j < b ∧ codes[j]? = some c then 1 else 0

/-- The id is in no bucket. -/
def Absent (s : LConc V M S) (id : Nat) : Prop := ∀ j c, (s.bucket j c).count id = 0

theorem Held.same {codes : List Code} {a b : Nat} (h : Held s id codes a b) (e : Same id s s') :
    Held s' id codes a b := fun j c => (e.cnt j c).trans (h j c)

theorem Absent.same (h : Absent s id) (e : Same id s s') : Absent s' id := fun j c => (e.cnt j c).trans (h j c)

theorem Held.absent {codes : List Code} {a b : Nat} (h : Held s id codes a b) (hb : b ≤ a) : Absent s id := by
  intro j c
  rw [h j c, if_neg]
  omega

theorem Absent.held (h : Absent s id) (codes : List Code) (a : Nat) : Held s id codes a a := by
  intro j c
  rw [h j c, if_neg]
  omega

theorem Lives.same {v : V} {m : M} (h : Lives env s id v m) (e : Same id s s')
    (ht : s'.tables.length = s.tables.length) : Lives env s' id v m := by
  obtain ⟨h1, h2, codes, h3, h4, h5⟩ := h
  exact ⟨e.vec.trans h1, e.md.trans h2, codes, h3, h4.trans ht.symm, fun j c => (e.cnt j c).trans (h5 j c)⟩

theorem Lives.held {v : V} {m : M} (h : Lives env s id v m) :
    ∃ codes, env.hash v = some codes ∧ codes.length = s.tables.length ∧ Held s id codes 0 s.tables.length := by
  obtain ⟨_, _, codes, h3, h4, h5⟩ := h
  refine ⟨codes, h3, h4, fun j c => ?_⟩
  rw [h5 j c]
  by_cases hc : codes[j]? = some c
  · have := (List.getElem?_eq_some_iff.1 hc).1
    rw [if_pos hc, if_pos ⟨Nat.zero_le _, by omega, hc⟩]
  · rw [if_neg hc, if_neg (fun h => hc h.2.2)]

theorem Held.lives {v : V} {m : M} {codes : List Code} {b : Nat} (h : Held s id codes 0 b)
    (hv : s.vectors[id]? = some (some v)) (hm : s.metas[id]? = some (some m)) (hc : env.hash v = some codes)
    (hl : codes.length = s.tables.length) (hb : codes.length ≤ b) : Lives env s id v m := by
  refine ⟨hv, hm, codes, hc, hl, fun j c => ?_⟩
  rw [h j c]
  by_cases hc : codes[j]? = some c
  · have := (List.getElem?_eq_some_iff.1 hc).1
    rw [if_pos hc, if_pos ⟨Nat.zero_le _, by omega, hc⟩]
  · rw [if_neg hc, if_neg (fun h => hc h.2.2)]

theorem gone_iff : Gone s id ↔ s.vectors[id]? = some none ∧ s.metas[id]? = some none ∧ Absent s id := by
  unfold Gone Absent
  simp only [List.count_eq_zero]

theorem Gone.same (h : Gone s id) (e : Same id s s') : Gone s' id := by
  rw [gone_iff] at h ⊢
  exact ⟨e.vec.trans h.1, e.md.trans h.2.1, h.2.2.same e⟩

theorem lives_not_gone {v : V} {m : M} (h : Lives env s id v m) (h' : Gone s id) : False := by
  have := h.1.symm.trans h'.1
  cases this

theorem same_push {x : Nat} (hx : x ≠ id) (j : Nat) (c : Code) : Same x s (s.push j c id) := by
  refine ⟨rfl, rfl, fun j' c' => ?_⟩
  rw [bucket_push]
  split
  · rename_i e
    rw [e.1, e.2.1, List.count_append, List.count_singleton]
    simp [Ne.symm hx]
  · rfl

theorem same_pull {x : Nat} (hx : x ≠ id) (j : Nat) (c : Code) : Same x s (s.pull j c id) := by
  refine ⟨rfl, rfl, fun j' c' => ?_⟩
  rw [bucket_pull]
  split
  · rename_i e
    rw [e.1, e.2, List.count_erase_of_ne hx]
  · rfl

theorem held_push {codes : List Code} {j : Nat} {c : Code} (h : Held s id codes 0 j) (hc : codes[j]? = some c)
    (hj : j < s.tables.length) : Held (s.push j c id) id codes 0 (j + 1) := by
  intro j' c'
  rw [bucket_push]
  split
  · rename_i e
    obtain ⟨rfl, rfl, _⟩ := e
    rw [List.count_append, h, if_neg (by omega), if_pos ⟨Nat.zero_le _, by omega, hc⟩]
    simp
  · rename_i e
    rw [h j' c']
    by_cases e' : j' = j
    · subst e'
      rw [if_neg (by omega), if_neg]
      rintro ⟨_, _, h3⟩
      rw [hc] at h3
      exact e ⟨rfl, (Option.some.inj h3).symm, hj⟩
    · have : (0 ≤ j' ∧ j' < j ∧ codes[j']? = some c') ↔ (0 ≤ j' ∧ j' < j + 1 ∧ codes[j']? = some c') :=
        ⟨fun h => ⟨h.1, by omega, h.2.2⟩, fun h => ⟨h.1, by omega, h.2.2⟩⟩
      simp only [this]

theorem held_pull {codes : List Code} {j b : Nat} {c : Code} (h : Held s id codes j b) (hc : codes[j]? = some c)
    (hj : j < b) : Held (s.pull j c id) id codes (j + 1) b := by
  intro j' c'
  rw [bucket_pull]
  split
  · rename_i e
    obtain ⟨rfl, rfl⟩ := e
    rw [List.count_erase_self, h, if_pos ⟨le_rfl, hj, hc⟩, if_neg (by omega)]
  · rename_i e
    rw [h j' c']
    by_cases e' : j' = j
    · subst e'
      rw [if_neg, if_neg (by omega)]
      rintro ⟨_, _, h3⟩
      rw [hc] at h3
      exact e ⟨rfl, (Option.some.inj h3).symm⟩
    · have : (j ≤ j' ∧ j' < b ∧ codes[j']? = some c') ↔ (j + 1 ≤ j' ∧ j' < b ∧ codes[j']? = some c') :=
        ⟨fun h => ⟨by omega, h.2⟩, fun h => ⟨by omega, h.2⟩⟩
      simp only [this]

theorem same_set_vec {x : Nat} (hx : x ≠ id) (y : Option V) : Same x s { s with vectors := s.vectors.set id y } :=
  ⟨by simp only [List.getElem?_set_ne (Ne.symm hx)], rfl, fun _ _ => rfl⟩

theorem same_set_md {x : Nat} (hx : x ≠ id) (y : Option M) : Same x s { s with metas := s.metas.set id y } :=
  ⟨rfl, by simp only [List.getElem?_set_ne (Ne.symm hx)], fun _ _ => rfl⟩

/-! ## What the calls know at each place -/

/-- What an insertion knows at a statement, when the first id it got is `n0`. -/
def AtRow (env : LConcEnv V S) (rows : List (V × M)) (n0 : Nat) (s : LConc V M S) (i : Nat) : LIns → Prop
  | .read => s.nextId = n0 + i ∧ s.vectors.length = n0 + i ∧ s.metas.length = n0 + i ∧ Absent s (n0 + i)
  | .load id => id = n0 + i ∧ s.nextId = n0 + i ∧ s.vectors.length = n0 + i ∧ s.metas.length = n0 + i ∧
      Absent s (n0 + i)
  | .put id n => id = n0 + i ∧ n = n0 + i ∧ s.vectors.length = n0 + i ∧ s.metas.length = n0 + i ∧ Absent s (n0 + i)
  | .vec id => id = n0 + i ∧ s.nextId = n0 + i + 1 ∧ s.vectors.length = n0 + i ∧ s.metas.length = n0 + i ∧
      Absent s (n0 + i)
  | .md id => id = n0 + i ∧ s.nextId = n0 + i + 1 ∧ s.vectors.length = n0 + i + 1 ∧ s.metas.length = n0 + i ∧
      (∀ v m, rows[i]? = some (v, m) → s.vectors[n0 + i]? = some (some v)) ∧ Absent s (n0 + i)
  | .add id j codes => id = n0 + i ∧ s.nextId = n0 + i + 1 ∧ s.vectors.length = n0 + i + 1 ∧
      s.metas.length = n0 + i + 1 ∧ codes.length = s.tables.length ∧
      (∀ v m, rows[i]? = some (v, m) → s.vectors[n0 + i]? = some (some v) ∧ s.metas[n0 + i]? = some (some m) ∧
        env.hash v = some codes) ∧ Held s (n0 + i) codes 0 j

/-- The first `i` rows are in. -/
def RowsIn (env : LConcEnv V S) (rows : List (V × M)) (n0 : Nat) (s : LConc V M S) (i : Nat) : Prop :=
  ∀ j v m, j < i → rows[j]? = some (v, m) → Lives env s (n0 + j) v m

/-- What an inserting thread knows. -/
def AtIns (env : LConcEnv V S) (rows : List (V × M)) (n0 : Nat) (s : LConc V M S) : LAt M S → Prop
  | .start => s.nextId = n0 ∧ s.vectors.length = n0 ∧ s.metas.length = n0 ∧ ∀ x, n0 ≤ x → Absent s x
  | .ins i ids p => i < rows.length ∧ ids = (List.range i).map (n0 + ·) ∧ RowsIn env rows n0 s i ∧
      (∀ x, n0 + i < x → Absent s x) ∧ AtRow env rows n0 s i p
  | .done (.ids l) => l = (List.range rows.length).map (n0 + ·) ∧ RowsIn env rows n0 s rows.length ∧
      (∀ x, n0 + rows.length ≤ x → Absent s x) ∧ s.nextId = n0 + rows.length ∧
      s.vectors.length = n0 + rows.length ∧ s.metas.length = n0 + rows.length
  | _ => False

/-- What an update knows at a statement, when the id had vector `w` and metadata `m0`. -/
def AtUpdP (env : LConcEnv V S) (id : Nat) (v : V) (m : Option M) (s : LConc V M S) (w : V) (m0 : M) : LUpd → Prop
  | .live | .old => Lives env s id w m0
  | .drop j codes => s.metas[id]? = some (some m0) ∧ id < s.vectors.length ∧ codes.length = s.tables.length ∧
      Held s id codes j s.tables.length
  | .vec => s.metas[id]? = some (some m0) ∧ id < s.vectors.length ∧ Absent s id
  | .md => m.isSome ∧ s.metas[id]? = some (some m0) ∧ s.vectors[id]? = some (some v) ∧ Absent s id
  | .again => s.metas[id]? = some (some (m.getD m0)) ∧ s.vectors[id]? = some (some v) ∧ Absent s id
  | .add j codes => s.metas[id]? = some (some (m.getD m0)) ∧ s.vectors[id]? = some (some v) ∧
      env.hash v = some codes ∧ codes.length = s.tables.length ∧ Held s id codes 0 j

/-- What an updating thread knows. -/
def AtUpd (env : LConcEnv V S) (id : Nat) (v : V) (m : Option M) (s0 s : LConc V M S) : LAt M S → Prop
  | .start => Same id s0 s
  | .upd .live => Same id s0 s
  | .upd p => ∃ w m0, Lives env s0 id w m0 ∧ AtUpdP env id v m s w m0 p
  | .done (.flag true) => ∃ w m0, Lives env s0 id w m0 ∧ Lives env s id v (m.getD m0)
  | .done (.flag false) => Gone s0 id ∧ Gone s id
  | _ => False

/-- What a deletion knows at a statement for the id it treats. -/
def AtDelP (s0 s : LConc V M S) (pre : List Nat) (id : Nat) : LDel → Prop
  | .test | .old => id ∉ pre → Same id s0 s
  | .drop j codes => id ∉ pre ∧ codes.length = s.tables.length ∧ Held s id codes j s.tables.length
  | .vec => id ∉ pre ∧ Absent s id
  | .md => id ∉ pre ∧ Absent s id ∧ s.vectors[id]? = some none

/-- What a deleting thread knows. -/
def AtDel (l : List Nat) (s0 s : LConc V M S) : LAt M S → Prop
  | .start => ∀ x ∈ l, Same x s0 s
  | .del todo p => ∃ pre id rest, l = pre ++ id :: rest ∧ todo = id :: rest ∧ (∀ x ∈ pre, Gone s x) ∧
      (∀ x ∈ rest, x ∉ pre → x ≠ id → Same x s0 s) ∧ AtDelP s0 s pre id p
  | .done (.flag true) => ∀ x ∈ l, Gone s x
  | _ => False

/-- What a thread knows. -/
def AtOp (env : LConcEnv V S) (n0 : Nat) (s0 s : LConc V M S) (a : LAt M S) : LOp V M → Prop
  | .insert rows => AtIns env rows n0 s a
  | .update id v m => AtUpd env id v m s0 s a
  | .delete l => AtDel l s0 s a
  | .search _ _ => True

/-! ## Steps of other threads -/

/-- The index has as many vectors, metadata and ids. -/
structure SameLen (s s' : LConc V M S) : Prop where
  vec : s'.vectors.length = s.vectors.length
  md : s'.metas.length = s.metas.length
  nxt : s'.nextId = s.nextId

theorem RowsIn.same {rows : List (V × M)} {n0 i : Nat} (h : RowsIn env rows n0 s i)
    (e : ∀ x, n0 ≤ x → Same x s s') (ht : s'.tables.length = s.tables.length) : RowsIn env rows n0 s' i :=
  fun j v m hj hr => (h j v m hj hr).same (e _ (by omega)) ht

theorem AtIns.same {rows : List (V × M)} {n0 : Nat} {a : LAt M S} (h : AtIns env rows n0 s a)
    (e : ∀ x, n0 ≤ x → Same x s s') (f : SameLen s s') (ht : s'.tables.length = s.tables.length) :
    AtIns env rows n0 s' a := by
  cases a with
  | start => exact ⟨f.nxt.trans h.1, f.vec.trans h.2.1, f.md.trans h.2.2.1, fun x hx => (h.2.2.2 x hx).same (e x hx)⟩
  | ins i ids p =>
    obtain ⟨h1, h2, h3, h4, h5⟩ := h
    refine ⟨h1, h2, h3.same e ht, fun x hx => (h4 x hx).same (e x (by omega)), ?_⟩
    have ei := e (n0 + i) (by omega)
    cases p with
    | read => exact ⟨f.nxt.trans h5.1, f.vec.trans h5.2.1, f.md.trans h5.2.2.1, h5.2.2.2.same ei⟩
    | load id => exact ⟨h5.1, f.nxt.trans h5.2.1, f.vec.trans h5.2.2.1, f.md.trans h5.2.2.2.1, h5.2.2.2.2.same ei⟩
    | put id n => exact ⟨h5.1, h5.2.1, f.vec.trans h5.2.2.1, f.md.trans h5.2.2.2.1, h5.2.2.2.2.same ei⟩
    | vec id => exact ⟨h5.1, f.nxt.trans h5.2.1, f.vec.trans h5.2.2.1, f.md.trans h5.2.2.2.1, h5.2.2.2.2.same ei⟩
    | md id =>
      exact ⟨h5.1, f.nxt.trans h5.2.1, f.vec.trans h5.2.2.1, f.md.trans h5.2.2.2.1,
        fun v m hr => ei.vec.trans (h5.2.2.2.2.1 v m hr), h5.2.2.2.2.2.same ei⟩
    | add id j codes =>
      exact ⟨h5.1, f.nxt.trans h5.2.1, f.vec.trans h5.2.2.1, f.md.trans h5.2.2.2.1, h5.2.2.2.2.1.trans ht.symm,
        fun v m hr => have h6 := h5.2.2.2.2.2.1 v m hr
          ⟨ei.vec.trans h6.1, ei.md.trans h6.2.1, h6.2.2⟩, h5.2.2.2.2.2.2.same ei⟩
  | done r =>
    cases r with
    | ids l =>
      exact ⟨h.1, h.2.1.same e ht, fun x hx => (h.2.2.1 x hx).same (e x (by omega)), f.nxt.trans h.2.2.2.1,
        f.vec.trans h.2.2.2.2.1, f.md.trans h.2.2.2.2.2⟩
    | _ => exact h.elim
  | _ => exact h.elim

theorem AtUpd.same {v : V} {m : Option M} {a : LAt M S} (h : AtUpd env id v m s0 s a) (e : Same id s s')
    (hl : s.vectors.length ≤ s'.vectors.length) (ht : s'.tables.length = s.tables.length) :
    AtUpd env id v m s0 s' a := by
  cases a with
  | start => exact Same.trans h e
  | upd p =>
    cases p with
    | live => exact Same.trans h e
    | old => obtain ⟨w, m0, h0, h1⟩ := h; exact ⟨w, m0, h0, Lives.same h1 e ht⟩
    | drop j codes =>
      obtain ⟨w, m0, h0, h1, h2, h3, h4⟩ := h
      refine ⟨w, m0, h0, e.md.trans h1, by omega, h3.trans ht.symm, ?_⟩
      rw [ht]; exact h4.same e
    | vec =>
      obtain ⟨w, m0, h0, h1, h2, h3⟩ := h
      exact ⟨w, m0, h0, e.md.trans h1, by omega, h3.same e⟩
    | md =>
      obtain ⟨w, m0, h0, h1, h2, h3, h4⟩ := h
      exact ⟨w, m0, h0, h1, e.md.trans h2, e.vec.trans h3, h4.same e⟩
    | again =>
      obtain ⟨w, m0, h0, h1, h2, h3⟩ := h
      exact ⟨w, m0, h0, e.md.trans h1, e.vec.trans h2, h3.same e⟩
    | add j codes =>
      obtain ⟨w, m0, h0, h1, h2, h3, h4, h5⟩ := h
      exact ⟨w, m0, h0, e.md.trans h1, e.vec.trans h2, h3, h4.trans ht.symm, h5.same e⟩
  | done r =>
    cases r with
    | flag b =>
      cases b with
      | true => obtain ⟨w, m0, h0, h1⟩ := h; exact ⟨w, m0, h0, h1.same e ht⟩
      | false => exact ⟨h.1, h.2.same e⟩
    | _ => exact h.elim
  | _ => exact h.elim

theorem AtDel.same {l : List Nat} {a : LAt M S} (h : AtDel l s0 s a) (e : ∀ x ∈ l, Same x s s')
    (ht : s'.tables.length = s.tables.length) : AtDel l s0 s' a := by
  cases a with
  | start => exact fun x hx => Same.trans (h x hx) (e x hx)
  | del todo p =>
    obtain ⟨pre, id, rest, rfl, h2, h3, h4, h5⟩ := h
    have ei : Same id s s' := e id (by simp)
    refine ⟨pre, id, rest, rfl, h2, fun x hx => (h3 x hx).same (e x (by simp [hx])),
      fun x hx h6 h7 => (h4 x hx h6 h7).trans (e x (by simp [hx])), ?_⟩
    cases p with
    | test => exact fun h => (h5 h).trans ei
    | old => exact fun h => (h5 h).trans ei
    | drop j codes =>
      refine ⟨h5.1, h5.2.1.trans ht.symm, ?_⟩
      rw [ht]; exact h5.2.2.same ei
    | vec => exact ⟨h5.1, h5.2.same ei⟩
    | md => exact ⟨h5.1, h5.2.1.same ei, ei.vec.trans h5.2.2⟩
  | done r =>
    cases r with
    | flag b =>
      cases b with
      | true => exact fun x hx => (h x hx).same (e x hx)
      | false => exact h.elim
    | _ => exact h.elim
  | _ => exact h.elim

end LConc
end Valori
