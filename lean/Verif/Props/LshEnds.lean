import Verif.Lemmas.ThreadEnds
import Verif.Props.FairLsh

/-!
# C238: the number of statements of a call on an LSH index
-/

namespace Valori.LConc
variable {V M S : Type}

/-- The place is one of the call; there are at most `m` codes, a table under way had at most `n`
buckets, and the ids found so far are smaller than `c`. -/
def FitsL (m n c : Nat) : LOp V M → LAt M S → Prop
  | _, .start | _, .done _ => True
  | .insert rows, .ins i _ (.add _ _ codes) => i < rows.length ∧ codes.length ≤ m
  | .insert rows, .ins i _ _ => i < rows.length
  | .update _ _ _, .upd (.drop _ codes) => codes.length ≤ m
  | .update _ _ _, .upd (.add _ codes) => codes.length ≤ m
  | .update _ _ _, .upd _ => True
  | .delete _, .del todo (.drop _ codes) => todo ≠ [] ∧ codes.length ≤ m
  | .delete _, .del todo _ => todo ≠ []
  | .search _ _, .srch (.exact _ codes got) => codes.length ≤ m ∧ ∀ x ∈ got, x < c
  | .search _ _, .srch (.iter _ codes got) => codes.length ≤ m ∧ ∀ x ∈ got, x < c
  | .search _ _, .srch (.next j b p codes got) =>
    codes.length ≤ m ∧ p ≤ b ∧ b ≤ n ∧ j < codes.length ∧ ∀ x ∈ got, x < c
  | .search _ _, .srch (.take j b p codes got _) =>
    codes.length ≤ m ∧ p < b ∧ b ≤ n ∧ j < codes.length ∧ ∀ x ∈ got, x < c
  | .search _ _, .srch _ => True
  | _, _ => False

/-- The statements a call has left at most; `c`: the number of candidates. -/
def leftL (m n c : Nat) : LOp V M → LAt M S → Nat
  | _, .done _ => 0
  | .insert rows, .start => (m + 6) * rows.length + 1
  | .insert rows, .ins i _ p =>
    (m + 6) * (rows.length - (i + 1)) + (match p with
      | .read => m + 6
      | .load _ => m + 5
      | .put _ _ => m + 4
      | .vec _ => m + 3
      | .md _ => m + 2
      | .add _ j codes => codes.length - j + 1)
  | .update _ _ _, .start => 2 * m + 8
  | .update _ _ _, .upd p =>
    match p with
    | .live => 2 * m + 7
    | .old => 2 * m + 6
    | .drop j codes => codes.length - j + (m + 5)
    | .vec => m + 4
    | .md => m + 3
    | .again => m + 2
    | .add j codes => codes.length - j + 1
  | .delete l, .start => (m + 5) * l.length + 1
  | .delete _, .del todo p =>
    (m + 5) * (todo.length - 1) + (match p with
      | .test => m + 5
      | .old => m + 4
      | .drop j codes => codes.length - j + 3
      | .vec => 2
      | .md => 1)
  | .search _ _, .start => m + 1 + (2 * n + 2) * m + 2 * c + 3
  | .search _ _, .srch p =>
    match p with
    | .exact j codes _ => codes.length - j + 1 + (2 * n + 2) * m + 2 * c + 2
    | .iter j codes _ => (2 * n + 2) * (codes.length - j) + 2 * c + 2
    | .next j b p codes _ => (2 * n + 2) * (codes.length - (j + 1)) + 2 * c + 2 + (2 * (b - p) + 1)
    | .take j b p codes _ _ => (2 * n + 2) * (codes.length - (j + 1)) + 2 * c + 2 + (2 * (b - (p + 1)) + 2)
    | .score todo _ => 2 * todo.length + 1
    | .md _ _ todo _ => 2 * todo.length + 2
  | _, _ => 0

/-- A call that has nothing left is over. -/
theorem over_of_leftL {m n c : Nat} {op : LOp V M} {p : LAt M S} (hf : FitsL m n c op p) (h : leftL m n c op p = 0) :
    ∃ r, p = .done r := by
  cases p with
  | done r => exact ⟨r, rfl⟩
  | start => cases op <;> simp [leftL] at h
  | ins i ids p =>
    cases op with
    | insert rows => cases p <;> simp [leftL] at h
    | _ => cases p <;> exact hf.elim
  | upd p =>
    cases op with
    | update id v m => cases p <;> simp [leftL] at h
    | _ => cases p <;> exact hf.elim
  | del todo p =>
    cases op with
    | delete ids => cases p <;> simp [leftL] at h
    | _ => cases p <;> exact hf.elim
  | srch p =>
    cases op with
    | search q k => cases p <;> simp [leftL] at h
    | _ => cases p <;> exact hf.elim

/-- A statement takes a call from `p` to `p'` and so nearer to its end. -/
def OnL (m n c : Nat) (op : LOp V M) (p p' : LAt M S) : Prop :=
  FitsL m n c op p' ∧ leftL m n c op p' ≤ leftL m n c op p - 1

theorem onL_done (m n c : Nat) (op : LOp V M) (p : LAt M S) (r : LRes M S) : OnL m n c op p (.done r) := by
  cases op <;> exact ⟨trivial, Nat.zero_le _⟩

theorem mul_pred (a b : Nat) (h : 0 < b) : a * b = a * (b - 1) + a := by
  obtain ⟨b, rfl⟩ : ∃ x, b = x + 1 := ⟨b - 1, by omega⟩
  rw [Nat.add_sub_cancel, Nat.mul_succ]

theorem onL_row {m n c : Nat} {rows : List (V × M)} {i : Nat} {ids : List Nat} {p : LAt M S}
    (h : i < rows.length → (m + 6) * (rows.length - i) ≤ leftL m n c (.insert rows) p - 1) :
    OnL m n c (.insert rows) p (nextRow rows i ids) := by
  unfold nextRow
  split
  · next hi =>
    refine ⟨hi, ?_⟩
    have h1 := h hi
    rw [mul_pred _ _ (by omega)] at h1
    exact h1
  · exact onL_done _ _ _ _ _ _

theorem onL_ins (env : LConcEnv V S) (m n c : Nat) (hm : ∀ v codes, env.hash v = some codes → codes.length ≤ m)
    (rows : List (V × M)) (s : LConc V M S) (i : Nat) (ids : List Nat) (p : LIns)
    (hf : FitsL m n c (.insert rows) (.ins (S := S) i ids p)) :
    OnL m n c (.insert rows) (.ins i ids p) (stepIns env rows s i ids p).1 := by
  have hi : i < rows.length := by cases p <;> first | exact hf | exact hf.1
  have hr : rows[i]? = some rows[i] := List.getElem?_eq_getElem hi
  cases p with
  | read => exact ⟨hi, by simp only [stepIns, leftL]; omega⟩
  | load id => exact ⟨hi, by simp only [stepIns, leftL]; omega⟩
  | put id n => exact ⟨hi, by simp only [stepIns, leftL]; omega⟩
  | vec id =>
    simp only [stepIns, hr]
    exact ⟨hi, by simp only [leftL]; omega⟩
  | md id =>
    simp only [stepIns, hr]
    cases h : env.hash rows[i].1 with
    | none => exact onL_done _ _ _ _ _ _
    | some codes =>
      have := hm _ _ h
      exact ⟨⟨hi, this⟩, by simp only [leftL]; omega⟩
  | add id j codes =>
    simp only [stepIns]
    cases h : codes[j]? with
    | none => exact onL_row fun _ => by simp only [leftL]; omega
    | some x =>
      have := (List.getElem?_eq_some_iff.1 h).1
      exact ⟨hf, by simp only [leftL]; omega⟩

theorem onL_upd (env : LConcEnv V S) (m n c : Nat) (hm : ∀ v codes, env.hash v = some codes → codes.length ≤ m)
    (id : Nat) (v : V) (x : Option M) (s : LConc V M S) (p : LUpd)
    (hf : FitsL m n c (.update id v x) (.upd (S := S) p)) :
    OnL m n c (.update id v x) (.upd p) (stepUpd env id v x s p).1 := by
  cases p with
  | live =>
    simp only [stepUpd]
    split
    · exact ⟨trivial, by simp only [leftL]; omega⟩
    · exact onL_done _ _ _ _ _ _
  | old =>
    simp only [stepUpd]
    split
    · split
      · exact onL_done _ _ _ _ _ _
      · next h =>
        have := hm _ _ h
        exact ⟨this, by simp only [leftL]; omega⟩
    · exact onL_done _ _ _ _ _ _
  | drop j codes =>
    simp only [stepUpd]
    cases h : codes[j]? with
    | none => exact ⟨trivial, by simp only [leftL]; omega⟩
    | some y =>
      have := (List.getElem?_eq_some_iff.1 h).1
      exact ⟨hf, by simp only [leftL]; omega⟩
  | vec =>
    simp only [stepUpd]
    cases x <;> exact ⟨trivial, by simp only [leftL]; omega⟩
  | md =>
    simp only [stepUpd]
    split
    · exact ⟨trivial, by simp only [leftL]; omega⟩
    · exact onL_done _ _ _ _ _ _
  | again =>
    simp only [stepUpd]
    split
    · split
      · exact onL_done _ _ _ _ _ _
      · next h =>
        have := hm _ _ h
        exact ⟨this, by simp only [leftL]; omega⟩
    · exact onL_done _ _ _ _ _ _
  | add j codes =>
    simp only [stepUpd]
    cases h : codes[j]? with
    | none => exact onL_done _ _ _ _ _ _
    | some y =>
      have := (List.getElem?_eq_some_iff.1 h).1
      exact ⟨hf, by simp only [leftL]; omega⟩

theorem onL_next {m n c : Nat} {l todo : List Nat} {p : LAt M S}
    (h : (m + 5) * todo.length ≤ leftL (V := V) m n c (.delete l) p - 1) :
    OnL (V := V) m n c (.delete l) p (nextDel todo) := by
  cases todo with
  | nil => exact onL_done _ _ _ _ _ _
  | cons id todo =>
    refine ⟨by simp [FitsL, nextDel], ?_⟩
    rw [mul_pred _ _ (by simp)] at h
    exact h

theorem onL_del (env : LConcEnv V S) (m n c : Nat) (hm : ∀ v codes, env.hash v = some codes → codes.length ≤ m)
    (s : LConc V M S) (l : List Nat) (id : Nat) (todo : List Nat) (p : LDel)
    (hf : FitsL (V := V) m n c (.delete l) (.del (M := M) (S := S) (id :: todo) p)) :
    OnL (V := V) m n c (.delete l) (.del (id :: todo) p) (stepDel env s id todo p).1 := by
  have hn : id :: todo ≠ [] := by simp
  cases p with
  | test =>
    simp only [stepDel]
    split
    · exact ⟨hn, by simp only [leftL]; omega⟩
    · exact onL_next (by simp only [leftL, List.length_cons, Nat.add_sub_cancel]; omega)
  | old =>
    simp only [stepDel]
    split
    · split
      · exact onL_done _ _ _ _ _ _
      · next h =>
        have := hm _ _ h
        exact ⟨⟨hn, this⟩, by simp only [leftL]; omega⟩
    · exact onL_next (by simp only [leftL, List.length_cons, Nat.add_sub_cancel]; omega)
  | drop j codes =>
    simp only [stepDel]
    cases h : codes[j]? with
    | none => exact ⟨hn, by simp only [leftL]; omega⟩
    | some y =>
      have := (List.getElem?_eq_some_iff.1 h).1
      exact ⟨hf, by simp only [leftL]; omega⟩
  | vec => exact ⟨hn, by simp only [stepDel, leftL]; omega⟩
  | md =>
    simp only [stepDel]
    split
    · exact onL_next (by simp only [leftL, List.length_cons, Nat.add_sub_cancel]; omega)
    · exact onL_done _ _ _ _ _ _

variable [LinearOrder S]

/-- No table has more than `n` buckets, and all listed ids are smaller than `c`. -/
def Within (n c : Nat) (s : LConc V M S) : Prop :=
  ∀ d ∈ s.tables, d.length ≤ n ∧ ∀ e ∈ d, ∀ x ∈ e.2, x < c

omit [LinearOrder S] in
theorem Within.bucket {n c : Nat} {s : LConc V M S} (h : Within n c s) (j : Nat) (y : Code) : ∀ x ∈ s.bucket j y, x < c := by
  intro x hx
  unfold LConc.bucket at hx
  cases ht : s.tables[j]? with
  | none => simp [ht] at hx
  | some d =>
    simp only [ht, Option.getD_some] at hx
    cases hg : Dict.get? d y with
    | none => simp [hg] at hx
    | some l =>
      rw [hg, Option.getD_some] at hx
      exact (h d (List.mem_of_getElem? ht)).2 _ (Dict.mem_of_get? hg) x hx

/-- What is known of the order in which a set is gone through: each element once. -/
def SetOnce (env : LConcEnv V S) : Prop := ∀ l, (env.setOrder l).Nodup ∧ ∀ x ∈ env.setOrder l, x ∈ l

omit [LinearOrder S] in
theorem SetOnce.short {env : LConcEnv V S} (h : SetOnce env) {l : List Nat} {c : Nat} (hl : ∀ x ∈ l, x < c) :
    (env.setOrder l).length ≤ c := by
  have := (List.subperm_of_subset (h l).1 (l₂ := List.range c) fun x hx =>
    List.mem_range.2 (hl x ((h l).2 x hx))).length_le
  simpa using this

theorem onL_srch (env : LConcEnv V S) (m n c : Nat) (hc : SetOnce env) (q : V) (k : Int)
    (s : LConc V M S) (hn : Within n c s) (p : LSr M S)
    (hf : FitsL (V := V) m n c (.search q k) (.srch p)) :
    OnL (V := V) m n c (.search q k) (.srch p) (stepSr env q k s p) := by
  have more : ∀ (got : List Nat) (j : Nat) (y : Code), (∀ x ∈ got, x < c) → ∀ x ∈ got ++ s.bucket j y, x < c := by
    intro got j y hg x hx
    rcases List.mem_append.1 hx with h | h
    · exact hg x h
    · exact hn.bucket j y x h
  cases p with
  | exact j codes got =>
    obtain ⟨h1, hg⟩ := hf
    simp only [stepSr]
    cases h : codes[j]? with
    | none =>
      simp only []
      split
      · refine ⟨⟨h1, by simp⟩, ?_⟩
        have := Nat.mul_le_mul_left (2 * n + 2) h1
        simp only [leftL, Nat.sub_zero]
        omega
      · refine ⟨trivial, ?_⟩
        have := hc.short hg
        simp only [leftL]
        omega
    | some y =>
      have := (List.getElem?_eq_some_iff.1 h).1
      exact ⟨⟨h1, more got j y hg⟩, by simp only [leftL]; omega⟩
  | iter j codes got =>
    obtain ⟨h1, hg⟩ := hf
    simp only [stepSr]
    cases h : codes[j]? with
    | none =>
      refine ⟨trivial, ?_⟩
      have := hc.short hg
      simp only [leftL]
      omega
    | some y =>
      have hj := (List.getElem?_eq_some_iff.1 h).1
      have hb : (s.tables[j]?.getD []).length ≤ n := by
        cases ht : s.tables[j]? with
        | none => simp
        | some d => exact (hn d (List.mem_of_getElem? ht)).1
      refine ⟨⟨h1, Nat.zero_le _, hb, hj, hg⟩, ?_⟩
      simp only [leftL]
      rw [mul_pred (2 * n + 2) (codes.length - j) (by omega), show codes.length - j - 1 = codes.length - (j + 1) by omega]
      omega
  | next j b p codes got =>
    obtain ⟨h1, h2, h3, h4, hg⟩ := hf
    simp only [stepSr]
    split
    · exact onL_done _ _ _ _ _ _
    · next hlen =>
      rw [not_not] at hlen
      split
      · next x _ qc hp _ =>
        have := (List.getElem?_eq_some_iff.1 hp).1
        split
        · exact ⟨⟨h1, by omega, h3, h4, hg⟩, by simp only [leftL]; omega⟩
        · exact ⟨⟨h1, by omega, h3, h4, hg⟩, by simp only [leftL]; omega⟩
      · exact ⟨⟨h1, hg⟩, by simp only [leftL]; omega⟩
  | take j b p codes got x =>
    obtain ⟨h1, h2, h3, h4, hg⟩ := hf
    exact ⟨⟨h1, h2, h3, h4, more got j x hg⟩, by simp only [stepSr, leftL]; omega⟩
  | score todo acc =>
    cases todo with
    | nil => exact onL_done _ _ _ _ _ _
    | cons id todo =>
      simp only [stepSr]
      split
      · split
        · exact onL_done _ _ _ _ _ _
        · split <;> exact ⟨trivial, by simp only [leftL, List.length_cons]; omega⟩
      · exact ⟨trivial, by simp only [leftL, List.length_cons]; omega⟩
  | md id d todo acc =>
    simp only [stepSr]
    split
    · exact onL_done _ _ _ _ _ _
    · exact ⟨trivial, by simp only [leftL]; omega⟩

theorem onL_step (env : LConcEnv V S) (m n c : Nat) (hm : ∀ v codes, env.hash v = some codes → codes.length ≤ m)
    (ops : Nat → LOp V M) (s : LConc V M S) (t : Nat)
    (hq : (∃ q k, ops t = .search q k) → SetOnce env ∧ Within n c s)
    (hf : FitsL m n c (ops t) (s.thr t)) : OnL m n c (ops t) (s.thr t) ((s.step env ops t).thr t) := by
  cases hp : s.thr t with
  | done r =>
    have : (s.step env ops t).thr t = .done r := by unfold step; cases ops t <;> simp only [hp]
    rw [this]
    exact onL_done _ _ _ _ _ _
  | start =>
    unfold step
    cases ho : ops t with
    | insert rows => simp only [hp, Function.update_self]; exact onL_row fun _ => by simp only [leftL, Nat.sub_zero]; omega
    | delete ids => simp only [hp, Function.update_self]; exact onL_next (by simp only [leftL]; omega)
    | update id v x =>
      simp only [hp, Function.update_self]
      split
      · exact ⟨trivial, by simp only [leftL]; omega⟩
      · exact onL_done _ _ _ _ _ _
    | search q k =>
      simp only [hp, Function.update_self]
      split
      · exact onL_done _ _ _ _ _ _
      · next h =>
        have := hm _ _ h
        exact ⟨⟨this, by simp⟩, by simp only [leftL]; omega⟩
  | ins i ids p =>
    rw [hp] at hf
    unfold step
    cases ho : ops t with
    | insert rows => rw [ho] at hf; simp only [hp, Function.update_self]; exact onL_ins env m n c hm rows s i ids p hf
    | _ => rw [ho] at hf; cases p <;> exact hf.elim
  | upd p =>
    rw [hp] at hf
    unfold step
    cases ho : ops t with
    | update id v x => rw [ho] at hf; simp only [hp, Function.update_self]; exact onL_upd env m n c hm id v x s p hf
    | _ => rw [ho] at hf; cases p <;> exact hf.elim
  | del todo p =>
    rw [hp] at hf
    unfold step
    cases ho : ops t with
    | delete ids =>
      rw [ho] at hf
      cases todo with
      | nil => cases p <;> first | exact absurd rfl hf | exact absurd rfl hf.1
      | cons id todo => simp only [hp, Function.update_self]; exact onL_del env m n c hm s ids id todo p hf
    | _ => rw [ho] at hf; cases p <;> exact hf.elim
  | srch p =>
    rw [hp] at hf
    unfold step
    cases ho : ops t with
    | search q k =>
      rw [ho] at hf; simp only [hp, Function.update_self]
      obtain ⟨h1, h2⟩ := hq ⟨q, k, ho⟩
      exact onL_srch env m n c h1 q k s h2 p hf
    | _ => rw [ho] at hf; cases p <;> exact hf.elim

end Valori.LConc

namespace Valori.Props
open Valori Valori.LConc
variable {V M S : Type} [LinearOrder S]

/-- The number of statements an insertion, update or deletion on an LSH index with `m` tables has at most. -/
def lshSteps (m : Nat) : LOp V M → Nat
  | .insert rows => (m + 6) * rows.length + 1
  | .update _ _ _ => 2 * m + 8
  | .delete ids => (m + 5) * ids.length + 1
  | .search _ _ => 0

/-- **C238**, insertion, update and deletion on an LSH index with at most `m` tables: whatever state the index is in and
whatever the other threads do, the call is over after so many of its own statements. -/
theorem C238_lsh (env : LConcEnv V S) (ops : Nat → LOp V M) (s : LConc V M S) (t : Nat) (hs : s.thr t = .start)
    (m : Nat) (hm : ∀ v codes, env.hash v = some codes → codes.length ≤ m) (hop : ∀ q k, ops t ≠ .search q k)
    (sched : List Nat) (hc : lshSteps m (ops t) ≤ sched.count t) : EndedL (s.run env ops sched) t := by
  obtain ⟨h1, h2⟩ := left_after (LConc.step env ops) t (fun _ => True) (fun s => FitsL m 0 0 (ops t) (s.thr t))
    (fun s => leftL m 0 0 (ops t) (s.thr t))
    (fun s _ hf => onL_step env m 0 0 hm ops s t (fun ⟨q, k, h⟩ => absurd h (hop q k)) hf)
    (fun s t' _ hf h => by rw [step_othersL env ops s (Ne.symm h)]; exact ⟨hf, le_rfl⟩) sched s
    (by rw [hs]; cases ops t <;> trivial) (fun _ _ => trivial)
  refine over_of_leftL h1 (c := 0) ?_
  change leftL m 0 0 (ops t) ((s.run env ops sched).thr t) ≤ _ at h2
  have : leftL m 0 0 (ops t) (s.thr t) ≤ lshSteps m (ops t) := by
    rw [hs]
    cases ho : ops t with
    | search q k => exact absurd ho (hop q k)
    | _ => exact le_rfl
  omega

/-- **C238**, search of an LSH index with at most `m` tables: if no table has at any moment more than `n` buckets and
all ids in them are smaller than `c`, the search is over after so many of its own statements. -/
theorem C238_lsh_search_partial (env : LConcEnv V S) (ops : Nat → LOp V M) (s : LConc V M S) (t : Nat)
    (hs : s.thr t = .start) (m n c : Nat) (hm : ∀ v codes, env.hash v = some codes → codes.length ≤ m)
    (hcand : SetOnce env) (q : V) (k : Int) (ho : ops t = .search q k) (sched : List Nat)
    (hn : ∀ pre, pre <+: sched → Within n c (s.run env ops pre))
    (hc : m + 1 + (2 * n + 2) * m + 2 * c + 3 ≤ sched.count t) : EndedL (s.run env ops sched) t := by
  obtain ⟨h1, h2⟩ := left_after (LConc.step env ops) t (Within n c)
    (fun s => FitsL m n c (ops t) (s.thr t)) (fun s => leftL m n c (ops t) (s.thr t))
    (fun s hn hf => onL_step env m n c hm ops s t (fun _ => ⟨hcand, hn⟩) hf)
    (fun s t' _ hf h => by rw [step_othersL env ops s (Ne.symm h)]; exact ⟨hf, le_rfl⟩) sched s
    (by rw [hs]; cases ops t <;> trivial) hn
  refine over_of_leftL h1 (c := c) ?_
  change leftL m n c (ops t) ((s.run env ops sched).thr t) ≤ _ at h2
  rw [hs, ho] at h2
  rw [ho]
  simp only [leftL] at h2 ⊢
  omega

/-! ## Cases -/

/-- One table: an insertion of one row is over after eight statements of its own, whatever a search beside it does, and
no earlier. -/
example (sched : List Nat) (h : 8 ≤ sched.count 1) :
    EndedL ((lindex [3, 5, 6]).run lenv (fun t => if t = 0 then .search 4 1 else .insert [(7, 1)]) sched) 1 :=
  C238_lsh lenv _ _ 1 rfl 1 (fun v codes hv => by
    simp only [lenv] at hv
    split at hv
    · cases hv; exact le_rfl
    · cases hv) (fun q k h => by cases h) sched h

example : ¬ EndedL ((lindex [3, 5, 6]).run lenv (fun t => if t = 0 then .search 4 1 else .insert [(7, 1)])
    (List.replicate 7 1)) 1 := by
  rintro ⟨r, h⟩
  cases h

theorem tables_searching (env : LConcEnv V S) (ops : Nat → LOp V M) (h : ∀ t, ∃ q k, ops t = .search q k)
    (sched : List Nat) (s : LConc V M S) : (s.run env ops sched).tables = s.tables := by
  induction sched generalizing s with
  | nil => rfl
  | cons t sched ih =>
    rw [show s.run env ops (t :: sched) = (s.step env ops t).run env ops sched from rfl, ih]
    obtain ⟨q, k, ho⟩ := h t
    unfold LConc.step
    rw [ho]
    cases s.thr t <;> rfl

/-- Only searches: three buckets, ids smaller than three. -/
example (sched : List Nat) (h : 19 ≤ sched.count 0) :
    EndedL ((lindex [3, 5, 6]).run lenv (fun _ => .search 4 1) sched) 0 :=
  C238_lsh_search_partial lenv _ _ 0 rfl 1 3 3 (fun v codes hv => by
    simp only [lenv] at hv
    split at hv
    · cases hv; exact le_rfl
    · cases hv) (fun l => ⟨List.nodup_dedup l, fun x => List.mem_dedup.1⟩) 4 1 rfl sched (fun pre _ => by
      unfold Within
      rw [tables_searching _ _ (fun t => ⟨4, 1, rfl⟩)]
      decide) h

end Valori.Props
