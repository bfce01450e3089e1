import Mathlib.Data.Prod.Lex
import Verif.Lemmas.Fair
import Verif.Lemmas.LshConc
import Verif.Props.LshConcCases

/-!
# C242: a call on an LSH index that gets its turn again and again comes to its end
-/

namespace Valori.Props
open Valori Valori.LConc
open Valori.Spec (NHit firstOf Turns)

/-- Thread `t` of an LSH index has come to its end. -/
def EndedL {V M S : Type} (s : LConc V M S) (t : Nat) : Prop := ∃ r, s.thr t = .done r

namespace LEnds
variable {V M S : Type}

/-- Places a call can be at. -/
def Fitting : LOp V M → LAt M S → Prop
  | _, .start | _, .done _ => True
  | .insert _, .ins .. => True
  | .search .., .srch _ => True
  | .update .., .upd _ => True
  | .delete _, .del todo _ => todo ≠ []
  | _, _ => False

/-- How far a place is from the end: three numbers, compared from the left. -/
def rankOf : LOp V M → LAt M S → ℕ ×ₗ ℕ ×ₗ ℕ
  | .insert rows, .start => toLex (rows.length + 1, toLex (0, 0))
  | .insert rows, .ins i _ .read => toLex (rows.length - i, toLex (6, 0))
  | .insert rows, .ins i _ (.load _) => toLex (rows.length - i, toLex (5, 0))
  | .insert rows, .ins i _ (.put ..) => toLex (rows.length - i, toLex (4, 0))
  | .insert rows, .ins i _ (.vec _) => toLex (rows.length - i, toLex (3, 0))
  | .insert rows, .ins i _ (.md _) => toLex (rows.length - i, toLex (2, 0))
  | .insert rows, .ins i _ (.add _ j codes) => toLex (rows.length - i, toLex (1, codes.length - j))
  | .update .., .start => toLex (8, toLex (0, 0))
  | .update .., .upd .live => toLex (7, toLex (0, 0))
  | .update .., .upd .old => toLex (6, toLex (0, 0))
  | .update .., .upd (.drop j codes) => toLex (5, toLex (codes.length - j, 0))
  | .update .., .upd .vec => toLex (4, toLex (0, 0))
  | .update .., .upd .md => toLex (3, toLex (0, 0))
  | .update .., .upd .again => toLex (2, toLex (0, 0))
  | .update .., .upd (.add j codes) => toLex (1, toLex (codes.length - j, 0))
  | .delete l, .start => toLex (l.length + 1, toLex (0, 0))
  | .delete _, .del todo .test => toLex (todo.length, toLex (5, 0))
  | .delete _, .del todo .old => toLex (todo.length, toLex (4, 0))
  | .delete _, .del todo (.drop j codes) => toLex (todo.length, toLex (3, codes.length - j))
  | .delete _, .del todo .vec => toLex (todo.length, toLex (2, 0))
  | .delete _, .del todo .md => toLex (todo.length, toLex (1, 0))
  | .search .., .start => toLex (5, toLex (0, 0))
  | .search .., .srch (.exact j codes _) => toLex (4, toLex (codes.length - j, 0))
  | .search .., .srch (.iter j codes _) => toLex (3, toLex (2 * (codes.length - j), 0))
  | .search .., .srch (.next j n p codes _) => toLex (3, toLex (2 * (codes.length - (j + 1)) + 1, 2 * (n - p)))
  | .search .., .srch (.take j n p codes _ _) =>
    toLex (3, toLex (2 * (codes.length - (j + 1)) + 1, 2 * (n - (p + 1)) + 1))
  | .search .., .srch (.score todo _) => toLex (2, toLex (2 * todo.length, 0))
  | .search .., .srch (.md _ _ todo _) => toLex (2, toLex (2 * todo.length + 1, 0))
  | _, _ => toLex (0, toLex (0, 0))

theorem lex_lt {a b c a' b' c' : ℕ} :
    (toLex (a, toLex (b, c)) : ℕ ×ₗ ℕ ×ₗ ℕ) < toLex (a', toLex (b', c')) ↔
      a < a' ∨ a = a' ∧ (b < b' ∨ b = b' ∧ c < c') := by
  simp [Prod.Lex.toLex_lt_toLex]

variable [LinearOrder S] {env : LConcEnv V S} {ops : Nat → LOp V M}

theorem ins_nearer {s : LConc V M S} {rows : List (V × M)} {i : Nat} {ids : List Nat} (p : LIns) :
    (∃ r, (stepIns env rows s i ids p).1 = .done r) ∨
      Fitting (.insert rows) (stepIns env rows s i ids p).1 ∧
        rankOf (.insert rows) (stepIns env rows s i ids p).1 < rankOf (.insert rows) (.ins i ids p : LAt M S) := by
  cases p with
  | add id j codes =>
    simp only [stepIns]
    cases hc : codes[j]? with
    | some c =>
      have := (List.getElem?_eq_some_iff.1 hc).1
      right
      simp only [Fitting, rankOf, lex_lt, true_and]
      omega
    | none =>
      simp only [nextRow]
      split
      · right
        simp only [Fitting, rankOf, lex_lt, true_and]
        omega
      · exact .inl ⟨_, rfl⟩
  | vec id =>
    simp only [stepIns]
    split
    · exact .inl ⟨_, rfl⟩
    · right
      simp only [Fitting, rankOf, lex_lt, true_and]
      omega
  | md id =>
    simp only [stepIns]
    split
    · exact .inl ⟨_, rfl⟩
    · split
      · exact .inl ⟨_, rfl⟩
      · right
        simp only [Fitting, rankOf, lex_lt, true_and]
        omega
  | _ =>
    right
    simp only [stepIns, Fitting, rankOf, lex_lt, true_and]
    omega

theorem upd_nearer {s : LConc V M S} {id : Nat} {v : V} {m : Option M} (p : LUpd) :
    (∃ r, (stepUpd env id v m s p).1 = .done r) ∨
      Fitting (.update id v m) (stepUpd env id v m s p).1 ∧
        rankOf (.update id v m) (stepUpd env id v m s p).1 < rankOf (.update id v m) (.upd p : LAt M S) := by
  cases p with
  | drop j codes | add j codes =>
    simp only [stepUpd]
    cases hc : codes[j]? with
    | some c =>
      have := (List.getElem?_eq_some_iff.1 hc).1
      right
      simp only [Fitting, rankOf, lex_lt, true_and]
      omega
    | none => first | exact .inl ⟨_, rfl⟩ | (right; simp only [Fitting, rankOf, lex_lt, true_and]; omega)
  | _ =>
    simp only [stepUpd]
    repeat' split
    all_goals first | exact .inl ⟨_, rfl⟩ | (right; simp only [Fitting, rankOf, lex_lt, true_and]; omega)

theorem nextDel_nearer {l : List Nat} (todo : List Nat) {a : ℕ ×ₗ ℕ ×ₗ ℕ}
    (h : toLex (todo.length + 1, toLex (0, 0)) ≤ a) :
    (∃ r, (nextDel todo : LAt M S) = .done r) ∨ Fitting (.delete l : LOp V M) (nextDel todo : LAt M S) ∧
      rankOf (.delete l : LOp V M) (nextDel todo : LAt M S) < a := by
  cases todo with
  | nil => exact .inl ⟨_, rfl⟩
  | cons id todo =>
    refine .inr ⟨by simp [nextDel, Fitting], lt_of_lt_of_le ?_ h⟩
    simp only [nextDel, rankOf, lex_lt]
    omega

theorem del_nearer {s : LConc V M S} {l : List Nat} {id : Nat} {todo : List Nat} (p : LDel) :
    (∃ r, (stepDel env s id todo p).1 = .done r) ∨
      Fitting (.delete l : LOp V M) (stepDel env s id todo p).1 ∧
        rankOf (.delete l : LOp V M) (stepDel env s id todo p).1 <
          rankOf (.delete l : LOp V M) (.del (id :: todo) p : LAt M S) := by
  have hn : ∀ b c : Nat, (toLex (todo.length + 1, toLex (0, 0)) : ℕ ×ₗ ℕ ×ₗ ℕ) ≤
      toLex ((id :: todo).length, toLex (b, c)) := by
    intro b c
    rw [← not_lt, lex_lt]
    simp only [List.length_cons]
    omega
  cases p with
  | drop j codes =>
    simp only [stepDel]
    cases hc : codes[j]? with
    | some c =>
      have := (List.getElem?_eq_some_iff.1 hc).1
      right
      simp only [Fitting, rankOf, lex_lt, ne_eq, reduceCtorEq, not_false_eq_true, true_and]
      omega
    | none =>
      right
      simp only [Fitting, rankOf, lex_lt, ne_eq, reduceCtorEq, not_false_eq_true, true_and]
      omega
  | _ =>
    simp only [stepDel]
    repeat' split
    all_goals first
      | exact .inl ⟨_, rfl⟩
      | exact nextDel_nearer todo (hn _ _)
      | (right; simp only [Fitting, rankOf, lex_lt, ne_eq, reduceCtorEq, not_false_eq_true, true_and]; omega)

theorem sr_nearer {s : LConc V M S} {q : V} {k : Int} (p : LSr M S) :
    (∃ r, stepSr env q k s p = .done r) ∨
      Fitting (.search q k : LOp V M) (stepSr env q k s p) ∧
        rankOf (.search q k : LOp V M) (stepSr env q k s p) < rankOf (.search q k : LOp V M) (.srch p : LAt M S) := by
  cases p with
  | exact j codes got | iter j codes got =>
    simp only [stepSr]
    cases hc : codes[j]? with
    | some c =>
      have := (List.getElem?_eq_some_iff.1 hc).1
      right
      simp only [Fitting, rankOf, lex_lt, true_and]
      omega
    | none =>
      right
      simp only
      repeat' split
      all_goals (simp only [Fitting, rankOf, lex_lt, true_and]; omega)
  | next j n p codes got =>
    simp only [stepSr]
    split
    · exact .inl ⟨_, rfl⟩
    · next hn =>
      right
      split
      · next hx _ =>
        have := (List.getElem?_eq_some_iff.1 hx).1
        split <;> (simp only [Fitting, rankOf, lex_lt, true_and]; omega)
      · simp only [Fitting, rankOf, lex_lt, true_and]; omega
  | take j n p codes got c =>
    right
    simp only [stepSr, Fitting, rankOf, lex_lt, true_and]; omega
  | score todo acc =>
    cases todo with
    | nil => exact .inl ⟨_, rfl⟩
    | cons id todo =>
      simp only [stepSr]
      repeat' split
      all_goals first
        | exact .inl ⟨_, rfl⟩
        | (right; simp only [Fitting, rankOf, lex_lt, List.length_cons, true_and]; omega)
  | md id d todo acc =>
    simp only [stepSr]
    split
    · exact .inl ⟨_, rfl⟩
    · right; simp only [Fitting, rankOf, lex_lt, true_and]; omega

theorem own_nearer {s : LConc V M S} {t : Nat} (hf : Fitting (ops t) (s.thr t)) (he : ¬ ∃ r, s.thr t = .done r) :
    (∃ r, (s.step env ops t).thr t = .done r) ∨
      Fitting (ops t) ((s.step env ops t).thr t) ∧
        rankOf (ops t) ((s.step env ops t).thr t) < rankOf (ops t) (s.thr t) := by
  cases ho : ops t with
  | insert rows =>
    cases hs : s.thr t with
    | done r => exact absurd ⟨r, hs⟩ he
    | start =>
      simp only [step, ho, hs, Function.update_self, nextRow]
      split
      · right; simp only [Fitting, rankOf, lex_lt, true_and]; omega
      · exact .inl ⟨_, rfl⟩
    | ins i ids p => simp only [step, ho, hs, Function.update_self]; exact ins_nearer p
    | _ => rw [ho, hs] at hf; exact hf.elim
  | update id v m =>
    cases hs : s.thr t with
    | done r => exact absurd ⟨r, hs⟩ he
    | start =>
      simp only [step, ho, hs, Function.update_self]
      split
      · right; simp only [Fitting, rankOf, lex_lt, true_and]; omega
      · exact .inl ⟨_, rfl⟩
    | upd p => simp only [step, ho, hs, Function.update_self]; exact upd_nearer p
    | _ => rw [ho, hs] at hf; exact hf.elim
  | delete l =>
    cases hs : s.thr t with
    | done r => exact absurd ⟨r, hs⟩ he
    | start =>
      simp only [step, ho, hs, Function.update_self]
      exact nextDel_nearer l le_rfl
    | del todo p =>
      cases todo with
      | nil => rw [ho, hs] at hf; exact absurd rfl hf
      | cons id todo => simp only [step, ho, hs, Function.update_self]; exact del_nearer p
    | _ => rw [ho, hs] at hf; exact hf.elim
  | search q k =>
    cases hs : s.thr t with
    | done r => exact absurd ⟨r, hs⟩ he
    | start =>
      simp only [step, ho, hs, Function.update_self]
      split
      · exact .inl ⟨_, rfl⟩
      · right; simp only [Fitting, rankOf, lex_lt, true_and]; omega
    | srch p => simp only [step, ho, hs, Function.update_self]; exact sr_nearer p
    | _ => rw [ho, hs] at hf; exact hf.elim

end LEnds

variable {V M S : Type} [LinearOrder S]

/-- **C242**, LSH: whatever other threads do, and however often, every call that gets its turn again and again comes to
its end; so does a search, whose loops are over tables that insertions enlarge: it raises instead. -/
theorem C242_lsh (env : LConcEnv V S) (ops : Nat → LOp V M) (s : LConc V M S) (t : Nat) (hs : s.thr t = .start)
    (f : Nat → Nat) (hf : Turns f t) : ∃ n, EndedL (s.run env ops (firstOf f n)) t :=
  fair_ends (step env ops) t (fun s => s.thr t) (LEnds.rankOf (ops t)) (LEnds.Fitting (ops t)) (fun p => ∃ r, p = .done r)
    (fun _ h1 h2 => LEnds.own_nearer h1 h2) (fun s u hu => step_othersL env ops s (Ne.symm hu)) s
    (by rw [hs]; cases ops t <;> trivial) f hf

/-- A search beside an insertion, turn by turn: the execution is one without end in which the search gets its turn
again and again. -/
example : Turns (fun i => i % 2) 0 := fun n => ⟨2 * n, by omega, by show 2 * n % 2 = 0; omega⟩

example : ∃ n, EndedL ((lindex [3, 5, 6]).run lenv (fun t => if t = 0 then .search 4 1 else .insert [(7, 1)])
    (firstOf (fun i => i % 2) n)) 0 :=
  C242_lsh _ _ _ 0 rfl _ fun n => ⟨2 * n, by omega, by show 2 * n % 2 = 0; omega⟩

end Valori.Props
