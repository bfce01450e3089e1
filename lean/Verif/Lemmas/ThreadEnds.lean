import Mathlib.Data.List.Count
import Mathlib.Data.List.Perm.Subperm
import Mathlib.Data.List.Range
import Verif.Model.FlatConc
import Verif.Model.IvfTrained
import Verif.Lemmas.Dict

/-!
# How many statements of its own a call has left
-/

namespace Valori

/-- A number that every step of `t` makes smaller and no other step makes larger, along an execution: after as many
steps of `t` it is 0.  `Q` holds along the execution, `F` is kept. -/
theorem left_after {σ : Type} (step : σ → Nat → σ) (t : Nat) (Q F : σ → Prop) (left : σ → Nat)
    (hown : ∀ s, Q s → F s → F (step s t) ∧ left (step s t) ≤ left s - 1)
    (hother : ∀ s t', Q s → F s → t' ≠ t → F (step s t') ∧ left (step s t') ≤ left s) :
    ∀ (sched : List Nat) (s : σ), F s → (∀ pre, pre <+: sched → Q (pre.foldl step s)) →
      F (sched.foldl step s) ∧ left (sched.foldl step s) ≤ left s - sched.count t
  | [], s, hF, _ => by simpa using hF
  | a :: sched, s, hF, hQ => by
    have h0 : Q s := hQ [] (List.nil_prefix)
    have hq : ∀ pre, pre <+: sched → Q (pre.foldl step (step s a)) := fun pre hp => by
      have := hQ (a :: pre) (by simpa using hp)
      simpa using this
    rw [List.foldl_cons]
    by_cases ha : a = t
    · subst ha
      obtain ⟨h1, h2⟩ := hown s h0 hF
      obtain ⟨h3, h4⟩ := left_after step a Q F left hown hother sched (step s a) h1 hq
      rw [List.count_cons_self]
      exact ⟨h3, by omega⟩
    · obtain ⟨h1, h2⟩ := hother s a h0 hF ha
      obtain ⟨h3, h4⟩ := left_after step t Q F left hown hother sched (step s a) h1 hq
      rw [List.count_cons_of_ne ha]
      exact ⟨h3, by omega⟩

/-! ## The flat index -/

namespace FConc
variable {V M D : Type}

/-- The statements an insertion of `n` rows has left. -/
def insLeft (n : Nat) : FAt V M D → Nat
  | .start => 3 * n + 4
  | .row i => 3 * (n - i) + 3
  | .append i => 3 * (n - (i + 1)) + 3 + 2
  | .cache i => 3 * (n - (i + 1)) + 3 + 1
  | .len _ => 2
  | .count _ _ => 1
  | _ => 0

/-- The statements an update has left. -/
def updLeft : FAt V M D → Nat
  | .start => 2
  | .updCache => 1
  | _ => 0

/-- The statements a deletion of `n` ids has left at most. -/
def delLeft (n : Nat) : FAt V M D → Nat
  | .start => 4 * n + 4
  | .del i _ => 4 * (n - i) + 3
  | .delTest i _ => 4 * (n - (i + 1)) + 3 + 3
  | .delRemove i _ => 4 * (n - (i + 1)) + 3 + 2
  | .delPop i _ => 4 * (n - (i + 1)) + 3 + 1
  | .len _ => 2
  | .count _ _ => 1
  | _ => 0

/-- The statements a search has left at most, if the list of ids has never more than `n` entries. -/
def srLeft (n : Nat) : FAt V M D → Nat
  | .start => 4 * n + 4
  | .limit => 4 * n + 3
  | .scan _ i got => 4 * (n - i) + got.length + 2
  | .read _ i got _ => 4 * (n - (i + 1)) + got.length + 5
  | .fetch _ i got _ => 4 * (n - (i + 1)) + got.length + 5
  | .put _ i got _ _ => 4 * (n - (i + 1)) + got.length + 4
  | .info todo _ => todo.length + 1
  | _ => 0

/-- The places of an insertion of `n` rows. -/
def insFits (n : Nat) : FAt V M D → Prop
  | .start | .row _ | .len _ | .count _ _ | .done _ => True
  | .append i | .cache i => i < n
  | _ => False

/-- The places of an update. -/
def updFits : FAt V M D → Prop
  | .start | .updCache | .done _ => True
  | _ => False

/-- The places of a deletion of `n` ids. -/
def delFits (n : Nat) : FAt V M D → Prop
  | .start | .del _ _ | .len _ | .count _ _ | .done _ => True
  | .delTest i _ | .delRemove i _ | .delPop i _ => i < n
  | _ => False

/-- The places of a search. -/
def srFits (n : Nat) : FAt V M D → Prop
  | .start | .limit | .scan _ _ _ | .info _ _ | .done _ => True
  | .read _ i _ _ | .fetch _ i _ _ | .put _ i _ _ _ => i < n
  | _ => False

end FConc

namespace TConc
variable {V M D : Type}

/-- The statements an insertion of `n` rows has left at most. -/
def insLeft (n : Nat) : TAt V M D → Nat
  | .start => 7 * n + 5
  | .ins (.store i) => 3 * (n - i) + 4 * n + 4
  | .ins (.ids i) => 3 * (n - (i + 1)) + 4 * n + 4 + 2
  | .ins (.cache i) => 3 * (n - (i + 1)) + 4 * n + 4 + 1
  | .ins .len => 4 * n + 3
  | .ins (.count _) => 4 * n + 2
  | .ins (.choose j) => 4 * (n - j) + 1
  | .ins (.has j _) => 4 * (n - (j + 1)) + 1 + 3
  | .ins (.new j _) => 4 * (n - (j + 1)) + 1 + 2
  | .ins (.push j _) => 4 * (n - (j + 1)) + 1 + 1
  | _ => 0

/-- The statements an update has left at most, with `c` clusters at most. -/
def updLeft (c : Nat) : TAt V M D → Nat
  | .start => 3 * c + 8
  | .upd .cache => 3 * c + 7
  | .upd .iter => 3 * c + 6
  | .upd (.loop _ p) => 3 * (c - p) + 5
  | .upd (.test _ p _) => 3 * (c - (p + 1)) + 5 + 2
  | .upd (.remL _) => 5
  | .upd .choose => 4
  | .upd (.has _) => 3
  | .upd (.new _) => 2
  | .upd (.push _) => 1
  | _ => 0

/-- The statements a deletion of `n` ids has left at most, with `c` clusters at most. -/
def delLeft (n c : Nat) : TAt V M D → Nat
  | .start => (3 * c + 6) * n + 4
  | .del i _ p =>
    match p with
    | .stor => (3 * c + 6) * (n - i) + 3
    | .has => (3 * c + 6) * (n - (i + 1)) + 3 + 3 * c + 5
    | .rem => (3 * c + 6) * (n - (i + 1)) + 3 + 3 * c + 4
    | .pop => (3 * c + 6) * (n - (i + 1)) + 3 + 3 * c + 3
    | .iter => (3 * c + 6) * (n - (i + 1)) + 3 + 3 * c + 2
    | .loop _ p => (3 * c + 6) * (n - (i + 1)) + 3 + 3 * (c - p) + 1
    | .test _ p _ => (3 * c + 6) * (n - (i + 1)) + 3 + 3 * (c - (p + 1)) + 3
    | .remL _ p _ => (3 * c + 6) * (n - (i + 1)) + 3 + 3 * (c - (p + 1)) + 2
  | .delLen _ => 2
  | .delCount _ _ => 1
  | _ => 0

/-- The statements a search has left at most, with `c` centroids and lists of at most `n` ids. -/
def srLeft (n c : Nat) : TAt V M D → Nat
  | .start => (4 * n + 3) * c + 4
  | .srch p =>
    match p with
    | .cents => (4 * n + 3) * c + 3
    | .probe todo got => (4 * n + 3) * todo.length + got.length + 2
    | .take _ todo got => (4 * n + 3) * todo.length + got.length + 2 + 4 * n + 2
    | .walk _ todo i got => (4 * n + 3) * todo.length + got.length + 2 + 4 * (n - i) + 1
    | .vec _ todo i got _ => (4 * n + 3) * todo.length + got.length + 2 + 4 * (n - (i + 1)) + 4
    | .fetch _ todo i got _ => (4 * n + 3) * todo.length + got.length + 2 + 4 * (n - (i + 1)) + 4
    | .put _ todo i got _ _ => (4 * n + 3) * todo.length + got.length + 2 + 4 * (n - (i + 1)) + 3
    | .info todo _ => todo.length + 1
  | _ => 0

/-- The places of an insertion of `n` rows. -/
def insFits (n : Nat) : TAt V M D → Prop
  | .start | .done _ | .ins (.store _) | .ins .len | .ins (.count _) | .ins (.choose _) => True
  | .ins (.ids i) | .ins (.cache i) | .ins (.has i _) | .ins (.new i _) | .ins (.push i _) => i < n
  | _ => False

/-- The places of an update. -/
def updFits (c : Nat) : TAt V M D → Prop
  | .upd (.test _ p _) => p < c
  | .start | .upd _ | .done _ => True
  | _ => False

/-- The places of a deletion of `n` ids. -/
def delFits (n c : Nat) : TAt V M D → Prop
  | .start | .delLen _ | .delCount _ _ | .done _ => True
  | .del i _ p =>
    match p with
    | .stor => True
    | .test _ p _ | .remL _ p _ => i < n ∧ p < c
    | _ => i < n
  | _ => False

/-- The places of a search. -/
def srFits (n : Nat) : TAt V M D → Prop
  | .start | .done _ => True
  | .srch p =>
    match p with
    | .vec _ _ i _ _ | .fetch _ _ i _ _ | .put _ _ i _ _ _ => i < n
    | _ => True
  | _ => False

end TConc
end Valori
