import Verif.Lemmas.Fair
import Verif.Lemmas.ThreadEnds
import Verif.Props.AnnoyConc

/-!
# C238, C242: calls on an Annoy index come to their ends
-/

namespace Valori.AConc
variable {L V F M : Type}

/-- The place is one of the call. -/
def FitsA : AOp V M → AAt F M → Prop
  | _, .start | _, .done _ => True
  | .insert rows, .ins i _ _ => i < rows.length
  | .delete _, .del todo _ => todo ≠ []
  | .search _ _, .srch (.test todo _) => todo ≠ []
  | .search _ _, .srch _ => True
  | _, _ => False

/-- The statements a call has left at most, if the library never names more than `m` neighbours. -/
def leftA (m : Nat) : AOp V M → AAt F M → Nat
  | _, .done _ => 0
  | .insert rows, .start => 6 * rows.length + 1
  | .insert rows, .ins i _ p =>
    6 * (rows.length - i) - (match p with
      | .read => 0
      | .load _ => 1
      | .put _ _ => 2
      | .vec _ => 3
      | .md _ => 4
      | .add _ => 5)
  | .delete ids, .start => 3 * ids.length + 1
  | .delete _, .del todo p =>
    3 * todo.length - (match p with
      | .test => 0
      | .vec => 1
      | .md => 2)
  | .search _ _, .start => 2 * m + 2
  | .search _ _, .srch p =>
    match p with
    | .nns _ => 2 * m + 1
    | .test todo _ => 2 * todo.length
    | .md _ _ todo _ => 2 * todo.length + 1
  | _, _ => 0

/-- A call that has nothing left is over. -/
theorem over_of_left {m : Nat} {op : AOp V M} {p : AAt F M} (hf : FitsA op p) (h : leftA m op p = 0) :
    ∃ r, p = .done r := by
  cases p with
  | done r => exact ⟨r, rfl⟩
  | start => cases op <;> simp [leftA] at h
  | ins i ids p =>
    cases op with
    | insert rows =>
      have : i < rows.length := hf
      cases p <;> simp only [leftA] at h <;> omega
    | _ => exact hf.elim
  | del todo p =>
    cases op with
    | delete ids =>
      have : 0 < todo.length := List.length_pos_iff.2 hf
      cases p <;> simp only [leftA] at h <;> omega
    | _ => exact hf.elim
  | srch p =>
    cases op with
    | search q k =>
      cases p with
      | test todo acc =>
        have : 0 < todo.length := List.length_pos_iff.2 hf
        simp only [leftA] at h; omega
      | _ => simp [leftA] at h
    | _ => cases p <;> exact hf.elim

/-- Whether the answer of the library is still to come. -/
def headA : AAt F M → Nat
  | .start => 2
  | .srch (.nns _) => 1
  | _ => 0

/-- A statement takes a call from `p` to `p'` and so nearer to its end. -/
def OnA (m : Nat) (op : AOp V M) (p p' : AAt F M) : Prop :=
  FitsA op p' ∧ leftA m op p' ≤ leftA m op p - 1 ∧ headA p' ≤ headA p

theorem on_done (m : Nat) (op : AOp V M) (p : AAt F M) (r : ARes F M) : OnA m op p (.done r) := by
  cases op <;> exact ⟨trivial, Nat.zero_le _, Nat.zero_le _⟩

theorem on_row {m : Nat} {rows : List (V × M)} {i : Nat} {ids : List Nat} {p : AAt F M}
    (h : 6 * (rows.length - i) ≤ leftA m (.insert rows) p - 1) : OnA m (.insert rows) p (nextRow rows i ids) := by
  unfold nextRow
  split
  · next hi => exact ⟨hi, h, Nat.zero_le _⟩
  · exact on_done _ _ _ _

theorem on_next {m : Nat} {l todo : List Nat} {p : AAt F M}
    (h : 3 * todo.length ≤ leftA (V := V) m (.delete l) p - 1) : OnA (V := V) m (.delete l) p (nextDel todo) := by
  cases todo with
  | nil => exact on_done _ _ _ _
  | cons id todo => exact ⟨by simp [FitsA, nextDel], h, Nat.zero_le _⟩

theorem on_hit {m : Nat} {q : V} {k : Int} {acc : List (Spec.AnHit F M)} {todo : List (Nat × F)} {p : AAt F M}
    (h : 2 * todo.length ≤ leftA m (.search q k) p - 1) : OnA m (.search q k) p (nextHit acc todo) := by
  cases todo with
  | nil => exact on_done _ _ _ _
  | cons id todo => exact ⟨by simp [FitsA, nextHit], h, Nat.zero_le _⟩

theorem on_ins (env : AConcEnv L V F) (m : Nat) (rows : List (V × M)) (s : AConc L V F M) (i : Nat) (ids : List Nat)
    (p : AIns) (hi : i < rows.length) : OnA m (.insert rows) (.ins i ids p) (stepIns env rows s i ids p).1 := by
  have hr : rows[i]? = some rows[i] := List.getElem?_eq_getElem hi
  cases p with
  | read => exact ⟨hi, by simp only [stepIns, leftA]; omega, Nat.zero_le _⟩
  | load id => exact ⟨hi, by simp only [stepIns, leftA]; omega, Nat.zero_le _⟩
  | put id n => exact ⟨hi, by simp only [stepIns, leftA]; omega, Nat.zero_le _⟩
  | vec id =>
    simp only [stepIns, hr]
    exact ⟨hi, by simp only [leftA]; omega, Nat.zero_le _⟩
  | md id =>
    simp only [stepIns, hr]
    exact ⟨hi, by simp only [leftA]; omega, Nat.zero_le _⟩
  | add id =>
    simp only [stepIns, hr]
    cases env.addItem s.lib id rows[i].1 with
    | none => exact on_done _ _ _ _
    | some l => exact on_row (by simp only [leftA]; omega)

theorem on_del (m : Nat) (s : AConc L V F M) (l todo : List Nat) (p : ADel) (hn : todo ≠ []) :
    OnA (V := V) m (.delete l) (.del todo p) (stepDel s todo p).1 := by
  cases todo with
  | nil => exact absurd rfl hn
  | cons id todo =>
    cases p with
    | test =>
      simp only [stepDel]
      split
      · exact ⟨hn, by simp only [leftA, List.length_cons]; omega, Nat.zero_le _⟩
      · exact on_next (by simp only [leftA, List.length_cons]; omega)
    | vec =>
      simp only [stepDel]
      split
      · exact ⟨hn, by simp only [leftA, List.length_cons]; omega, Nat.zero_le _⟩
      · exact on_done _ _ _ _
    | md =>
      simp only [stepDel]
      split
      · exact on_next (by simp only [leftA, List.length_cons]; omega)
      · exact on_done _ _ _ _

theorem on_srch (env : AConcEnv L V F) {m : Nat} {q : V} {k : Int} (s : AConc L V F M) (p : ASr F M)
    (hm : ∀ sk ns, p = .nns sk → env.nns s.lib q k sk = some ns → ns.length ≤ m)
    (hf : FitsA (V := V) (.search q k) (.srch p)) :
    OnA m (.search q k) (.srch p) (stepSrch env q k s p) := by
  cases p with
  | nns sk =>
    simp only [stepSrch]
    cases h : env.nns s.lib q k sk with
    | none => exact on_done _ _ _ _
    | some ns =>
      have := hm sk ns rfl h
      exact on_hit (by simp only [leftA]; omega)
  | test todo acc =>
    rcases todo with _ | ⟨⟨n, d⟩, rest⟩
    · exact absurd rfl hf
    · simp only [stepSrch]
      split
      · exact ⟨trivial, by simp only [leftA, List.length_cons]; omega, Nat.zero_le _⟩
      · exact on_hit (by simp only [leftA, List.length_cons]; omega)
  | md n d rest acc =>
    simp only [stepSrch]
    split
    · exact on_done _ _ _ _
    · exact on_hit (by simp only [leftA]; omega)

theorem on_step (env : AConcEnv L V F) (ops : Nat → AOp V M) {m : Nat} (s : AConc L V F M) (t : Nat)
    (hm : ∀ q k sk ns, ops t = .search q k → s.thr t = .srch (.nns sk) → env.nns s.lib q k sk = some ns → ns.length ≤ m)
    (hf : FitsA (ops t) (s.thr t)) : OnA m (ops t) (s.thr t) ((s.step env ops t).thr t) := by
  cases hp : s.thr t with
  | done r =>
    have : (s.step env ops t).thr t = .done r := by unfold step; cases ops t <;> simp only [hp]
    rw [this]
    exact on_done _ _ _ _
  | start =>
    unfold step
    cases ho : ops t with
    | insert rows => simp only [hp, Function.update_self]; exact on_row (by simp only [leftA]; omega)
    | delete ids => simp only [hp, Function.update_self]; exact on_next (by simp only [leftA]; omega)
    | search q k => simp only [hp, Function.update_self]; exact ⟨trivial, by simp only [leftA]; omega, by simp [headA]⟩
  | ins i ids p =>
    rw [hp] at hf
    unfold step
    cases ho : ops t with
    | insert rows => rw [ho] at hf; simp only [hp, Function.update_self]; exact on_ins env m rows s i ids p hf
    | _ => rw [ho] at hf; exact hf.elim
  | del todo p =>
    rw [hp] at hf
    unfold step
    cases ho : ops t with
    | delete ids => rw [ho] at hf; simp only [hp, Function.update_self]; exact on_del m s ids todo p hf
    | _ => rw [ho] at hf; exact hf.elim
  | srch p =>
    rw [hp] at hf
    unfold step
    cases ho : ops t with
    | search q k =>
      rw [ho] at hf; simp only [hp, Function.update_self]
      exact on_srch env s p (fun sk ns h1 h2 => hm q k sk ns ho (by rw [hp, h1]) h2) hf
    | _ => rw [ho] at hf; cases p <;> exact hf.elim

theorem stay_others (env : AConcEnv L V F) (ops : Nat → AOp V M) (s : AConc L V F M) {t u : Nat} (h : u ≠ t) :
    (s.step env ops u).thr t = s.thr t := by
  unfold step
  split <;> simp [Function.update_of_ne (Ne.symm h)]

end Valori.AConc

namespace Valori.Props
open Valori Valori.AConc
open Valori.Spec (AnHit firstOf Turns)
variable {L V F M : Type}

/-- Thread `t` of an Annoy index has come to its end. -/
def EndedA (s : AConc L V F M) (t : Nat) : Prop := ∃ r, s.thr t = .done r

/-- The number of statements a call on an Annoy index has at most, if the library names `m` neighbours. -/
def annoySteps (m : Nat) : AOp V M → Nat
  | .insert rows => 6 * rows.length + 1
  | .delete ids => 3 * ids.length + 1
  | .search _ _ => 2 * m + 2

/-- **C238**, Annoy: whatever state the index is in and whatever the other threads do, an insertion or deletion is over
after so many of its own statements, and so is a search for which the library never names more than `m` neighbours. -/
theorem C238_annoy (env : AConcEnv L V F) (ops : Nat → AOp V M) (s : AConc L V F M) (t : Nat) (hs : s.thr t = .start)
    (m : Nat) (hm : ∀ q k, ops t = .search q k → ∀ l sk ns, env.nns l q k sk = some ns → ns.length ≤ m)
    (sched : List Nat) (hc : annoySteps m (ops t) ≤ sched.count t) : EndedA (s.run env ops sched) t := by
  obtain ⟨h1, h2⟩ := left_after (AConc.step env ops) t (fun _ => True) (fun s => FitsA (ops t) (s.thr t))
    (fun s => leftA m (ops t) (s.thr t))
    (fun s _ hf =>
      have h := on_step env ops s t (fun q k sk ns ho _ h => hm q k ho _ _ _ h) hf
      ⟨h.1, h.2.1⟩)
    (fun s t' _ hf h => by rw [stay_others env ops s h]; exact ⟨hf, le_rfl⟩) sched s
    (by rw [hs]; cases ops t <;> trivial) (fun _ _ => trivial)
  refine over_of_left h1 (m := m) ?_
  change leftA m (ops t) ((s.run env ops sched).thr t) ≤ _ at h2
  have : leftA m (ops t) (s.thr t) ≤ annoySteps m (ops t) := by
    rw [hs]; cases ops t <;> exact le_rfl
  omega

/-- **C242**, Annoy: whatever other threads do, and however often, every call that gets its turn again and again comes to
its end; so does a search, as it walks through the answer of the library and not through the index. -/
theorem C242_annoy (env : AConcEnv L V F) (ops : Nat → AOp V M) (s : AConc L V F M) (t : Nat) (hs : s.thr t = .start)
    (f : Nat → Nat) (hf : Turns f t) : ∃ n, EndedA (s.run env ops (firstOf f n)) t := by
  refine fair_ends (AConc.step env ops) t (fun s => s.thr t)
    (fun p => toLex (headA p, leftA 0 (ops t) p)) (FitsA (ops t))
    (fun p => ∃ r, p = .done r) (fun s h1 h2 => ?_) (fun s u hu => stay_others env ops s hu) s
    (by simp only [hs]; cases ops t <;> trivial) f hf
  by_cases he : ∃ r, (s.step env ops t).thr t = .done r
  · exact .inl he
  refine .inr ?_
  have hz : leftA 0 (ops t) (s.thr t) ≠ 0 := fun h => h2 (over_of_left h1 h)
  by_cases hq : ∃ q k sk, ops t = .search q k ∧ s.thr t = .srch (.nns sk)
  · obtain ⟨q, k, sk, ho, hp⟩ := hq
    rw [ho, hp]
    unfold AConc.step at he ⊢
    simp only [ho, hp, Function.update_self, stepSrch] at he ⊢
    cases hn : env.nns s.lib q k sk with
    | none => rw [hn] at he; exact (he ⟨_, rfl⟩).elim
    | some ns =>
      cases ns with
      | nil => rw [hn] at he; exact (he ⟨_, rfl⟩).elim
      | cons x ns => exact ⟨by simp [nextHit, FitsA], by simp [Prod.Lex.toLex_lt_toLex, nextHit, headA]⟩
  · obtain ⟨g1, g2, g3⟩ := on_step env ops (m := 0) s t (fun q k sk ns ho hp _ => absurd ⟨q, k, sk, ho, hp⟩ hq) h1
    refine ⟨g1, ?_⟩
    rw [Prod.Lex.toLex_lt_toLex]
    simp only []
    omega

/-! ## Cases -/

/-- A search of the case beside insertion and deletion: the library names at most five neighbours, and after twelve
statements of its own the search is over. -/
example (sched : List Nat) (h : 12 ≤ sched.count 2) : EndedA (anTwo.run anv anOps sched) 2 :=
  C238_annoy anv anOps anTwo 2 rfl 5 (fun q k ho l sk ns hn => by
    cases ho
    cases hn
    simp) sched h

/-- The insertion of two rows is over after thirteen statements of its own. -/
example (sched : List Nat) (h : 13 ≤ sched.count 0) : EndedA (anTwo.run anv anOps sched) 0 :=
  C238_annoy anv anOps anTwo 0 rfl 0 (fun q k ho => by cases ho) sched h

/-- And no earlier. -/
example : ¬ EndedA (anTwo.run anv anOps (List.replicate 12 0)) 0 := by
  rintro ⟨r, h⟩
  cases h

example : ∃ n, EndedA (anTwo.run anv anOps (firstOf (fun i => i % 3) n)) 2 :=
  C242_annoy _ _ _ 2 rfl _ fun n => ⟨3 * n + 2, by omega, by show (3 * n + 2) % 3 = 2; omega⟩

end Valori.Props
