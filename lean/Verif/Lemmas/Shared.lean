import Verif.Model.HybThreads
import Verif.Lemmas.Threads

/-!
# Methods with a lock next to methods that only look

A locked method takes effect at one of its steps; a method without a lock takes effect at its only step.
-/

namespace Valori

open Spec

variable {σ C R : Type}

/-- What makes the methods of a shared object behave like single calls.  `Near y m` says that `y`, the
state threads see, differs from `m`, the state after the calls so far, in nothing that a method without
lock can notice. -/
structure SharedOk (O : SharedObj σ C R) (call : σ → C → R × σ) (P : σ → Prop) (ok adm : C → Prop)
    (Near : σ → σ → Prop) (commit : C → Nat) : Prop where
  refl : ∀ m, P m → Near m m
  keep : ∀ m c, P m → ok c → P (call m c).2
  answer : ∀ y m c r, P m → Near y m → ok c → O.check y c = some r → call m c = (r, m)
  pass : ∀ y c, ok c → O.check y c = none → adm c
  okay : ∀ c, adm c → ok c
  body : ∀ m c, P m → ok c → adm c → O.locked c = true →
    (O.body c).foldl (fun p f => f p) (m, O.zero) = ((call m c).2, (call m c).1)
  len : ∀ c, ok c → O.locked c = true → commit c < (O.body c).length
  before : ∀ m c k, P m → ok c → adm c → O.locked c = true → k ≤ commit c →
    Near (((O.body c).take k).foldl (fun p f => f p) (m, O.zero)).1 m
  after : ∀ m c k, P m → ok c → adm c → O.locked c = true → commit c < k →
    Near (((O.body c).take k).foldl (fun p f => f p) (m, O.zero)).1 (call m c).2
  look : ∀ c, ok c → adm c → O.locked c = false → ∃ f, O.body c = [f] ∧
    ∀ y m, P m → Near y m → f (y, O.zero) = (y, (call m c).1) ∧ (call m c).2 = m

/-- The calls left when the call a thread is in counts as made. -/
def leftOver (ans : Nat → Option R) (s : Sys σ C R) (t : Nat) : List C :=
  if (ans t).isSome then (s.thr t).todo.tail else (s.thr t).todo

/-- The replies when the call a thread is in counts as made. -/
def gotSoFar (ans : Nat → Option R) (s : Sys σ C R) (t : Nat) : List R :=
  (s.thr t).got ++ (ans t).toList

/-- Where a thread is: `ans t` is its reply if its present call has taken effect already. -/
def AtPc (O : SharedObj σ C R) (call : σ → C → R × σ) (adm : C → Prop) (commit : C → Nat)
    (s : Sys σ C R) (pre : σ) (ans : Option R) (t : Nat) : Prop :=
  match (s.thr t).pc with
  | .out => ans = none
  | .wait => ans = none ∧ ∀ c rest, (s.thr t).todo = c :: rest → adm c ∧ O.locked c = true
  | .inside k reg => ∃ c rest, (s.thr t).todo = c :: rest ∧ adm c ∧
      (O.locked c = true → s.lock = some t ∧
        (s.obj, reg) = ((O.body c).take k).foldl (fun p f => f p) (pre, O.zero) ∧
        ans = if commit c < k then some (call pre c).1 else none) ∧
      (O.locked c = false → (k = 0 ∧ reg = O.zero ∧ ans = none) ∨ (k = 1 ∧ ans = some reg))

/-- The state after the calls so far, seen from the lock. -/
def AtLock (O : SharedObj σ C R) (call : σ → C → R × σ) (commit : C → Nat) (s : Sys σ C R)
    (pre m : σ) : Prop :=
  match s.lock with
  | none => s.obj = m
  | some t => ∃ c rest k reg, (s.thr t).todo = c :: rest ∧ (s.thr t).pc = .inside k reg ∧
      O.locked c = true ∧ m = if commit c < k then (call pre c).2 else pre

/-- The invariant. -/
structure SharedInv (O : SharedObj σ C R) (call : σ → C → R × σ) (P : σ → Prop) (adm : C → Prop)
    (Near : σ → σ → Prop) (commit : C → Nat) (x : σ) (progs : Nat → List C) (s : Sys σ C R)
    (pre m : σ) (ans : Nat → Option R) (log : List (Nat × C × R)) : Prop where
  expl : Explains call x m progs (leftOver ans s) (gotSoFar ans s) log
  pm : P m
  ppre : P pre
  near : Near s.obj m
  lock : AtLock O call commit s pre m
  pcs : ∀ t, AtPc O call adm commit s pre (ans t) t

variable {O : SharedObj σ C R} {call : σ → C → R × σ} {P : σ → Prop} {ok adm : C → Prop}
  {Near : σ → σ → Prop} {commit : C → Nat}

/-- One more call is made. -/
theorem explains_snoc {x m m' : σ} {progs todo todo' : Nat → List C} {got got' : Nat → List R}
    {log : List (Nat × C × R)} {t : Nat} {c : C} {r : R} (h : Explains call x m progs todo got log)
    (hr : call m c = (r, m')) (h1 : todo t = c :: todo' t) (h2 : got' t = got t ++ [r])
    (h3 : ∀ t', t' ≠ t → todo' t' = todo t' ∧ got' t' = got t') :
    Explains call x m' progs todo' got' (log ++ [(t, c, r)]) := by
  refine ⟨?_, fun t' => ?_, fun t' => ?_⟩
  · simp only [List.map_append, List.map_cons, List.map_nil]
    rw [oneByOne_snoc, h.replies]
    simp [hr]
  · by_cases ht : t = t'
    · subst ht
      simp only [ofThread_snoc_self, List.map_append, List.map_cons, List.map_nil, List.append_assoc,
        List.singleton_append]
      rw [← h.order t, h1]
    · rw [ofThread_snoc_ne ht, (h3 t' (Ne.symm ht)).1]
      exact h.order t'
  · by_cases ht : t = t'
    · subst ht
      simp only [ofThread_snoc_self, List.map_append, List.map_cons, List.map_nil]
      rw [h.seen t, h2]
    · rw [ofThread_snoc_ne ht, (h3 t' (Ne.symm ht)).2]
      exact h.seen t'

theorem explains_congr {x m : σ} {progs todo todo' : Nat → List C} {got got' : Nat → List R}
    {log : List (Nat × C × R)} (h : Explains call x m progs todo got log)
    (h1 : ∀ t, todo' t = todo t) (h2 : ∀ t, got' t = got t) :
    Explains call x m progs todo' got' log :=
  ⟨h.replies, fun t => by rw [h1]; exact h.order t, fun t => by rw [h2]; exact h.seen t⟩

/-- Another thread does not notice. -/
theorem atPc_other {s s' : Sys σ C R} {pre pre' : σ} {a : Option R} {t' : Nat}
    (h : AtPc O call adm commit s pre a t') (hthr : s'.thr t' = s.thr t')
    (hobj : s.lock = some t' → s'.lock = s.lock ∧ s'.obj = s.obj ∧ pre' = pre) :
    AtPc O call adm commit s' pre' a t' := by
  unfold AtPc at h ⊢
  rw [hthr]
  split at h
  · exact h
  · exact h
  · obtain ⟨c, rest, h1, h2, h3, h4⟩ := h
    refine ⟨c, rest, h1, h2, fun hl => ?_, h4⟩
    obtain ⟨h5, h6, h7⟩ := h3 hl
    obtain ⟨h8, h9, rfl⟩ := hobj h5
    exact ⟨h8.trans h5, by rw [h9]; exact h6, h7⟩

/-- A holder of the lock that does not move. -/
theorem atLock_other {s s' : Sys σ C R} {pre m : σ} {t : Nat} (h : AtLock O call commit s pre m)
    (hne : s.lock ≠ some t) (hthr : ∀ t', t' ≠ t → s'.thr t' = s.thr t') (hlk : s'.lock = s.lock)
    (hobj : s'.obj = s.obj) : AtLock O call commit s' pre m := by
  unfold AtLock at h ⊢
  rw [hlk, hobj]
  split at h
  · exact h
  · rename_i o ho
    have : o ≠ t := by rintro rfl; exact hne ho
    rw [hthr o this]
    exact h

theorem leftOver_update_pc (ans : Nat → Option R) (s : Sys σ C R) (t t' : Nat) (pc : Pc R) (l : Option Nat)
    (o : σ) (lg : List (Nat × C × R)) :
    leftOver ans ⟨o, l, Function.update s.thr t { s.thr t with pc := pc }, lg⟩ t' = leftOver ans s t' ∧
    gotSoFar ans ⟨o, l, Function.update s.thr t { s.thr t with pc := pc }, lg⟩ t' = gotSoFar ans s t' := by
  simp only [leftOver, gotSoFar, (update_pc s.thr t t' pc).1, (update_pc s.thr t t' pc).2.1, and_self]

theorem shared_step (hO : SharedOk O call P ok adm Near commit) {x m pre : σ} {progs : Nat → List C}
    {ans : Nat → Option R} {log : List (Nat × C × R)} (hp : ∀ t, ∀ c ∈ progs t, ok c) {s : Sys σ C R}
    (h : SharedInv O call P adm Near commit x progs s pre m ans log) (t : Nat) :
    ∃ pre' m' ans' log', SharedInv O call P adm Near commit x progs (s.move O t) pre' m' ans' log' := by
  rcases htodo : (s.thr t).todo with _ | ⟨c, rest⟩
  · refine ⟨pre, m, ans, log, ?_⟩
    unfold Sys.move
    rw [htodo]
    exact h
  have hpct := h.pcs t
  unfold AtPc at hpct
  unfold Sys.move
  rw [htodo]
  simp only
  rcases hpc : (s.thr t).pc with _ | _ | ⟨k, reg⟩
  · -- before the call
    rw [hpc] at hpct
    simp only at hpct ⊢
    have hc : ok c := hp t c (by rw [← h.expl.order t]; simp [leftOver, hpct, htodo])
    have hnl : s.lock ≠ some t := by
      intro hl
      have := h.lock
      unfold AtLock at this
      rw [hl] at this
      obtain ⟨_, _, k, reg, -, h2, -⟩ := this
      rw [hpc] at h2
      simp at h2
    rcases hck : O.check s.obj c with _ | r
    · simp only
      refine ⟨pre, m, ans, log, explains_congr h.expl (fun t' => (leftOver_update_pc ans s t t' _ _ _ _).1)
        (fun t' => (leftOver_update_pc ans s t t' _ _ _ _).2), h.pm, h.ppre, h.near,
        atLock_other h.lock hnl (fun t' hne => Function.update_of_ne hne _ _) rfl rfl, fun t' => ?_⟩
      by_cases hne : t' = t
      · subst hne
        unfold AtPc
        simp only [Function.update_self]
        have hadm := hO.pass _ _ hc hck
        rcases hl : O.locked c with _ | _
        · simp only [Bool.false_eq_true, if_false]
          exact ⟨c, rest, htodo, hadm, fun h' => by rw [hl] at h'; simp at h', fun _ => .inl (by simp [hpct])⟩
        · simp only [if_true]
          refine ⟨hpct, fun c' rest' h' => ?_⟩
          rw [htodo] at h'
          obtain ⟨rfl, -⟩ := List.cons.inj h'
          exact ⟨hadm, hl⟩
      · exact atPc_other (h.pcs t') (Function.update_of_ne hne _ _) (fun _ => ⟨rfl, rfl, rfl⟩)
    · simp only
      refine ⟨pre, m, ans, log ++ [(t, c, r)], explains_snoc h.expl
        (hO.answer _ _ _ _ h.pm h.near hc hck) ?_ ?_ ?_, h.pm, h.ppre, h.near,
        atLock_other h.lock hnl (fun t' hne => Function.update_of_ne hne _ _) rfl rfl, fun t' => ?_⟩
      · simp [leftOver, hpct, htodo, Sys.finish]
      · simp [gotSoFar, hpct, Sys.finish]
      · intro t' hne
        simp [leftOver, gotSoFar, Sys.finish, Function.update_of_ne hne]
      · by_cases hne : t' = t
        · subst hne
          unfold AtPc
          simp only [Sys.finish, Function.update_self]
          exact hpct
        · exact atPc_other (h.pcs t') (Function.update_of_ne hne _ _) (fun _ => ⟨rfl, rfl, rfl⟩)
  · -- taking the lock
    rw [hpc] at hpct
    simp only at hpct ⊢
    obtain ⟨hans, hw⟩ := hpct
    obtain ⟨hadm, hlk⟩ := hw c rest htodo
    rcases hl : s.lock with _ | o
    · simp only
      have hobj : s.obj = m := by
        have := h.lock
        unfold AtLock at this
        rw [hl] at this
        exact this
      refine ⟨m, m, ans, log, explains_congr h.expl (fun t' => (leftOver_update_pc ans s t t' _ _ _ _).1)
        (fun t' => (leftOver_update_pc ans s t t' _ _ _ _).2), h.pm, h.pm, h.near, ?_, fun t' => ?_⟩
      · unfold AtLock
        simp only
        exact ⟨c, rest, 0, O.zero, by simp [htodo], by simp, hlk, by simp⟩
      · by_cases hne : t' = t
        · subst hne
          unfold AtPc
          simp only [Function.update_self]
          refine ⟨c, rest, htodo, hadm, fun _ => by simp [hobj, hans], fun h' => ?_⟩
          rw [hlk] at h'
          simp at h'
        · exact atPc_other (h.pcs t') (Function.update_of_ne hne _ _)
            (fun h' => by rw [hl] at h'; simp at h')
    · exact ⟨pre, m, ans, log, by simpa only using h⟩
  · -- inside
    rw [hpc] at hpct
    simp only at hpct ⊢
    obtain ⟨c', rest', h1, hadm, hlocked, hfree⟩ := hpct
    rw [htodo] at h1
    obtain ⟨rfl, rfl⟩ := List.cons.inj h1
    have hc : ok c := hO.okay c hadm
    rcases hl : O.locked c with _ | _
    · -- without the lock
      simp only [Bool.false_eq_true, if_false]
      have hnl : s.lock ≠ some t := by
        intro hl'
        have := h.lock
        unfold AtLock at this
        rw [hl'] at this
        obtain ⟨c', _, k, reg, h1, -, h3, -⟩ := this
        rw [htodo] at h1
        obtain ⟨rfl, -⟩ := List.cons.inj h1
        rw [hl] at h3
        simp at h3
      obtain ⟨f, hbody, hf⟩ := hO.look c hc hadm hl
      rw [hbody]
      rcases hfree hl with ⟨rfl, rfl, hans⟩ | ⟨rfl, hans⟩
      · obtain ⟨hf1, hf2⟩ := hf s.obj m h.pm h.near
        simp only [List.getElem?_cons_zero, hf1]
        refine ⟨pre, m, Function.update ans t (some (call m c).1), log ++ [(t, c, (call m c).1)],
          explains_snoc h.expl (Prod.ext rfl hf2) ?_ ?_ ?_, h.pm, h.ppre, h.near,
          atLock_other h.lock hnl (fun t' hne => Function.update_of_ne hne _ _) rfl rfl, fun t' => ?_⟩
        · simp [leftOver, hans, htodo]
        · simp [gotSoFar, hans]
        · intro t' hne
          simp [leftOver, gotSoFar, Function.update_of_ne hne]
        · by_cases hne : t' = t
          · subst hne
            unfold AtPc
            simp only [Function.update_self]
            exact ⟨c, rest, htodo, hadm, fun h' => by rw [hl] at h'; simp at h', fun _ => .inr (by simp)⟩
          · rw [Function.update_of_ne hne]
            exact atPc_other (h.pcs t') (Function.update_of_ne hne _ _) (fun _ => ⟨rfl, rfl, rfl⟩)
      · simp only [List.getElem?_cons_succ, List.getElem?_nil]
        refine ⟨pre, m, Function.update ans t none, log, explains_congr h.expl (fun t' => ?_) (fun t' => ?_),
          h.pm, h.ppre, h.near,
          atLock_other h.lock hnl (fun t' hne => Function.update_of_ne hne _ _) rfl rfl, fun t' => ?_⟩
        · by_cases hne : t' = t
          · subst hne
            simp [leftOver, Sys.finish, hans, htodo]
          · simp [leftOver, Sys.finish, Function.update_of_ne hne]
        · by_cases hne : t' = t
          · subst hne
            simp [gotSoFar, Sys.finish, hans]
          · simp [gotSoFar, Sys.finish, Function.update_of_ne hne]
        · by_cases hne : t' = t
          · subst hne
            unfold AtPc
            simp [Sys.finish]
          · rw [Function.update_of_ne hne]
            exact atPc_other (h.pcs t') (Function.update_of_ne hne _ _) (fun _ => ⟨rfl, rfl, rfl⟩)
    · -- with the lock
      obtain ⟨hlk, hreg, hans⟩ := hlocked hl
      have hm : m = if commit c < k then (call pre c).2 else pre := by
        have := h.lock
        unfold AtLock at this
        rw [hlk] at this
        obtain ⟨c', _, k', reg', h1, h2, -, h3⟩ := this
        rw [htodo] at h1
        obtain ⟨rfl, -⟩ := List.cons.inj h1
        rw [hpc] at h2
        obtain ⟨rfl, -⟩ := Pc.inside.inj h2
        exact h3
      have hothers : ∀ t', t' ≠ t → s.lock = some t' → False := by
        intro t' hne h'
        rw [hlk] at h'
        exact hne (Option.some.inj h').symm
      rcases hf : (O.body c)[k]? with _ | f
      · simp only [if_true]
        have hlen : (O.body c).length ≤ k := List.getElem?_eq_none_iff.1 hf
        have hck : commit c < k := lt_of_lt_of_le (hO.len c hc hl) hlen
        rw [if_pos hck] at hans hm
        rw [List.take_of_length_le hlen, hO.body pre c h.ppre hc hadm hl] at hreg
        obtain ⟨h5, h6⟩ := Prod.mk.inj hreg
        refine ⟨pre, m, Function.update ans t none, log, explains_congr h.expl (fun t' => ?_) (fun t' => ?_),
            h.pm, h.ppre, h.near, ?_, fun t' => ?_⟩
        · by_cases hne : t' = t
          · subst hne
            simp [leftOver, Sys.finish, hans, htodo]
          · simp [leftOver, Sys.finish, Function.update_of_ne hne]
        · by_cases hne : t' = t
          · subst hne
            simp [gotSoFar, Sys.finish, hans, h6]
          · simp [gotSoFar, Sys.finish, Function.update_of_ne hne]
        · unfold AtLock
          simp only [Sys.finish]
          exact h5.trans hm.symm
        · by_cases hne : t' = t
          · subst hne
            unfold AtPc
            simp [Sys.finish]
          · rw [Function.update_of_ne hne]
            exact atPc_other (h.pcs t') (Function.update_of_ne hne _ _) (fun h' => (hothers t' hne h').elim)
      · simp only
        have hnext : f (s.obj, reg) = ((O.body c).take (k + 1)).foldl (fun p f => f p) (pre, O.zero) := by
          rw [List.take_succ, hf]
          simp [← hreg]
        have hobj' : (f (s.obj, reg)).1 = (((O.body c).take (k + 1)).foldl (fun p f => f p) (pre, O.zero)).1 := by
          rw [hnext]
        by_cases hck : commit c = k
        · -- the call takes effect
          have hno : ¬ commit c < k := by omega
          have hyes : commit c < k + 1 := by omega
          rw [if_neg hno] at hans hm
          subst hm
          refine ⟨m, (call m c).2, Function.update ans t (some (call m c).1),
            log ++ [(t, c, (call m c).1)], explains_snoc h.expl rfl ?_ ?_ ?_,
            hO.keep _ _ h.pm hc, h.ppre, ?_, ?_, fun t' => ?_⟩
          · simp [leftOver, hans, htodo]
          · simp [gotSoFar, hans]
          · intro t' hne
            simp [leftOver, gotSoFar, Function.update_of_ne hne]
          · simp only [hobj']
            exact hO.after _ _ _ h.pm hc hadm hl hyes
          · unfold AtLock
            simp only [hlk]
            exact ⟨c, rest, k + 1, _, by simp [htodo], by simp; rfl, hl, by simp [hyes]⟩
          · by_cases hne : t' = t
            · subst hne
              unfold AtPc
              simp only [Function.update_self]
              refine ⟨c, rest, htodo, hadm, fun _ => ⟨hlk, hnext, by simp [hyes]⟩, fun h' => ?_⟩
              rw [hl] at h'
              simp at h'
            · rw [Function.update_of_ne hne]
              exact atPc_other (h.pcs t') (Function.update_of_ne hne _ _) (fun h' => (hothers t' hne h').elim)
        · have hiff : (commit c < k + 1) = (commit c < k) := by
            apply propext; omega
          refine ⟨pre, m, ans, log, explains_congr h.expl (fun t' => (leftOver_update_pc ans s t t' _ _ _ _).1)
            (fun t' => (leftOver_update_pc ans s t t' _ _ _ _).2), h.pm, h.ppre, ?_, ?_, fun t' => ?_⟩
          · simp only [hobj']
            rw [hm]
            by_cases hlt : commit c < k
            · rw [if_pos hlt]
              exact hO.after _ _ _ h.ppre hc hadm hl (by omega)
            · rw [if_neg hlt]
              exact hO.before _ _ _ h.ppre hc hadm hl (by omega)
          · unfold AtLock
            simp only [hlk]
            exact ⟨c, rest, k + 1, _, by simp [htodo], by simp; rfl, hl, by simp only [hiff]; exact hm⟩
          · by_cases hne : t' = t
            · subst hne
              unfold AtPc
              simp only [Function.update_self]
              refine ⟨c, rest, htodo, hadm, fun _ => ⟨hlk, hnext, by simp only [hiff]; exact hans⟩, fun h' => ?_⟩
              rw [hl] at h'
              simp at h'
            · exact atPc_other (h.pcs t') (Function.update_of_ne hne _ _) (fun h' => (hothers t' hne h').elim)

/-- The invariant holds whatever the schedule. -/
theorem shared_run (hO : SharedOk O call P ok adm Near commit) (x : σ) (hx : P x) (progs : Nat → List C)
    (hp : ∀ t, ∀ c ∈ progs t, ok c) (sched : List Nat) :
    ∃ pre m ans log, SharedInv O call P adm Near commit x progs ((Sys.begin x progs).moves O sched)
      pre m ans log := by
  have h0 : SharedInv O call P adm Near commit x progs (Sys.begin x progs) x x (fun _ => none) [] := by
    refine ⟨⟨rfl, fun t => rfl, fun t => rfl⟩, hx, hx, hO.refl x hx, ?_, fun t => ?_⟩
    · simp [AtLock, Sys.begin]
    · simp [AtPc, Sys.begin]
  have : ∀ (s : Sys σ C R) pre m ans log, SharedInv O call P adm Near commit x progs s pre m ans log →
      ∃ pre m ans log, SharedInv O call P adm Near commit x progs (s.moves O sched) pre m ans log := by
    unfold Sys.moves
    induction sched with
    | nil => exact fun s pre m ans log h => ⟨pre, m, ans, log, h⟩
    | cons t ts ih =>
      intro s pre m ans log h
      obtain ⟨pre', m', ans', log', h'⟩ := shared_step hO hp h t
      exact ih _ pre' m' ans' log' h'
  exact this _ _ _ _ _ h0

end Valori
