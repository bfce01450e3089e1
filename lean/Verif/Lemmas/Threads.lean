import Verif.Model.Threads
import Verif.Spec.Threads

/-!
# A lock around the bodies makes threads take turns
-/

namespace Valori

open Spec

variable {σ C R : Type}

theorem oneByOne_snoc (call : σ → C → R × σ) (cs : List C) (c : C) : ∀ x : σ,
    oneByOne call x (cs ++ [c]) = ((oneByOne call x cs).1 ++ [(call (oneByOne call x cs).2 c).1],
      (call (oneByOne call x cs).2 c).2) := by
  induction cs with
  | nil => intro x; rfl
  | cons d ds ih => intro x; simp [oneByOne, ih]

theorem ofThread_snoc_self (t : Nat) (log : List (Nat × C × R)) (c : C) (r : R) :
    ofThread t (log ++ [(t, c, r)]) = ofThread t log ++ [(c, r)] := by simp [ofThread]

theorem ofThread_snoc_ne {t t' : Nat} (h : t' ≠ t) (log : List (Nat × C × R)) (c : C) (r : R) :
    ofThread t (log ++ [(t', c, r)]) = ofThread t log := by simp [ofThread, h]

/-- What makes the methods of a locked object behave like single calls. -/
structure LockOk (O : LockObj σ C R) (call : σ → C → R × σ) (P : σ → Prop) (ok : C → Prop)
    (base : C → Option R) : Prop where
  check : ∀ x c, P x → ok c → O.check x c = base c
  answer : ∀ x c r, P x → ok c → base c = some r → call x c = (r, x)
  body : ∀ x c, P x → ok c → base c = none →
    (O.body c).foldl (fun p f => f p) (x, O.zero) = ((call x c).2, (call x c).1)
  keep : ∀ c, ok c → ∀ f ∈ O.body c, ∀ p : σ × R, P p.1 → P (f p).1

/-- The invariant: `m` is the state after the completed calls, and the lock holder, if any, has done the
first `k` steps of its body from `m`. -/
structure LockInv (O : LockObj σ C R) (call : σ → C → R × σ) (P : σ → Prop) (base : C → Option R)
    (x : σ) (progs : Nat → List C) (s : Sys σ C R) (m : σ) : Prop where
  expl : Explains call x m progs (fun t => (s.thr t).todo) (fun t => (s.thr t).got) s.log
  pm : P m
  pobj : P s.obj
  free : s.lock = none → s.obj = m
  held : ∀ t, s.lock = some t → ∃ c rest k reg, (s.thr t).todo = c :: rest ∧
    (s.thr t).pc = .inside k reg ∧ base c = none ∧
    (s.obj, reg) = ((O.body c).take k).foldl (fun p f => f p) (m, O.zero)
  inside : ∀ t k reg, (s.thr t).pc = .inside k reg → s.lock = some t
  wait : ∀ t c rest, (s.thr t).todo = c :: rest → (s.thr t).pc = .wait → base c = none

variable {O : LockObj σ C R} {call : σ → C → R × σ} {P : σ → Prop} {ok : C → Prop}
  {base : C → Option R}

theorem explains_finish {x m m' : σ} {progs : Nat → List C} {s : Sys σ C R} {t : Nat} {c : C}
    {rest : List C} {r : R}
    (h : Explains call x m progs (fun t => (s.thr t).todo) (fun t => (s.thr t).got) s.log)
    (htodo : (s.thr t).todo = c :: rest) (hr : call m c = (r, m')) :
    Explains call x m' progs (fun t' => ((s.finish t c rest r).thr t').todo)
      (fun t' => ((s.finish t c rest r).thr t').got) (s.finish t c rest r).log := by
  refine ⟨?_, fun t' => ?_, fun t' => ?_⟩
  · simp only [Sys.finish, List.map_append, List.map_cons, List.map_nil]
    rw [oneByOne_snoc, h.replies]
    simp [hr]
  · by_cases ht : t = t'
    · subst ht
      simp only [Sys.finish, ofThread_snoc_self, Function.update_self, List.map_append, List.map_cons,
        List.map_nil, List.append_assoc, List.singleton_append]
      rw [← h.order t, htodo]
    · simp only [Sys.finish, ofThread_snoc_ne ht, Function.update_of_ne (Ne.symm ht)]
      exact h.order t'
  · by_cases ht : t = t'
    · subst ht
      simp only [Sys.finish, ofThread_snoc_self, Function.update_self, List.map_append, List.map_cons,
        List.map_nil]
      rw [h.seen t]
    · simp only [Sys.finish, ofThread_snoc_ne ht, Function.update_of_ne (Ne.symm ht)]
      exact h.seen t'

theorem explains_same {x m : σ} {progs : Nat → List C} {s : Sys σ C R} {s' : Sys σ C R}
    (h : Explains call x m progs (fun t => (s.thr t).todo) (fun t => (s.thr t).got) s.log)
    (h1 : ∀ t, (s'.thr t).todo = (s.thr t).todo) (h2 : ∀ t, (s'.thr t).got = (s.thr t).got)
    (h3 : s'.log = s.log) :
    Explains call x m progs (fun t => (s'.thr t).todo) (fun t => (s'.thr t).got) s'.log := by
  simp only [h1, h2, h3]
  exact h

/-- Changing where one thread is. -/
theorem update_pc (thr : Nat → Thr C R) (t t' : Nat) (pc : Pc R) :
    (Function.update thr t { thr t with pc := pc } t').todo = (thr t').todo ∧
    (Function.update thr t { thr t with pc := pc } t').got = (thr t').got ∧
    (t' = t → (Function.update thr t { thr t with pc := pc } t').pc = pc) ∧
    (t' ≠ t → (Function.update thr t { thr t with pc := pc } t').pc = (thr t').pc) := by
  by_cases h : t' = t
  · subst h; simp
  · simp [Function.update_of_ne h, h]

theorem lock_step (hO : LockOk O call P ok base) {x m : σ} {progs : Nat → List C}
    (hp : ∀ t, ∀ c ∈ progs t, ok c) {s : Sys σ C R} (h : LockInv O call P base x progs s m) (t : Nat) :
    ∃ m', LockInv O call P base x progs (s.step O t) m' := by
  rcases htodo : (s.thr t).todo with _ | ⟨c, rest⟩
  · refine ⟨m, ?_⟩
    unfold Sys.step
    rw [htodo]
    exact h
  have hc : ok c := hp t c (by rw [← h.expl.order t, htodo]; simp)
  unfold Sys.step
  rw [htodo]
  simp only
  rcases hpc : (s.thr t).pc with _ | _ | ⟨k, reg⟩
  · -- before the lock
    simp only
    rw [hO.check s.obj c h.pobj hc]
    rcases hb : base c with _ | r
    · simp only
      refine ⟨m, explains_same h.expl (fun t' => (update_pc _ t t' _).1)
        (fun t' => (update_pc _ t t' _).2.1) rfl, h.pm, h.pobj, h.free, ?_, ?_, ?_⟩
      · intro t' ht'
        obtain ⟨c', rest', k, reg, h1, h2, h3, h4⟩ := h.held t' ht'
        have hne : t' ≠ t := by rintro rfl; rw [hpc] at h2; simp at h2
        exact ⟨c', rest', k, reg, ((update_pc s.thr t t' _).1).trans h1,
          ((update_pc s.thr t t' _).2.2.2 hne).trans h2, h3, h4⟩
      · intro t' k reg ht'
        by_cases hne : t' = t
        · subst hne; simp at ht'
        · rw [(update_pc s.thr t t' _).2.2.2 hne] at ht'
          exact h.inside t' k reg ht'
      · intro t' c' rest' h1 h2
        by_cases hne : t' = t
        · subst hne
          rw [(update_pc s.thr t' t' _).1, htodo] at h1
          obtain ⟨rfl, -⟩ := List.cons.inj h1
          exact hb
        · rw [(update_pc s.thr t t' _).2.2.2 hne] at h2
          rw [(update_pc s.thr t t' _).1] at h1
          exact h.wait t' c' rest' h1 h2
    · simp only
      refine ⟨m, explains_finish h.expl htodo (hO.answer m c r h.pm hc hb), h.pm, h.pobj, h.free,
        ?_, ?_, ?_⟩
      · intro t' ht'
        obtain ⟨c', rest', k, reg, h1, h2, h3, h4⟩ := h.held t' ht'
        have hne : t' ≠ t := by rintro rfl; rw [hpc] at h2; simp at h2
        refine ⟨c', rest', k, reg, ?_, ?_, h3, h4⟩
        · simpa [Sys.finish, Function.update_of_ne hne] using h1
        · simpa [Sys.finish, Function.update_of_ne hne] using h2
      · intro t' k reg ht'
        by_cases hne : t' = t
        · subst hne; simp [Sys.finish] at ht'
        · simp only [Sys.finish, Function.update_of_ne hne] at ht'
          exact h.inside t' k reg ht'
      · intro t' c' rest' h1 h2
        by_cases hne : t' = t
        · subst hne; simp [Sys.finish] at h2
        · simp only [Sys.finish, Function.update_of_ne hne] at h1 h2
          exact h.wait t' c' rest' h1 h2
  · -- taking the lock
    simp only
    rcases hl : s.lock with _ | o
    · simp only
      refine ⟨m, explains_same h.expl (fun t' => (update_pc _ t t' _).1)
        (fun t' => (update_pc _ t t' _).2.1) rfl, h.pm, h.pobj, fun h' => by simp at h', ?_, ?_, ?_⟩
      · intro t' ht'
        obtain rfl : t = t' := by simpa using ht'
        refine ⟨c, rest, 0, O.zero, ((update_pc s.thr t t _).1).trans htodo,
          (update_pc s.thr t t _).2.2.1 rfl, h.wait t c rest htodo hpc, ?_⟩
        simp [h.free hl]
      · intro t' k reg ht'
        by_cases hne : t' = t
        · rw [hne]
        · rw [(update_pc s.thr t t' _).2.2.2 hne] at ht'
          rw [h.inside t' k reg ht'] at hl
          simp at hl
      · intro t' c' rest' h1 h2
        by_cases hne : t' = t
        · subst hne; simp at h2
        · rw [(update_pc s.thr t t' _).2.2.2 hne] at h2
          rw [(update_pc s.thr t t' _).1] at h1
          exact h.wait t' c' rest' h1 h2
    · exact ⟨m, by simpa only using h⟩
  · -- inside
    have hlk := h.inside t k reg hpc
    obtain ⟨c', rest', k', reg', h1, h2, h3, h4⟩ := h.held t hlk
    rw [htodo] at h1
    obtain ⟨rfl, rfl⟩ := List.cons.inj h1
    rw [hpc] at h2
    obtain ⟨rfl, rfl⟩ := Pc.inside.inj h2
    simp only
    rcases hf : (O.body c)[k]? with _ | f
    · simp only
      have hlen : (O.body c).length ≤ k := List.getElem?_eq_none_iff.1 hf
      rw [List.take_of_length_le hlen, hO.body m c h.pm hc h3] at h4
      obtain ⟨h5, h6⟩ := Prod.mk.inj h4
      refine ⟨(call m c).2, explains_finish (s := { s with lock := none }) h.expl htodo
        (by rw [h6]), ?_, h.pobj, ?_, ?_, ?_, ?_⟩
      · rw [← h5]; exact h.pobj
      · exact fun _ => h5
      · intro t' ht'; simp [Sys.finish] at ht'
      · intro t' k' reg' ht'
        by_cases hne : t' = t
        · subst hne; simp [Sys.finish] at ht'
        · simp only [Sys.finish, Function.update_of_ne hne] at ht'
          have := h.inside t' k' reg' ht'
          rw [hlk] at this
          exact absurd (Option.some.inj this).symm hne
      · intro t' c' rest' h1 h2
        by_cases hne : t' = t
        · subst hne; simp [Sys.finish] at h2
        · simp only [Sys.finish, Function.update_of_ne hne] at h1 h2
          exact h.wait t' c' rest' h1 h2
    · simp only
      refine ⟨m, explains_same h.expl (fun t' => (update_pc _ t t' _).1)
        (fun t' => (update_pc _ t t' _).2.1) rfl, h.pm,
        hO.keep c hc f (List.mem_of_getElem? hf) _ h.pobj, fun h' => ?_, ?_, ?_, ?_⟩
      · simp [hlk] at h'
      · intro t' ht'
        obtain rfl : t = t' := by simpa [hlk] using ht'
        refine ⟨c, rest, k + 1, _, ((update_pc s.thr t t _).1).trans htodo,
          (update_pc s.thr t t _).2.2.1 rfl, h3, ?_⟩
        rw [List.take_succ, hf]
        simp [← h4]
      · intro t' k' reg' ht'
        by_cases hne : t' = t
        · rw [hne]; exact hlk
        · rw [(update_pc s.thr t t' _).2.2.2 hne] at ht'
          exact h.inside t' k' reg' ht'
      · intro t' c' rest' h1 h2
        by_cases hne : t' = t
        · subst hne; simp at h2
        · rw [(update_pc s.thr t t' _).2.2.2 hne] at h2
          rw [(update_pc s.thr t t' _).1] at h1
          exact h.wait t' c' rest' h1 h2

/-- The invariant holds whatever the schedule. -/
theorem lock_run (hO : LockOk O call P ok base) (x : σ) (hx : P x) (progs : Nat → List C)
    (hp : ∀ t, ∀ c ∈ progs t, ok c) (sched : List Nat) :
    ∃ m, LockInv O call P base x progs ((Sys.begin x progs).run O sched) m := by
  have h0 : LockInv O call P base x progs (Sys.begin x progs) x := by
    refine ⟨⟨rfl, fun t => rfl, fun t => rfl⟩, hx, hx, fun _ => rfl, ?_, ?_, ?_⟩
    · intro t h; simp [Sys.begin] at h
    · intro t k reg h; simp [Sys.begin] at h
    · intro t c rest _ h; simp [Sys.begin] at h
  have : ∀ (s : Sys σ C R) m, LockInv O call P base x progs s m →
      ∃ m', LockInv O call P base x progs (s.run O sched) m' := by
    unfold Sys.run
    induction sched with
    | nil => exact fun s m h => ⟨m, h⟩
    | cons t ts ih =>
      intro s m h
      obtain ⟨m', h'⟩ := lock_step hO hp h t
      exact ih _ m' h'
  exact this _ _ h0

/-- Repeating the step of one thread. -/
theorem run_replicate_add (O : LockObj σ C R) (s : Sys σ C R) (t a b : Nat) :
    s.run O (List.replicate (a + b) t) = (s.run O (List.replicate a t)).run O (List.replicate b t) := by
  rw [List.replicate_add, Sys.run, List.foldl_append]
  rfl

/-- A thread inside a body runs it to the end. -/
theorem alone_body (O : LockObj σ C R) (t : Nat) (c : C) (rest : List C) : ∀ (n k : Nat) (s : Sys σ C R)
    (reg : R), (s.thr t).todo = c :: rest → (s.thr t).pc = .inside k reg →
    n + k = (O.body c).length → ∃ s', s.run O (List.replicate (n + 1) t) = s' ∧ s'.lock = none ∧
      s'.thr t = ⟨rest, .out, (s.thr t).got ++
        [(((O.body c).drop k).foldl (fun p f => f p) (s.obj, reg)).2]⟩ ∧
      s'.obj = (((O.body c).drop k).foldl (fun p f => f p) (s.obj, reg)).1 := by
  intro n
  induction n with
  | zero =>
    intro k s reg ht hp hk
    have h0 : (O.body c)[k]? = none := List.getElem?_eq_none (by omega)
    refine ⟨_, rfl, ?_⟩
    have hd : (O.body c).drop k = [] := List.drop_of_length_le (by omega)
    simp [Sys.run, Sys.step, ht, hp, h0, Sys.finish, hd]
  | succ n ih =>
    intro k s reg ht hp hk
    have hlt : k < (O.body c).length := by omega
    have h0 : (O.body c)[k]? = some (O.body c)[k] := List.getElem?_eq_getElem hlt
    have e : s.step O t = { s with
        obj := ((O.body c)[k] (s.obj, reg)).1
        thr := Function.update s.thr t
          { s.thr t with pc := .inside (k + 1) ((O.body c)[k] (s.obj, reg)).2 } } := by
      simp [Sys.step, ht, hp, h0]
    obtain ⟨s', h1, h2, h3, h4⟩ := ih (k + 1) (s.step O t) ((O.body c)[k] (s.obj, reg)).2
      (by rw [e]; simpa using ht) (by rw [e]; simp) (by omega)
    have hd : (O.body c).drop k = (O.body c)[k] :: (O.body c).drop (k + 1) :=
      List.drop_eq_getElem_cons hlt
    refine ⟨s', by rw [← h1, List.replicate_succ]; rfl, h2, ?_, ?_⟩
    · rw [h3, e, hd]
      simp only [Function.update_self, List.foldl_cons]
    · rw [h4, e, hd]
      simp only [List.foldl_cons]

/-- A thread nobody interrupts makes its calls like a single caller. -/
theorem alone_run (O : LockObj σ C R) (call : σ → C → R × σ)
    (h1 : ∀ x c r, O.check x c = some r → call x c = (r, x))
    (h2 : ∀ x c, O.check x c = none →
      (O.body c).foldl (fun p f => f p) (x, O.zero) = ((call x c).2, (call x c).1)) (t : Nat) :
    ∀ (cs : List C) (s : Sys σ C R) (g : List R), s.thr t = ⟨cs, .out, g⟩ → s.lock = none →
      ∃ n s', s.run O (List.replicate n t) = s' ∧ s'.lock = none ∧
        s'.thr t = ⟨[], .out, g ++ (oneByOne call s.obj cs).1⟩ ∧
        s'.obj = (oneByOne call s.obj cs).2 := by
  intro cs
  induction cs with
  | nil =>
    intro s g ht hl
    exact ⟨0, s, rfl, hl, by rw [ht]; simp [oneByOne], rfl⟩
  | cons c cs ih =>
    intro s g ht hl
    have one : ∃ n s', s.run O (List.replicate n t) = s' ∧ s'.lock = none ∧
        s'.thr t = ⟨cs, .out, g ++ [(call s.obj c).1]⟩ ∧ s'.obj = (call s.obj c).2 := by
      rcases hc : O.check s.obj c with _ | r
      · let s2 : Sys σ C R := (s.step O t).step O t
        have e1 : s.step O t =
            { s with thr := Function.update s.thr t { s.thr t with pc := .wait } } := by
          simp [Sys.step, ht, hc]
        have e2 : s2 = ⟨s.obj, some t, Function.update s.thr t ⟨c :: cs, .inside 0 O.zero, g⟩,
            s.log⟩ := by
          show (s.step O t).step O t = _
          rw [e1]
          simp [Sys.step, ht, hl]
        obtain ⟨s', k1, k2, k3, k4⟩ := alone_body O t c cs (O.body c).length 0 s2 O.zero
          (by rw [e2]; simp) (by rw [e2]; simp) (by omega)
        refine ⟨2 + ((O.body c).length + 1), s', ?_, k2, ?_, ?_⟩
        · rw [run_replicate_add]; exact k1
        · rw [k3, e2]
          simp [h2 _ _ hc]
        · rw [k4, e2]
          simp [h2 _ _ hc]
      · refine ⟨1, _, rfl, ?_⟩
        have e : s.step O t = s.finish t c cs r := by
          simp [Sys.step, ht, hc]
        show (s.step O t).lock = none ∧ _
        rw [h1 _ _ _ hc]
        show _ ∧ (s.step O t).thr t = _ ∧ (s.step O t).obj = _
        rw [e]
        simp [Sys.finish, hl, ht]
    obtain ⟨n, s1, r1, l1, t1, o1⟩ := one
    obtain ⟨m, s2, r2, l2, t2, o2⟩ := ih s1 _ t1 l1
    refine ⟨n + m, s2, by rw [run_replicate_add, r1, r2], l2, ?_, ?_⟩
    · rw [t2, o1]; simp [oneByOne]
    · rw [o2, o1]; simp [oneByOne]

end Valori
