import Verif.Model.Pipeline
import Verif.Spec.Batch
import Verif.Lemmas.Dict

/-!
# Lemmas on the registry and the pipeline
-/

namespace Valori
open Spec

variable {σ D V M : Type}

/-- The head of the sorted list is the first of the greatest. -/
theorem sort_head {α : Type} (l : List (Int × α)) (x : Int × α) (xs : List (Int × α))
    (h : l.insertionSort (fun a b => b.1 ≤ a.1) = x :: xs) :
    ∃ pre post, l = pre ++ x :: post ∧ (∀ y ∈ pre, y.1 < x.1) ∧ ∀ y ∈ post, y.1 ≤ x.1 := by
  induction l generalizing x xs with
  | nil => cases h
  | cons a t ih =>
    rw [List.insertionSort_cons] at h
    cases hs : t.insertionSort (fun a b => b.1 ≤ a.1) with
    | nil =>
      have ht : t = [] := by
        have := congrArg List.length hs
        rw [List.length_insertionSort] at this
        exact List.length_eq_zero_iff.1 this
      rw [hs] at h
      simp only [List.orderedInsert, List.cons.injEq] at h
      exact ⟨[], [], by rw [ht, h.1]; rfl, by simp, by simp⟩
    | cons b bs =>
      obtain ⟨pre, post, he, h1, h2⟩ := ih b bs hs
      rw [hs, List.orderedInsert] at h
      split_ifs at h with hab
      · rw [List.cons.injEq] at h
        obtain ⟨rfl, -⟩ := h
        refine ⟨[], t, rfl, by simp, fun y hy => ?_⟩
        rw [he] at hy
        rcases List.mem_append.1 hy with hy | hy
        · exact le_trans (le_of_lt (h1 y hy)) hab
        · rcases List.mem_cons.1 hy with rfl | hy
          · exact hab
          · exact le_trans (h2 y hy) hab
      · rw [List.cons.injEq] at h
        obtain ⟨rfl, -⟩ := h
        refine ⟨a :: pre, post, by rw [he]; rfl, fun y hy => ?_, h2⟩
        rcases List.mem_cons.1 hy with rfl | hy
        · exact lt_of_not_ge hab
        · exact h1 y hy

theorem suitable_split (R : Registry σ D) (path : String) (x : Int × ParserObj σ D)
    (pre post : List (Int × ParserObj σ D)) (h : R.suitable path = pre ++ x :: post)
    (h1 : ∀ y ∈ pre, y.1 < x.1) (h2 : ∀ y ∈ post, y.1 ≤ x.1) :
    ∃ before name after, R.parsers = before ++ (name, x.2) :: after ∧ x.2.canParse path = true ∧
      (∀ q ∈ before, q.2.canParse path = true →
        (R.priorities.get? q.1).getD 0 < (R.priorities.get? name).getD 0) ∧
      ∀ q ∈ after, q.2.canParse path = true →
        (R.priorities.get? q.1).getD 0 ≤ (R.priorities.get? name).getD 0 := by
  unfold Registry.suitable at h
  rw [List.filterMap_eq_append_iff] at h
  obtain ⟨l1, l2, he, hpre, hrest⟩ := h
  rw [List.filterMap_eq_cons_iff] at hrest
  obtain ⟨l3, ⟨name, p⟩, l4, he2, hnone, hx, hpost⟩ := hrest
  simp only at hx
  split_ifs at hx with hp
  obtain rfl := Option.some.inj hx
  refine ⟨l1 ++ l3, name, l4, by rw [he, he2, List.append_assoc], hp, ?_, ?_⟩
  · rintro ⟨n, q⟩ hq hc
    rcases List.mem_append.1 hq with hq | hq
    · refine h1 ((R.priorities.get? n).getD 0, q) ?_
      rw [← hpre, List.mem_filterMap]
      exact ⟨(n, q), hq, if_pos hc⟩
    · have := hnone (n, q) hq
      simp only at this hc
      rw [if_pos hc] at this
      cases this
  · rintro ⟨n, q⟩ hq hc
    refine h2 ((R.priorities.get? n).getD 0, q) ?_
    rw [← hpost, List.mem_filterMap]
    exact ⟨(n, q), hq, if_pos hc⟩

theorem suitable_nil (R : Registry σ D) (path : String)  :
    R.suitable path = [] ↔ ∀ q ∈ R.parsers, q.2.canParse path = false := by
  unfold Registry.suitable
  rw [List.filterMap_eq_nil_iff]
  constructor
  · intro h q hq
    have := h q hq
    obtain ⟨n, p⟩ := q
    simp only at this
    split_ifs at this with hc
    simpa using hc
  · rintro h ⟨n, p⟩ hq
    have := h _ hq
    simp only at this ⊢
    rw [this]
    rfl

theorem startLoop_nodup (classes : Dict String (ParserClass σ D)) (items : List (String × Cfg))
    (ps : Dict String (ParserObj σ D)) (h : ps.keys.Nodup) : (startLoop classes items ps).keys.Nodup := by
  induction items generalizing ps with
  | nil => exact h
  | cons it items ih =>
    obtain ⟨name, cfg⟩ := it
    unfold startLoop
    cases classes.get? name with
    | none => exact ih ps h
    | some cls =>
      simp only
      cases cls cfg with
      | error e => exact ih ps h
      | ok p => exact ih _ (Dict.nodup_set h _ _)

theorem step_nodup (R : Registry σ D) (h : R.parsers.keys.Nodup) (o : RegOp σ D) :
    (o.step R).parsers.keys.Nodup := by
  cases o with
  | start =>
    simp only [RegOp.step, Registry.start]
    split
    · exact startLoop_nodup _ _ _ h
    · exact h
  | add name cls cfg =>
    simp only [RegOp.step, Registry.add]
    cases cls cfg with
    | error e => exact h
    | ok p => exact Dict.nodup_set h _ _
  | remove name =>
    simp only [RegOp.step, Registry.remove]
    cases R.parsers.get? name with
    | none => exact h
    | some p =>
      simp only
      cases p.close with
      | error e => exact h
      | ok u => exact Dict.nodup_pop h _
  | close =>
    simp only [RegOp.step, Registry.close]
    cases closeAll (R.parsers.vals.map ParserObj.close) with
    | error e => exact h
    | ok u => exact List.nodup_nil

theorem run_nodup (R : Registry σ D) (h : R.parsers.keys.Nodup) (ops : List (RegOp σ D)) :
    (ops.foldl RegOp.step R).parsers.keys.Nodup := by
  induction ops generalizing R with
  | nil => exact h
  | cons o ops ih => exact ih _ (step_nodup R h o)

theorem startProcs_spec (E : PipeEnv σ D V M) (hk : ∀ k c p, E.mkProc k c = .ok p → p.kind = k)
    (conf : Conf) (ks : List ProcKind) (ps qs : List (ProcObj σ D))
    (h : startProcs E conf ks ps = (.ok (), qs)) :
    ∃ new, qs = ps ++ new ∧ new.map ProcObj.kind = ks.filter fun k => (conf.get? k.key).isSome := by
  induction ks generalizing ps with
  | nil =>
    simp only [startProcs, Prod.mk.injEq] at h
    exact ⟨[], by rw [← h.2, List.append_nil], rfl⟩
  | cons k ks ih =>
    unfold startProcs at h
    cases hg : conf.get? k.key with
    | none =>
      rw [hg] at h
      obtain ⟨new, h1, h2⟩ := ih ps h
      exact ⟨new, h1, by rw [h2, List.filter_cons_of_neg (by simp [hg])]⟩
    | some cfg =>
      rw [hg] at h
      simp only at h
      cases hm : E.mkProc k cfg with
      | error e => rw [hm] at h; simp at h
      | ok p =>
        rw [hm] at h
        obtain ⟨new, h1, h2⟩ := ih _ h
        refine ⟨p :: new, by rw [h1]; simp, ?_⟩
        rw [List.map_cons, h2, hk k cfg p hm, List.filter_cons_of_pos (by simp [hg])]

theorem startProcs_prefix (E : PipeEnv σ D V M) (hk : ∀ k c p, E.mkProc k c = .ok p → p.kind = k)
    (conf : Conf) (ks : List ProcKind) (ps qs : List (ProcObj σ D)) (r : Except Err Unit)
    (h : startProcs E conf ks ps = (r, qs)) :
    ∃ new, qs = ps ++ new ∧
      new.map ProcObj.kind <+: ks.filter fun k => (conf.get? k.key).isSome := by
  induction ks generalizing ps with
  | nil =>
    simp only [startProcs, Prod.mk.injEq] at h
    exact ⟨[], by rw [← h.2, List.append_nil], List.prefix_rfl⟩
  | cons k ks ih =>
    unfold startProcs at h
    cases hg : conf.get? k.key with
    | none =>
      rw [hg] at h
      obtain ⟨new, h1, h2⟩ := ih ps h
      exact ⟨new, h1, by rw [List.filter_cons_of_neg (by simp [hg])]; exact h2⟩
    | some cfg =>
      rw [hg] at h
      simp only at h
      cases hm : E.mkProc k cfg with
      | error e =>
        rw [hm] at h
        simp only [Prod.mk.injEq] at h
        exact ⟨[], by rw [← h.2, List.append_nil], List.nil_prefix⟩
      | ok p =>
        rw [hm] at h
        obtain ⟨new, h1, h2⟩ := ih _ h
        refine ⟨p :: new, by rw [h1]; simp, ?_⟩
        rw [List.map_cons, hk k cfg p hm, List.filter_cons_of_pos (by simp [hg])]
        exact (List.cons_prefix_cons).2 ⟨rfl, h2⟩

/-- What a successful `initialize` of the pipeline leaves. -/
theorem pipeStart_ok (E : PipeEnv σ D V M) (P P' : Pipe σ D) (h : P.start E = (.ok (), P')) :
    ∃ pc R conf, getD P.config "parsers" (.dict []) = .dict pc ∧
      (Registry.new E.builtin pc).start = (.ok (), R) ∧
      getD P.config "processors" (.dict []) = .dict conf ∧
      startProcs E conf [.cleaning, .chunking, .embedding] P.procs = (.ok (), P'.procs) ∧
      P'.config = P.config ∧ P'.registry = some R ∧ P'.init = true := by
  unfold Pipe.start at h
  cases hp : getD P.config "parsers" (.dict []) with
  | dict pc =>
    rw [hp] at h
    simp only at h
    rcases hr : (Registry.new E.builtin pc).start with ⟨e | u, R⟩
    · rw [hr] at h; simp at h
    · rw [hr] at h
      simp only at h
      cases hc : getD P.config "processors" (.dict []) with
      | dict conf =>
        rw [hc] at h
        simp only at h
        rcases hq : startProcs E conf [.cleaning, .chunking, .embedding] P.procs with ⟨e | u, ps⟩
        · rw [hq] at h; simp at h
        · rw [hq] at h
          simp only [Prod.mk.injEq, true_and] at h
          subst h
          exact ⟨pc, R, conf, rfl, hr, rfl, hq, rfl, rfl, rfl⟩
      | _ => rw [hc] at h; simp at h
  | _ => rw [hp] at h; simp at h

theorem batchDocs_calls (E : PipeEnv σ D V M) (P : Pipe σ D) (paths : List String) (s : σ) :
    ∃ replies, Calls (fun s path => P.processDocument E s path none) s paths replies (batchDocs E P paths s).2 ∧
      (batchDocs E P paths s).1 = List.zipWith (fun path r => match r with
        | .ok d => .done d
        | .error e => .failed path e) paths replies := by
  induction paths generalizing s with
  | nil => exact ⟨[], .nil s, rfl⟩
  | cons path paths ih =>
    rcases hr : P.processDocument E s path none with ⟨e | d, s1⟩
    · obtain ⟨rs, hc, he⟩ := ih s1
      refine ⟨.error e :: rs, ?_, ?_⟩
      · have : (batchDocs E P (path :: paths) s).2 = (batchDocs E P paths s1).2 := by
          simp only [batchDocs, hr]
        rw [this]
        exact .cons hr hc
      · simp only [batchDocs, hr, List.zipWith_cons_cons, he]
    · obtain ⟨rs, hc, he⟩ := ih s1
      refine ⟨.ok d :: rs, ?_, ?_⟩
      · have : (batchDocs E P (path :: paths) s).2 = (batchDocs E P paths s1).2 := by
          simp only [batchDocs, hr]
        rw [this]
        exact .cons hr hc
      · simp only [batchDocs, hr, List.zipWith_cons_cons, he]

theorem filesLoop_fail (E : PipeEnv σ D V M) (P : Pipe σ D) (name : Option String)
    (h : ∀ s path, ∃ e s', P.processDocument E s path name = (.error e, s')) (paths : List String) (s : σ)
    (out : List V × List M) : (filesLoop E P name paths s out).1 = out := by
  induction paths generalizing s with
  | nil => rfl
  | cons path paths ih =>
    obtain ⟨e, s', hp⟩ := h s path
    simp only [filesLoop, hp]
    exact ih s'

end Valori
