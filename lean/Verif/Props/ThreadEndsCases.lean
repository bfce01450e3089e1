import Verif.Props.ThreadEnds

/-!
# C238: searches that have no bound, searches nobody disturbs, and cases
-/

namespace Valori.Props

open Valori Valori.Spec

variable {V M D : Type}

section
variable (env : FlatEnv V D) (ops : Nat → FOp V M)

theorem scan_round {s : FConc V M D} {q : V} {k : Int} (ho : ops 0 = .search q k) {k' : Int} {i : Nat}
    {got : List (Id × V)} (hp : s.thr 0 = .scan k' i got) (hi : i < s.ids.length) :
    ∃ m, 1 ≤ m ∧ (∃ got', (s.run env ops (List.replicate m 0)).thr 0 = .scan k' (i + 1) got') ∧
      (s.run env ops (List.replicate m 0)).ids = s.ids ∧
      ∀ u, u ≠ 0 → (s.run env ops (List.replicate m 0)).thr u = s.thr u := by
  have hid : s.ids[i]? = some s.ids[i] := List.getElem?_eq_getElem hi
  generalize s.ids[i] = id at hid
  clear hi
  by_cases hm : s.cache.mem id = true
  · obtain ⟨v, hv⟩ : ∃ v, s.cache.get? id = some v := by
      rw [Dict.mem_eq] at hm; exact Option.isSome_iff_exists.1 hm
    refine ⟨2, by omega, ⟨got ++ [(id, v)], ?_⟩, ?_, fun u hu => ?_⟩ <;>
      simp [List.replicate, FConc.run, FConc.step, FConc.stepSearch, ho, hp, hid, hm, hv, *]
  · rcases hst : s.store.get? id with _ | ⟨v, m⟩
    · refine ⟨2, by omega, ⟨got, ?_⟩, ?_, fun u hu => ?_⟩ <;>
        simp [List.replicate, FConc.run, FConc.step, FConc.stepSearch, ho, hp, hid, hm, hst, *]
    · refine ⟨3, by omega, ⟨got ++ [(id, v)], ?_⟩, ?_, fun u hu => ?_⟩ <;>
        simp [List.replicate, FConc.run, FConc.step, FConc.stepSearch, ho, hp, hid, hm, hst, *]

theorem scan_append {s : FConc V M D} {t : Nat} {r : FRow V M} (ho : ops t = .insert [r]) (hp : s.thr t = .start) :
    (s.run env ops [t, t, t]).ids = s.ids ++ [r.id] ∧ ∀ u, u ≠ t → (s.run env ops [t, t, t]).thr u = s.thr u := by
  refine ⟨?_, fun u hu => ?_⟩ <;> simp [FConc.run, FConc.step, FConc.stepInsert, ho, hp, *]

end

/-- **C238**, search of a flat index: no number of its own statements is enough.  If there is a vector and other
threads insert one vector each, then for every `n` there is an execution in which the search makes `n` statements and
is not over. -/
theorem C238_flat_search_refuted (env : FlatEnv V D) (ops : Nat → FOp V M) (s : FConc V M D) (hids : s.ids ≠ [])
    (q : V) (k : Int) (ho : ops 0 = .search q k) (r : Nat → FRow V M) (hi : ∀ j, ops (j + 1) = .insert [r j])
    (hs : ∀ u, s.thr u = .start) (n : Nat) :
    ∃ sched, n ≤ sched.count 0 ∧ ¬ EndedF (s.run env ops sched) 0 := by
  suffices h : ∃ sched, n ≤ sched.count 0 ∧ (∃ k' i got, (s.run env ops sched).thr 0 = .scan k' i got ∧
      i < (s.run env ops sched).ids.length) ∧ ∀ j, n ≤ j → (s.run env ops sched).thr (j + 1) = .start by
    obtain ⟨sched, h1, ⟨k', i, got, h2, -⟩, -⟩ := h
    exact ⟨sched, h1, fun ⟨x, hx⟩ => by rw [h2] at hx; cases hx⟩
  induction n with
  | zero =>
    have he : s.ids.isEmpty = false := by cases h : s.ids <;> simp_all
    refine ⟨[0, 0], by simp, ⟨min k (s.ids.length : Int), 0, [], ?_, ?_⟩, fun j _ => ?_⟩
    · simp [FConc.run, FConc.step, FConc.stepSearch, ho, hs, he]
    · simp [FConc.run, FConc.step, FConc.stepSearch, ho, hs, he, List.length_pos_iff, hids]
    · simp [FConc.run, FConc.step, FConc.stepSearch, ho, hs, he]
  | succ n ih =>
    obtain ⟨sched, h1, ⟨k', i, got, h2, h3⟩, h4⟩ := ih
    obtain ⟨e1, e2⟩ := scan_append env ops (hi n) (h4 n le_rfl)
    have h5 := e2 0 (by omega)
    rw [h2] at h5
    obtain ⟨m, hm, ⟨got', g1⟩, g2, g3⟩ := scan_round env ops ho h5 (by rw [e1, List.length_append]; omega)
    refine ⟨sched ++ ([n + 1, n + 1, n + 1] ++ List.replicate m 0), ?_, ⟨k', i + 1, got', ?_, ?_⟩, fun j hj => ?_⟩
    · rw [List.count_append, List.count_append, List.count_replicate_self]; omega
    · simp only [FConc.run, List.foldl_append] at g1 ⊢; exact g1
    · simp only [FConc.run, List.foldl_append] at g2 e1 ⊢
      rw [g2, e1, List.length_append, List.length_singleton]
      exact Nat.succ_lt_succ h3
    · have a1 := g3 (j + 1) (by omega)
      have a2 := e2 (j + 1) (by omega)
      rw [a2, h4 j (by omega)] at a1
      simp only [FConc.run, List.foldl_append] at a1 ⊢
      exact a1

/-- **C238**, search of a flat index beside searches, updates and deletions: it is over after `4 n + 4` of its own
statements, `n` the number of ids in the list. -/
theorem C238_flat_search_quiet (env : FlatEnv V D) (he : FEnds.ShortSort env) (ops : Nat → FOp V M) (s : FConc V M D)
    (hop : ∀ u rows, ops u ≠ .insert rows) (t : Nat) (hs : s.thr t = .start) (q : V) (k : Int)
    (ho : ops t = .search q k) (sched : List Nat) (hc : 4 * s.ids.length + 4 ≤ sched.count t) :
    EndedF (s.run env ops sched) t := by
  have hstep : ∀ (x : FConc V M D) u, (x.step env ops u).ids.length ≤ x.ids.length := by
    intro x u
    unfold FConc.step
    cases hu : ops u with
    | insert rows => exact absurd hu (hop u rows)
    | search q k =>
      cases x.thr u <;> simp only [FConc.stepSearch] <;> (try split) <;> (try split) <;> exact le_rfl
    | update id v m =>
      cases x.thr u <;> simp only [FConc.stepUpdate] <;> (try split) <;> exact le_rfl
    | delete dels =>
      cases x.thr u <;> simp only [FConc.stepDelete] <;> (try split) <;> (try split) <;>
        first | exact le_rfl | exact List.length_erase_le
  have hrun : ∀ (pre : List Nat) (x : FConc V M D), (x.run env ops pre).ids.length ≤ x.ids.length := by
    intro pre
    induction pre with
    | nil => exact fun x => le_rfl
    | cons u pre ih => exact fun x => (ih _).trans (hstep x u)
  exact C238_flat_search_partial env he ops s t hs q k ho s.ids.length sched (fun pre _ => hrun pre s) hc

section
variable [LinearOrder D] (env : IConcEnv V D) (ops : Nat → FOp V M)

theorem walk_round {s : TConc V M D} {q : V} {k : Int} (ho : ops 0 = .search q k)
    (hd : ∀ v, ∃ d, env.dist q v = .ok d) {r : Nat} {todo : List Nat} {i : Nat}
    {got : List (Id × D)} (hp : s.thr 0 = .srch (.walk r todo i got)) (hi : i < (s.content r).length) :
    ∃ m, 1 ≤ m ∧ (∃ got', (s.run env ops (List.replicate m 0)).thr 0 = .srch (.walk r todo (i + 1) got')) ∧
      (s.run env ops (List.replicate m 0)).lists = s.lists ∧ (s.run env ops (List.replicate m 0)).cents = s.cents ∧
      (s.run env ops (List.replicate m 0)).clusters = s.clusters ∧
      ∀ u, u ≠ 0 → (s.run env ops (List.replicate m 0)).thr u = s.thr u := by
  have hid : (s.content r)[i]? = some (s.content r)[i] := List.getElem?_eq_getElem hi
  generalize (s.content r)[i] = id at hid
  clear hi
  by_cases hm : s.cache.mem id = true
  · obtain ⟨v, hv⟩ : ∃ v, s.cache.get? id = some v := by
      rw [Dict.mem_eq] at hm; exact Option.isSome_iff_exists.1 hm
    obtain ⟨d, hd⟩ := hd v
    refine ⟨2, by omega, ⟨got ++ [(id, d)], ?_⟩, ?_, ?_, ?_, fun u hu => ?_⟩ <;>
      simp [List.replicate, TConc.run, TConc.step, TConc.stepSr, ho, hp, hid, hm, hv, hd, *]
  · rcases hst : s.store.get? id with _ | ⟨v, m⟩
    · refine ⟨2, by omega, ⟨got, ?_⟩, ?_, ?_, ?_, fun u hu => ?_⟩ <;>
        simp [List.replicate, TConc.run, TConc.step, TConc.stepSr, ho, hp, hid, hm, hst, *]
    · obtain ⟨d, hd⟩ := hd v
      refine ⟨3, by omega, ⟨got ++ [(id, d)], ?_⟩, ?_, ?_, ?_, fun u hu => ?_⟩ <;>
        simp [List.replicate, TConc.run, TConc.step, TConc.stepSr, ho, hp, hid, hm, hst, hd, *]

theorem walk_append {s : TConc V M D} {t : Nat} {r : FRow V M} (ho : ops t = .insert [r]) (hp : s.thr t = .start)
    {o : Nat} (hc : s.clusters.get? (env.near s.cents r.v) = some o) :
    (s.run env ops (List.replicate 10 t)).lists = s.lists.modify o (· ++ [r.id]) ∧
    (s.run env ops (List.replicate 10 t)).cents = s.cents ∧
    (s.run env ops (List.replicate 10 t)).clusters = s.clusters ∧
    ∀ u, u ≠ t → (s.run env ops (List.replicate 10 t)).thr u = s.thr u := by
  have hm : s.clusters.mem (env.near s.cents r.v) = true := by rw [Dict.mem_eq, hc]; rfl
  refine ⟨?_, ?_, ?_, fun u hu => ?_⟩ <;>
    simp [List.replicate, TConc.run, TConc.step, TConc.stepIns, ho, hp, Dict.get?_set, hm, hc, *]

/-- **C238**, search of a trained IVF index: no number of its own statements is enough.  If the first probed cluster
has a vector and other threads insert one vector each into this cluster, then for every `n` there is an execution
in which the search makes `n` statements and is not over. -/
theorem C238_ivf_search_refuted (s : TConc V M D) (q : V) (k : Int) (ho : ops 0 = .search q k)
    (hd : ∀ v, ∃ d, env.dist q v = .ok d) (c : Nat) (ps : List Nat) (hps : IConc.probesOf env q s.cents = .ok (c :: ps))
    (o : Nat) (hc : s.clusters.get? c = some o) (hl : s.content o ≠ []) (hids : s.ids ≠ [])
    (r : Nat → FRow V M) (hi : ∀ j, ops (j + 1) = .insert [r j]) (hr : ∀ j, env.near s.cents (r j).v = c)
    (hs : ∀ u, s.thr u = .start) (n : Nat) :
    ∃ sched, n ≤ sched.count 0 ∧ ¬ EndedT (s.run env ops sched) 0 := by
  suffices h : ∃ sched, n ≤ sched.count 0 ∧ (∃ i got, (s.run env ops sched).thr 0 = .srch (.walk o ps i got) ∧
      i < ((s.run env ops sched).content o).length) ∧ (s.run env ops sched).cents = s.cents ∧
      (s.run env ops sched).clusters = s.clusters ∧ ∀ j, n ≤ j → (s.run env ops sched).thr (j + 1) = .start by
    obtain ⟨sched, h1, ⟨i, got, h2, -⟩, -⟩ := h
    exact ⟨sched, h1, fun ⟨x, hx⟩ => by rw [h2] at hx; cases hx⟩
  induction n with
  | zero =>
    have he : s.ids.isEmpty = false := by cases h : s.ids <;> simp_all
    have hm : s.clusters.mem c = true := by rw [Dict.mem_eq, hc]; rfl
    have hlen : 0 < ((s.lists[o]?).getD []).length := List.length_pos_iff.2 hl
    refine ⟨[0, 0, 0, 0], by simp, ⟨0, [], ?_, ?_⟩, ?_, ?_, fun j _ => ?_⟩ <;>
      simp [TConc.run, TConc.step, TConc.stepSr, ho, hs, he, hps, hm, hc, TConc.content, hlen]
  | succ n ih =>
    obtain ⟨sched, h1, ⟨i, got, h2, h3⟩, h4, h5, h6⟩ := ih
    obtain ⟨e1, e2, e3, e4⟩ := walk_append env ops (s := s.run env ops sched) (hi n) (h6 n le_rfl)
      (o := o) (by rw [h4, h5, hr, hc])
    have h7 := e4 0 (by omega)
    rw [h2] at h7
    have hlen : (((s.run env ops sched).run env ops (List.replicate 10 (n + 1))).content o).length =
        ((s.run env ops sched).content o).length + 1 := by
      have h8 : o < (s.run env ops sched).lists.length := by
        by_contra hcon
        simp [TConc.content, List.getElem?_eq_none (Nat.le_of_not_lt hcon)] at h3
      simp only [TConc.content, e1, List.getElem?_modify, List.getElem?_eq_getElem h8]
      simp
    obtain ⟨m, hm, ⟨got', g1⟩, g2, g3, g4, g5⟩ := walk_round env ops ho hd h7 (by omega)
    refine ⟨sched ++ (List.replicate 10 (n + 1) ++ List.replicate m 0), ?_, ⟨i + 1, got', ?_, ?_⟩, ?_, ?_, fun j hj => ?_⟩
    · rw [List.count_append, List.count_append, List.count_replicate_self]; omega
    · simp only [TConc.run, List.foldl_append] at g1 ⊢; exact g1
    · have : (s.run env ops (sched ++ (List.replicate 10 (n + 1) ++ List.replicate m 0))).content o =
          ((s.run env ops sched).run env ops (List.replicate 10 (n + 1))).content o := by
        simp only [TConc.content, TConc.run, List.foldl_append] at g2 ⊢
        rw [g2]
      rw [this, hlen]
      omega
    · simp only [TConc.run, List.foldl_append] at g3 e2 h4 ⊢; rw [g3, e2, h4]
    · simp only [TConc.run, List.foldl_append] at g4 e3 h5 ⊢; rw [g4, e3, h5]
    · have a1 := g5 (j + 1) (by omega)
      have a2 := e4 (j + 1) (by omega)
      rw [a2, h6 j (by omega)] at a1
      simp only [TConc.run, List.foldl_append] at a1 ⊢
      exact a1

end

/-! ## Cases -/

/-- A flat index; thread 0 searches, the others insert. -/
def endsFlat : FlatEnv Nat Nat where
  metricOk := true
  dim _ := 1
  finite _ := true
  dist a b := a - b + (b - a)
  argsort ds := (pySortBy Prod.snd ((List.range ds.length).zip ds)).map Prod.fst

theorem endsFlat_short : FEnds.ShortSort endsFlat := by
  intro ds
  simp only [endsFlat, List.length_map, (pySortBy_perm _ _).length_eq, List.length_zip, List.length_range]
  omega

/-- Thread 0 searches, 1 updates, 2 deletes, the others insert. -/
def endsOps : Nat → FOp Nat Nat
  | 0 => .search 20 1
  | 1 => .update "b" 99 (some 2)
  | 2 => .delete ["a", "x"]
  | _ => .insert [⟨"e", 90, none⟩]

/-- The bounds of `C238_flat` are reached by an insertion, an update and a deletion; with one statement less they are
not over. -/
example :
    let s : FConc Nat Nat Nat := ⟨[("a", (5, none)), ("b", (18, none))], ["a", "b"], [("a", 5), ("b", 18)], 2, fun _ => .start⟩
    let e (n t : Nat) := (s.run endsFlat endsOps (List.replicate n t)).thr t
    flatSteps (endsOps 3) = 7 ∧ e 7 3 = .done (.ids ["e"]) ∧ e 6 3 = .count 3 (.ids ["e"]) ∧
      flatSteps (endsOps 1) = 2 ∧ e 2 1 = .done (.flag true) ∧ e 1 1 = .updCache ∧
      flatSteps (endsOps 2) = 12 ∧ e 12 2 = .done (.flag false) ∧ e 10 2 = .count 1 (.flag false) ∧
      e 12 0 = .done (.hits [⟨"b", 2, none⟩]) := by
  decide +kernel

/-- The hypotheses of `C238_ivf` hold for the index with two centroids; an update takes 14 statements at most, and
needs 9 here. -/
example : (∀ v, ivfEndsC.near fourT.cents v < fourT.cents.length) ∧ fourT.clusters.keys.Nodup ∧
    (∀ k ∈ fourT.clusters.keys, k < fourT.cents.length) ∧ (∀ u, fourT.thr u = .start) ∧
    ivfSteps fourT.cents.length (endsOps 1) = 14 ∧
    (fourT.run ivfEndsC endsOps (List.replicate 8 1)).thr 1 ≠ .done (.flag true) ∧
    (fourT.run ivfEndsC endsOps (List.replicate 9 1)).thr 1 = .done (.flag true) ∧
    ivfSteps fourT.cents.length (endsOps 2) = 28 ∧
    (fourT.run ivfEndsC endsOps (List.replicate 28 2)).thr 2 = .done (.flag false) := by
  refine ⟨fun v => ?_, by decide, by decide, fun _ => rfl, by decide, by decide +kernel, by decide +kernel, by decide,
    by decide +kernel⟩
  simp only [ivfEndsC, ivfEnds, fourT]
  split <;> decide

/-- A search, and threads that insert one vector each into its cluster. -/
def busyOps : Nat → FOp Nat Nat
  | 0 => .search 20 1
  | _ => .insert [⟨"e", 8, none⟩]

/-- The hypotheses of `C238_ivf_search_refuted`, and of `C238_ivf_search_partial` when nobody inserts. -/
example : IConc.probesOf ivfEndsC 20 fourT.cents = .ok [0, 1] ∧ fourT.clusters.get? 0 = some 0 ∧
    fourT.content 0 ≠ [] ∧ (∀ v, ∃ d, ivfEndsC.dist 20 v = .ok d) ∧ ivfEndsC.near fourT.cents 8 = 0 ∧
    (fourT.run ivfEndsC busyOps (List.replicate 34 0)).thr 0 = .done (.hits [⟨"b", 2, some 1⟩]) :=
  ⟨by decide +kernel, by decide, by decide, fun v => ⟨_, rfl⟩, by decide, by decide +kernel⟩

/-- Thread 0 inserts `e`, thread 1 deletes it. -/
def insDelT : Nat → FOp Nat Nat
  | 0 => .insert [⟨"e", 90, none⟩]
  | 1 => .delete ["e"]
  | _ => .insert []

open TConc in
/-- **C236 (refuted), an insertion beside a deletion of the inserted id.** Who learns the new id (a search may return
it before the insertion is over) and deletes it makes the insertion raise. -/
theorem C236_insert_beside_delete_refuted :
    let s := run ivfEndsC insDelT fourT (List.replicate 4 0 ++ List.replicate 30 1 ++ List.replicate 30 0)
    s.thr 0 = .done .raised ∧ s.thr 1 = .done (.flag true) ∧ s.store.get? "e" = none := by
  decide +kernel

end Valori.Props
