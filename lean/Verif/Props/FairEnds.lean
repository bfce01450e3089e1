import Verif.Lemmas.Fair
import Verif.Props.ThreadEndsCases
import Verif.Props.ThreadEndsHnswCases

/-!
# C242: calls that get their turn again and again: those that end and those that need not
-/

namespace Valori.Props

open Valori Valori.Spec

variable {V M D : Type}

section
variable (env : FlatEnv V D) (ops : Nat → FOp V M)

theorem stays_endedF {s : FConc V M D} {t : Nat} (sched : List Nat) (h : EndedF s t) :
    EndedF (s.run env ops sched) t := by
  induction sched generalizing s with
  | nil => exact h
  | cons u sched ih =>
    refine ih (s := s.step env ops u) ?_
    obtain ⟨r, hr⟩ := h
    by_cases hu : u = t
    · subst hu
      refine ⟨r, ?_⟩
      unfold FConc.step
      cases ops u <;> simp only [hr, FConc.stepInsert, FConc.stepSearch, FConc.stepUpdate, FConc.stepDelete]
    · exact ⟨r, by rw [FEnds.others_stay env ops s hu]; exact hr⟩

/-- **C242**, flat: an insertion, update or deletion that gets its turn again and again comes to its end. -/
theorem C242_flat_partial (s : FConc V M D) (t : Nat) (hs : s.thr t = .start) (hop : ∀ q k, ops t ≠ .search q k)
    (f : Nat → Nat) (hf : Turns f t) : ∃ n, EndedF (s.run env ops (firstOf f n)) t := by
  obtain ⟨n, hn⟩ := hf.count (flatSteps (ops t))
  exact ⟨n, C238_flat env ops s t hs hop _ hn⟩

/-- **C242**, flat: a search beside insertions of one vector each may go on for ever, though it gets its turn again and
again. -/
theorem C242_flat_search_refuted (s : FConc V M D) (hids : s.ids ≠ [])
    (q : V) (k : Int) (ho : ops 0 = .search q k) (r : Nat → FRow V M) (hi : ∀ j, ops (j + 1) = .insert [r j])
    (hs : ∀ u, s.thr u = .start) :
    ∃ f, Turns f 0 ∧ ∀ n, ¬ EndedF (s.run env ops (firstOf f n)) 0 := by
  suffices h : ∃ f, Turns f 0 ∧ ∀ n, ∃ m, n ≤ m ∧ (fun (n : Nat) (sched : List Nat) =>
      (∃ k' i got, (s.run env ops sched).thr 0 = .scan k' i got ∧
      i < (s.run env ops sched).ids.length) ∧ ∀ j, n ≤ j → (s.run env ops sched).thr (j + 1) = .start) n (firstOf f m) by
    obtain ⟨f, h1, h2⟩ := h
    refine ⟨f, h1, fun n hn => ?_⟩
    obtain ⟨m, hm, hP, -⟩ := h2 n
    obtain ⟨k, rfl⟩ := Nat.exists_eq_add_of_le hm
    have e : s.run env ops (firstOf f (n + k)) = (s.run env ops (firstOf f n)).run env ops
        (firstOf (fun i => f (n + i)) k) := by
      rw [firstOf_add]; simp only [FConc.run, List.foldl_append]
    obtain ⟨y, hy⟩ := stays_endedF env ops (firstOf (fun i => f (n + i)) k) hn
    rw [← e] at hy
    simp [hy] at hP
  refine endless (P := fun n sched =>
      (∃ k' i got, (s.run env ops sched).thr 0 = .scan k' i got ∧
      i < (s.run env ops sched).ids.length) ∧ ∀ j, n ≤ j → (s.run env ops sched).thr (j + 1) = .start) ?_ ?_
  · have he : s.ids.isEmpty = false := by cases h : s.ids <;> simp_all
    refine ⟨[0, 0], ⟨min k (s.ids.length : Int), 0, [], ?_, ?_⟩, fun j _ => ?_⟩
    · simp [FConc.run, FConc.step, FConc.stepSearch, ho, hs, he]
    · simp [FConc.run, FConc.step, FConc.stepSearch, ho, hs, he, List.length_pos_iff, hids]
    · simp [FConc.run, FConc.step, FConc.stepSearch, ho, hs, he]
  · intro n sched ih
    obtain ⟨⟨k', i, got, h2, h3⟩, h4⟩ := ih
    obtain ⟨e1, e2⟩ := scan_append env ops (hi n) (h4 n le_rfl)
    have h5 := e2 0 (by omega)
    rw [h2] at h5
    obtain ⟨m, hm, ⟨got', g1⟩, g2, g3⟩ := scan_round env ops ho h5 (by rw [e1, List.length_append]; omega)
    refine ⟨[n + 1, n + 1, n + 1] ++ List.replicate m 0, ?_, ⟨k', i + 1, got', ?_, ?_⟩, fun j hj => ?_⟩
    · exact List.mem_append_right _ (List.mem_replicate.2 ⟨by omega, rfl⟩)
    · simp only [FConc.run, List.foldl_append] at g1 ⊢; exact g1
    · simp only [FConc.run, List.foldl_append] at g2 e1 ⊢
      rw [g2, e1, List.length_append, List.length_singleton]
      exact Nat.succ_lt_succ h3
    · have a1 := g3 (j + 1) (by omega)
      have a2 := e2 (j + 1) (by omega)
      rw [a2, h4 j (by omega)] at a1
      simp only [FConc.run, List.foldl_append] at a1 ⊢
      exact a1

end

section
variable [LinearOrder D] (env : IConcEnv V D) (ops : Nat → FOp V M)

theorem stays_endedT {s : TConc V M D} {t : Nat} (sched : List Nat) (h : EndedT s t) :
    EndedT (s.run env ops sched) t := by
  induction sched generalizing s with
  | nil => exact h
  | cons u sched ih =>
    refine ih (s := s.step env ops u) ?_
    obtain ⟨r, hr⟩ := h
    by_cases hu : u = t
    · subst hu
      refine ⟨r, ?_⟩
      unfold TConc.step
      cases ops u <;> simp only [hr]
    · exact ⟨r, by rw [TConc.step_others env ops s (Ne.symm hu)]; exact hr⟩

/-- **C242**, trained IVF: an insertion, update or deletion that gets its turn again and again comes to its end. -/
theorem C242_ivf_partial (s : TConc V M D) (hn : ∀ v, env.near s.cents v < s.cents.length)
    (hk : s.clusters.keys.Nodup) (hb : ∀ k ∈ s.clusters.keys, k < s.cents.length) (hs : ∀ u, s.thr u = .start)
    (t : Nat) (hop : ∀ q k, ops t ≠ .search q k) (f : Nat → Nat) (hf : Turns f t) :
    ∃ n, EndedT (s.run env ops (firstOf f n)) t := by
  obtain ⟨n, hc⟩ := hf.count (ivfSteps s.cents.length (ops t))
  exact ⟨n, C238_ivf env ops s hn hk hb hs t hop _ hc⟩

/-- **C242**, trained IVF: a search beside insertions of one vector each into the first probed cluster may go on for
ever, though it gets its turn again and again. -/
theorem C242_ivf_search_refuted (s : TConc V M D) (q : V) (k : Int) (ho : ops 0 = .search q k)
    (hd : ∀ v, ∃ d, env.dist q v = .ok d) (c : Nat) (ps : List Nat) (hps : IConc.probesOf env q s.cents = .ok (c :: ps))
    (o : Nat) (hc : s.clusters.get? c = some o) (hl : s.content o ≠ []) (hids : s.ids ≠ [])
    (r : Nat → FRow V M) (hi : ∀ j, ops (j + 1) = .insert [r j]) (hr : ∀ j, env.near s.cents (r j).v = c)
    (hs : ∀ u, s.thr u = .start) :
    ∃ f, Turns f 0 ∧ ∀ n, ¬ EndedT (s.run env ops (firstOf f n)) 0 := by
  suffices h : ∃ f, Turns f 0 ∧ ∀ n, ∃ m, n ≤ m ∧ (fun (n : Nat) (sched : List Nat) =>
      (∃ i got, (s.run env ops sched).thr 0 = .srch (.walk o ps i got) ∧
      i < ((s.run env ops sched).content o).length) ∧ (s.run env ops sched).cents = s.cents ∧
      (s.run env ops sched).clusters = s.clusters ∧ ∀ j, n ≤ j → (s.run env ops sched).thr (j + 1) = .start) n (firstOf f m) by
    obtain ⟨f, h1, h2⟩ := h
    refine ⟨f, h1, fun n hn => ?_⟩
    obtain ⟨m, hm, hP, -⟩ := h2 n
    obtain ⟨k, rfl⟩ := Nat.exists_eq_add_of_le hm
    have e : s.run env ops (firstOf f (n + k)) = (s.run env ops (firstOf f n)).run env ops
        (firstOf (fun i => f (n + i)) k) := by
      rw [firstOf_add]; simp only [TConc.run, List.foldl_append]
    obtain ⟨y, hy⟩ := stays_endedT env ops (firstOf (fun i => f (n + i)) k) hn
    rw [← e] at hy
    simp [hy] at hP
  refine endless (P := fun n sched =>
      (∃ i got, (s.run env ops sched).thr 0 = .srch (.walk o ps i got) ∧
      i < ((s.run env ops sched).content o).length) ∧ (s.run env ops sched).cents = s.cents ∧
      (s.run env ops sched).clusters = s.clusters ∧ ∀ j, n ≤ j → (s.run env ops sched).thr (j + 1) = .start) ?_ ?_
  · have he : s.ids.isEmpty = false := by cases h : s.ids <;> simp_all
    have hm : s.clusters.mem c = true := by rw [Dict.mem_eq, hc]; rfl
    have hlen : 0 < ((s.lists[o]?).getD []).length := List.length_pos_iff.2 hl
    refine ⟨[0, 0, 0, 0], ⟨0, [], ?_, ?_⟩, ?_, ?_, fun j _ => ?_⟩ <;>
      simp [TConc.run, TConc.step, TConc.stepSr, ho, hs, he, hps, hm, hc, TConc.content, hlen]
  · intro n sched ih
    obtain ⟨⟨i, got, h2, h3⟩, h4, h5, h6⟩ := ih
    obtain ⟨e1, e2, e3, e4⟩ := walk_append env ops (s := s.run env ops sched) (hi n) (h6 n le_rfl)
      (o := o) (by rw [h4, h5, hr, hc])
    have h7 := e4 0 (by omega)
    rw [h2] at h7
    have hlen : (((s.run env ops sched).run env ops (List.replicate 10 (n + 1))).content o).length =
        ((s.run env ops sched).content o).length + 1 := by
      have h8 : o < (s.run env ops sched).lists.length := by
        by_contra hcon
        simp [TConc.content, List.getElem?_eq_none (Nat.le_of_not_lt hcon)] at h3
      simp only [TConc.content, e1, List.getElem?_modify, List.getElem?_eq_getElem h8]
      simp
    obtain ⟨m, hm, ⟨got', g1⟩, g2, g3, g4, g5⟩ := walk_round env ops ho hd h7 (by omega)
    refine ⟨List.replicate 10 (n + 1) ++ List.replicate m 0, ?_, ⟨i + 1, got', ?_, ?_⟩, ?_, ?_, fun j hj => ?_⟩
    · exact List.mem_append_right _ (List.mem_replicate.2 ⟨by omega, rfl⟩)
    · simp only [TConc.run, List.foldl_append] at g1 ⊢; exact g1
    · have : (s.run env ops (sched ++ (List.replicate 10 (n + 1) ++ List.replicate m 0))).content o =
          ((s.run env ops sched).run env ops (List.replicate 10 (n + 1))).content o := by
        simp only [TConc.content, TConc.run, List.foldl_append] at g2 ⊢
        rw [g2]
      rw [this, hlen]
      omega
    · simp only [TConc.run, List.foldl_append] at g3 e2 h4 ⊢; rw [g3, e2, h4]
    · simp only [TConc.run, List.foldl_append] at g4 e3 h5 ⊢; rw [g4, e3, h5]
    · have a1 := g5 (j + 1) (by omega)
      have a2 := e4 (j + 1) (by omega)
      rw [a2, h6 j (by omega)] at a1
      simp only [TConc.run, List.foldl_append] at a1 ⊢
      exact a1

end

section
variable [LinearOrder D] (env : HParEnv V D) (ops : Nat → FOp V M)

theorem stays_endedG {s : GConc V M D} {t : Nat} (sched : List Nat) (h : EndedG s t) :
    EndedG (s.run env ops sched) t := by
  induction sched generalizing s with
  | nil => exact h
  | cons u sched ih =>
    refine ih (s := s.step env ops u) ?_
    obtain ⟨r, hr⟩ := h
    by_cases hu : u = t
    · subst hu
      refine ⟨r, ?_⟩
      unfold GConc.step
      cases ops u <;> simp only [hr]
    · exact ⟨r, by rw [GEnds.others_stay env ops s hu]; exact hr⟩

/-- **C242**, HNSW: an insertion or update that gets its turn again and again comes to its end. -/
theorem C242_hnsw_partial (s : GConc V M D) (t : Nat) (hs : s.thr t = .start) (m : Nat)
    (hm : ∀ i l ks, ((env.rnd t i).pick l ks).length ≤ m)
    (hop : (∃ rows, ops t = .insert rows) ∨ ∃ id v x, ops t = .update id v x) (f : Nat → Nat) (hf : Turns f t) :
    ∃ n, EndedG (s.run env ops (firstOf f n)) t := by
  obtain ⟨n, hc⟩ := hf.count (hnswSteps m (ops t))
  exact ⟨n, C238_hnsw env ops s t hs m hm hop _ hc⟩

/-- **C242**, HNSW: a search beside insertions that connect to the first node may go on for ever, though it gets its turn
again and again. -/
theorem C242_hnsw_search_refuted (s : GConc V M D) (q : V) (k : Int) (ho : ops 0 = .search q k)
    (hd : ∀ v, ∃ d, env.dist q v = .ok d) (x : Id) (o : Nat) (rest : Dict Id Nat)
    (hlv : s.levels = [(x, o) :: rest]) (v : V) (hv : s.vectors.get? x = some v) (hlt : o < s.lists.length)
    (hl : s.content o ≠ []) (r : Nat → FRow V M)
    (hf : Feeds env ops s x o r) (hs : ∀ u, s.thr u = .start) :
    ∃ f, Turns f 0 ∧ ∀ n, ¬ EndedG (s.run env ops (firstOf f n)) 0 := by
  suffices h : ∃ f, Turns f 0 ∧ ∀ n, ∃ m, n ≤ m ∧ (fun (n : Nat) (sched : List Nat) =>
      (∃ k cl cands todo found i, (s.run env ops sched).thr 0 =
        .srch (.nbr k cl cands todo found o i) ∧
      i < ((s.run env ops sched).content o).length) ∧ NodeAt (s.run env ops sched) x o ∧
      (s.run env ops sched).content o = s.content o ++ (List.range n).map (fun j => (r j).id) ∧
      ∀ j, n ≤ j → (s.run env ops sched).thr (j + 1) = .start) n (firstOf f m) by
    obtain ⟨f, h1, h2⟩ := h
    refine ⟨f, h1, fun n hn => ?_⟩
    obtain ⟨m, hm, hP, -⟩ := h2 n
    obtain ⟨k, rfl⟩ := Nat.exists_eq_add_of_le hm
    have e : s.run env ops (firstOf f (n + k)) = (s.run env ops (firstOf f n)).run env ops
        (firstOf (fun i => f (n + i)) k) := by
      rw [firstOf_add]; simp only [GConc.run, List.foldl_append]
    obtain ⟨y, hy⟩ := stays_endedG env ops (firstOf (fun i => f (n + i)) k) hn
    rw [← e] at hy
    simp [hy] at hP
  refine endless (P := fun n sched =>
      (∃ k cl cands todo found i, (s.run env ops sched).thr 0 =
        .srch (.nbr k cl cands todo found o i) ∧
      i < ((s.run env ops sched).content o).length) ∧ NodeAt (s.run env ops sched) x o ∧
      (s.run env ops sched).content o = s.content o ++ (List.range n).map (fun j => (r j).id) ∧
      ∀ j, n ≤ j → (s.run env ops sched).thr (j + 1) = .start) ?_ ?_
  · have hlen : 0 < (s.content o).length := List.length_pos_iff.2 hl
    have hg : Dict.get? ((x, o) :: rest) x = some o := by simp [Dict.get?]
    have hm : Dict.mem ((x, o) :: rest) x = true := by rw [Dict.mem_eq, hg]; rfl
    have he : s.vectors.isEmpty = false := by
      cases h : s.vectors with
      | nil => rw [h] at hv; cases hv
      | cons a l => rfl
    obtain ⟨d, hdv⟩ := hd v
    have hrun : s.run env ops (List.replicate 10 0) =
        { s with thr := Function.update s.thr 0
                   (.srch (.nbr (min k (s.vectors.length : Int)) 0 [(x, d)] [] [] o 0)) } := by
      simp [List.replicate, GConc.run, GConc.step, GConc.stepSr, ho, hs, hv, he, hlv, hm, GConc.nodeRef, hg, hdv]
    refine ⟨List.replicate 10 0, ⟨min k (s.vectors.length : Int), 0, [(x, d)], [], [], 0, ?_, ?_⟩, ?_, ?_,
      fun j _ => ?_⟩ <;> rw [hrun]
    · simp
    · exact hlen
    · exact ⟨⟨_, by rw [hlv]; rfl, hg⟩, hlt⟩
    · simp [GConc.content]
    · simp [hs]
  · intro n sched ih
    obtain ⟨⟨k', cl, cands, todo, found, i, h2, h3⟩, h4, h5, h6⟩ := ih
    have hfr : (r n).id ∉ (s.run env ops sched).content o := by
      rw [h5, List.mem_append, List.mem_map]
      rintro (h | ⟨j, hj, he⟩)
      · exact (hf.fresh n).2 h
      · have := hf.apart j n he
        rw [List.mem_range] at hj
        omega
    obtain ⟨e1, e2, e3⟩ := node_append env ops (hf.op n) (h6 n le_rfl) (hf.level n) (hf.pick n) h4
      (Ne.symm (hf.fresh n).1) hfr
    have h7 := e3 0 (by omega)
    rw [h2] at h7
    obtain ⟨m, hm, ⟨found', g1⟩, g2, g3, g4⟩ :=
      nbr_round env ops ho hd h7 (by rw [e1, List.length_append]; omega) e2
    have hrun : s.run env ops (sched ++ (List.replicate 13 (n + 1) ++ List.replicate m 0)) =
        ((s.run env ops sched).run env ops (List.replicate 13 (n + 1))).run env ops (List.replicate m 0) := by
      simp only [GConc.run, List.foldl_append]
    refine ⟨List.replicate 13 (n + 1) ++ List.replicate m 0, ?_,
      ⟨k', cl, cands, todo, found', i + 1, ?_, ?_⟩, ?_, ?_, fun j hj => ?_⟩
    · exact List.mem_append_right _ (List.mem_replicate.2 ⟨by omega, rfl⟩)
    · rw [hrun]; exact g1
    · rw [hrun, g2, e1, List.length_append, List.length_singleton]; omega
    · rw [hrun]; exact g3
    · rw [hrun, g2, e1, h5, List.range_succ, List.map_append, List.append_assoc]; rfl
    · rw [hrun, g4 _ (by omega), e3 _ (by omega), h6 j (by omega)]

/-- **C242**, HNSW: a deletion beside insertions that connect to the deleted node may go on for ever, though it gets its
turn again and again. -/
theorem C242_hnsw_delete_refuted (s : GConc V M D) (x : Id) (ho : ops 0 = .delete [x]) (hv : s.vectors.mem x = true)
    (o : Nat) (hn : NodeAt s x o) (hl : s.content o ≠ []) (hx : x ∉ s.content o) (r : Nat → FRow V M)
    (hf : Feeds env ops s x o r) (hs : ∀ u, s.thr u = .start) :
    ∃ f, Turns f 0 ∧ ∀ n, ¬ EndedG (s.run env ops (firstOf f n)) 0 := by
  suffices h : ∃ f, Turns f 0 ∧ ∀ n, ∃ m, n ≤ m ∧ (fun (n : Nat) (sched : List Nat) =>
      (∃ ok i, (s.run env ops sched).thr 0 = .del 0 ok (.nbr 0 o i) ∧
      i < ((s.run env ops sched).content o).length) ∧ NodeAt (s.run env ops sched) x o ∧
      (s.run env ops sched).content o = s.content o ++ (List.range n).map (fun j => (r j).id) ∧
      ∀ j, n ≤ j → (s.run env ops sched).thr (j + 1) = .start) n (firstOf f m) by
    obtain ⟨f, h1, h2⟩ := h
    refine ⟨f, h1, fun n hn => ?_⟩
    obtain ⟨m, hm, hP, -⟩ := h2 n
    obtain ⟨k, rfl⟩ := Nat.exists_eq_add_of_le hm
    have e : s.run env ops (firstOf f (n + k)) = (s.run env ops (firstOf f n)).run env ops
        (firstOf (fun i => f (n + i)) k) := by
      rw [firstOf_add]; simp only [GConc.run, List.foldl_append]
    obtain ⟨y, hy⟩ := stays_endedG env ops (firstOf (fun i => f (n + i)) k) hn
    rw [← e] at hy
    simp [hy] at hP
  refine endless (P := fun n sched =>
      (∃ ok i, (s.run env ops sched).thr 0 = .del 0 ok (.nbr 0 o i) ∧
      i < ((s.run env ops sched).content o).length) ∧ NodeAt (s.run env ops sched) x o ∧
      (s.run env ops sched).content o = s.content o ++ (List.range n).map (fun j => (r j).id) ∧
      ∀ j, n ≤ j → (s.run env ops sched).thr (j + 1) = .start) ?_ ?_
  · have hlen : 0 < (s.content o).length := List.length_pos_iff.2 hl
    obtain ⟨⟨d, hd, hg⟩, hlt⟩ := hn
    have hm : d.mem x = true := by rw [Dict.mem_eq, hg]; rfl
    have hrun : s.run env ops (List.replicate 8 0) =
        { s with store := s.store.pop x, vectors := s.vectors.pop x, count := (s.vectors.pop x).length
                 thr := Function.update s.thr 0 (.del 0 (s.store.mem x) (.nbr 0 o 0)) } := by
      simp [List.replicate, GConc.run, GConc.step, GConc.stepDel, ho, hs, hv, hd, hm, GConc.nodeRef, hg]
    refine ⟨List.replicate 8 0, ⟨s.store.mem x, 0, ?_, ?_⟩, ?_, ?_, fun j _ => ?_⟩ <;> rw [hrun]
    · simp
    · exact hlen
    · exact ⟨⟨d, hd, hg⟩, hlt⟩
    · simp [GConc.content]
    · simp [hs]
  · intro n sched ih
    obtain ⟨⟨ok, i, h2, h3⟩, h4, h5, h6⟩ := ih
    have hfr : (r n).id ∉ (s.run env ops sched).content o := by
      rw [h5, List.mem_append, List.mem_map]
      rintro (h | ⟨j, hj, he⟩)
      · exact (hf.fresh n).2 h
      · have := hf.apart j n he
        rw [List.mem_range] at hj
        omega
    obtain ⟨e1, e2, e3⟩ := node_append env ops (hf.op n) (h6 n le_rfl) (hf.level n) (hf.pick n) h4
      (Ne.symm (hf.fresh n).1) hfr
    have hx' : x ∉ ((s.run env ops sched).run env ops (List.replicate 13 (n + 1))).content o := by
      rw [e1, h5, List.append_assoc, List.mem_append, List.mem_append, List.mem_map, List.mem_singleton]
      rintro (h | ⟨j, -, he⟩ | he)
      · exact hx h
      · exact (hf.fresh j).1 he
      · exact (hf.fresh n).1 he.symm
    have h7 := e3 0 (by omega)
    rw [h2] at h7
    obtain ⟨m, hm, g1, g2, g3, g4⟩ := del_round env ops ho h7 (by rw [e1, List.length_append]; omega) hx' e2
    have hrun : s.run env ops (sched ++ (List.replicate 13 (n + 1) ++ List.replicate m 0)) =
        ((s.run env ops sched).run env ops (List.replicate 13 (n + 1))).run env ops (List.replicate m 0) := by
      simp only [GConc.run, List.foldl_append]
    refine ⟨List.replicate 13 (n + 1) ++ List.replicate m 0, ?_, ⟨ok, i + 1, ?_, ?_⟩, ?_, ?_, fun j hj => ?_⟩
    · exact List.mem_append_right _ (List.mem_replicate.2 ⟨by omega, rfl⟩)
    · rw [hrun]; exact g1
    · rw [hrun, g2, e1, List.length_append, List.length_singleton]; omega
    · rw [hrun]; exact g3
    · rw [hrun, g2, e1, h5, List.range_succ, List.map_append, List.append_assoc]; rfl
    · rw [hrun, g4 _ (by omega), e3 _ (by omega), h6 j (by omega)]

end

/-! ## Cases -/

/-- Threads that insert vectors of their own keep a search of a flat index, of a trained IVF index and of an HNSW index
busy for ever, and a deletion on an HNSW index. -/
example : ∃ f, Turns f 0 ∧ ∀ n, ¬ EndedF (FConc.run endsFlat (feedOps (.search 20 1))
    ⟨[("a", (5, none))], ["a"], [("a", 5)], 1, fun _ => .start⟩ (firstOf f n)) 0 :=
  C242_flat_search_refuted _ _ _ (by simp) 20 1 rfl feedRow (fun _ => rfl) fun _ => rfl

example : ∃ f, Turns f 0 ∧ ∀ n, ¬ EndedT (fourT.run ivfEndsC busyOps (firstOf f n)) 0 :=
  C242_ivf_search_refuted _ _ _ 20 1 rfl (fun v => ⟨_, rfl⟩) 0 [1] (by decide +kernel) 0 (by decide) (by decide)
    (by decide) (fun _ => ⟨"e", 8, none⟩) (fun _ => rfl) (fun _ => by decide) fun _ => rfl

example : ∃ f, Turns f 0 ∧ ∀ n, ¬ EndedG (threeIn.run feedEnv (feedOps (.search 3 1)) (firstOf f n)) 0 :=
  C242_hnsw_search_refuted _ _ _ 3 1 rfl (fun v => ⟨_, rfl⟩) "a" 0 [("b", 1), ("c", 2)] rfl 0 (by decide) (by decide)
    (by decide) feedRow (feeds _) fun _ => rfl

example : ∃ f, Turns f 0 ∧ ∀ n, ¬ EndedG (threeIn.run feedEnv (feedOps (.delete ["a"])) (firstOf f n)) 0 :=
  C242_hnsw_delete_refuted _ _ _ "a" rfl (by decide) 0 ⟨⟨_, rfl, by decide⟩, by decide⟩ (by decide) (by decide) feedRow
    (feeds _) fun _ => rfl

/-- The insertions themselves come to their ends. -/
example : ∃ n, EndedF (FConc.run endsFlat (feedOps (.search 20 1))
    ⟨[("a", (5, none))], ["a"], [("a", 5)], 1, fun _ => .start⟩ (firstOf (fun i => i % 2) n)) 1 :=
  C242_flat_partial _ _ _ 1 rfl (fun _ _ h => by cases h) _ fun n => ⟨2 * n + 1, by omega, by
    show (2 * n + 1) % 2 = 1; omega⟩

end Valori.Props
