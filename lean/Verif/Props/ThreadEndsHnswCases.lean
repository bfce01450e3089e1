import Verif.Props.ThreadEndsHnsw
import Verif.Props.HnswConcCases

/-!
# C238: deletions and searches of an HNSW index that have no bound, and cases
-/

namespace Valori.Props

open Valori Valori.Spec

variable {V M D : Type}

section
variable [LinearOrder D] (env : HParEnv V D) (ops : Nat → FOp V M)

/-- Node `x` of level 0 has the list object `o`. -/
def NodeAt (s : GConc V M D) (x : Id) (o : Nat) : Prop :=
  (∃ d, s.levels[0]? = some d ∧ d.get? x = some o) ∧ o < s.lists.length

theorem append_first {s : GConc V M D} {t : Nat} {r : FRow V M} (ho : ops t = .insert [r]) (hp : s.thr t = .start)
    (hl : env.level t 0 = 0) (hlev : s.levels ≠ []) :
    s.run env ops (List.replicate 6 t) =
      { s with store := s.store.set r.id (r.v, r.m), vectors := s.vectors.set r.id r.v
               count := (s.vectors.set r.id r.v).length, thr := Function.update s.thr t (.ins 0 (.node 0)) } := by
  simp [List.replicate, GConc.run, GConc.step, GConc.stepIns, ho, hp, hl, hlev]

theorem append_last {s : GConc V M D} {t : Nat} {r : FRow V M} (ho : ops t = .insert [r])
    (hp : s.thr t = .ins 0 (.node 1)) {x : Id} {o : Nat} {d : Dict Id Nat} (hl : env.level t 0 = 0)
    (hk : ∀ ks, (env.rnd t 0).pick 0 ks = [x]) (hd : s.levels[0]? = some d) (hg : d.get? x = some o)
    (hx : x ≠ r.id) (hr : r.id ∉ s.content o) :
    s.run env ops (List.replicate 6 t) =
      { s with lists := s.lists.modify o (· ++ [r.id]), maxLevel := max s.maxLevel 0
               thr := Function.update s.thr t (.ins 0 (.backHas 0 x [])) } := by
  have hmem : x ∈ d.keys := by rw [Dict.mem_keys, hg]; rfl
  have hrun : ∀ (z : GConc V M D) n, z.run env ops (List.replicate (n + 1) t) =
      (z.step env ops t).run env ops (List.replicate n t) := fun _ _ => rfl
  rw [hrun]
  have h1 : s.step env ops t = { s with thr := Function.update s.thr t (.ins 0 .readMax) } := by
    simp [GConc.step, GConc.stepIns, ho, hp, hl]
  have h2 : ∀ z : GConc V M D, z.thr t = .ins 0 .readMax →
      z.step env ops t = { z with thr := Function.update z.thr t (.ins 0 (.setMax (max z.maxLevel 0))) } := by
    intro z hz
    simp [GConc.step, GConc.stepIns, ho, hz, hl]
  have h3 : ∀ (z : GConc V M D) n, z.thr t = .ins 0 (.setMax n) →
      z.step env ops t = { z with maxLevel := n, thr := Function.update z.thr t (.ins 0 (.sample 0)) } := by
    intro z n hz
    simp [GConc.step, GConc.stepIns, ho, hz]
  have h4 : ∀ z : GConc V M D, z.thr t = .ins 0 (.sample 0) → z.levels[0]? = some d →
      z.step env ops t = { z with thr := Function.update z.thr t (.ins 0 (.has 0 [x])) } := by
    intro z hz hd
    simp [GConc.step, GConc.stepIns, ho, hz, hk, hd, hmem, List.filter_cons]
  have h5 : ∀ z : GConc V M D, z.thr t = .ins 0 (.has 0 [x]) → z.levels[0]? = some d → r.id ∉ z.content o →
      z.step env ops t = { z with thr := Function.update z.thr t (.ins 0 (.push 0 x [])) } := by
    intro z hz hd hr
    simp [GConc.step, GConc.stepIns, ho, hz, GConc.nodeRef, hd, hg, hr, hx]
  have h6 : ∀ z : GConc V M D, z.thr t = .ins 0 (.push 0 x []) → z.levels[0]? = some d →
      z.step env ops t = { z with lists := z.lists.modify o (· ++ [r.id])
                                  thr := Function.update z.thr t (.ins 0 (.backHas 0 x [])) } := by
    intro z hz hd
    simp [GConc.step, GConc.stepIns, ho, hz, GConc.nodeRef, hd, hg]
  rw [h1, hrun, h2, hrun, h3 _ (max s.maxLevel 0), hrun, h4, hrun, h5, hrun, h6]
  · simp [GConc.run]
  all_goals first
    | exact Function.update_self ..
    | exact hd
    | exact hr

theorem node_append {s : GConc V M D} {t : Nat} {r : FRow V M} (ho : ops t = .insert [r]) (hp : s.thr t = .start)
    {x : Id} {o : Nat} (hl : env.level t 0 = 0) (hk : ∀ ks, (env.rnd t 0).pick 0 ks = [x]) (hn : NodeAt s x o)
    (hx : x ≠ r.id) (hr : r.id ∉ s.content o) :
    (s.run env ops (List.replicate 13 t)).content o = s.content o ++ [r.id] ∧
    NodeAt (s.run env ops (List.replicate 13 t)) x o ∧
    ∀ u, u ≠ t → (s.run env ops (List.replicate 13 t)).thr u = s.thr u := by
  obtain ⟨⟨d, hd, hg⟩, hlt⟩ := hn
  have hlev : 0 < s.levels.length := (List.getElem?_eq_some_iff.1 hd).1
  have hrun : s.run env ops (List.replicate 13 t) =
      (((s.run env ops (List.replicate 6 t)).step env ops t).run env ops (List.replicate 6 t)) := rfl
  rw [hrun, append_first env ops ho hp hl (List.length_pos_iff.1 hlev)]
  by_cases hm : d.mem r.id = true
  · have hstep : ∀ z : GConc V M D, z.thr t = .ins 0 (.node 0) → z.levels[0]? = some d →
        z.step env ops t = { z with thr := Function.update z.thr t (.ins 0 (.node 1)) } := by
      intro z hz hd
      simp [GConc.step, GConc.stepIns, ho, hz, hd, hm]
    rw [hstep, append_last env ops ho ?_ hl hk (d := d) (o := o) ?_ hg hx ?_]
    rotate_left
    · exact Function.update_self ..
    · exact hd
    · exact hr
    · exact Function.update_self ..
    · exact hd
    refine ⟨?_, ⟨⟨d, hd, hg⟩, ?_⟩, fun u hu => ?_⟩
    · simp [GConc.content, List.getElem?_eq_getElem hlt]
    · simpa using hlt
    · simp [hu]
  · have hstep : ∀ z : GConc V M D, z.thr t = .ins 0 (.node 0) → z.levels[0]? = some d →
        z.step env ops t = { z with lists := z.lists ++ [[]], levels := z.levels.set 0 (d.set r.id z.lists.length)
                                    thr := Function.update z.thr t (.ins 0 (.node 1)) } := by
      intro z hz hd
      simp [GConc.step, GConc.stepIns, ho, hz, hd, hm]
    have hset : (s.levels.set 0 (d.set r.id s.lists.length))[0]? = some (d.set r.id s.lists.length) := by
      simp [hlev]
    have hg' : (d.set r.id s.lists.length).get? x = some o := by rw [Dict.get?_set, if_neg (by simpa using hx), hg]
    have hc : ((s.lists ++ [[]])[o]?).getD [] = s.content o := by rw [List.getElem?_append_left hlt]; rfl
    rw [hstep, append_last env ops ho ?_ hl hk (d := d.set r.id s.lists.length) (o := o) ?_ hg' hx ?_]
    rotate_left
    · exact Function.update_self ..
    · exact hset
    · show r.id ∉ ((s.lists ++ [[]])[o]?).getD []
      rw [hc]
      exact hr
    · exact Function.update_self ..
    · exact hd
    refine ⟨?_, ⟨⟨_, hset, hg'⟩, ?_⟩, fun u hu => ?_⟩
    · simp [GConc.content, List.getElem?_append_left hlt, List.getElem?_eq_getElem hlt]
    · simp; omega
    · simp [hu]

theorem del_round {s : GConc V M D} {x : Id} (ho : ops 0 = .delete [x]) {ok : Bool} {o j : Nat}
    (hp : s.thr 0 = .del 0 ok (.nbr 0 o j)) (hj : j < (s.content o).length) (hx : x ∉ s.content o)
    (hn : NodeAt s x o) :
    ∃ m, 1 ≤ m ∧ (s.run env ops (List.replicate m 0)).thr 0 = .del 0 ok (.nbr 0 o (j + 1)) ∧
      (s.run env ops (List.replicate m 0)).content o = s.content o ∧
      NodeAt (s.run env ops (List.replicate m 0)) x o ∧
      ∀ u, u ≠ 0 → (s.run env ops (List.replicate m 0)).thr u = s.thr u := by
  have hid : (s.content o)[j]? = some (s.content o)[j] := List.getElem?_eq_getElem hj
  generalize (s.content o)[j] = nb at hid
  clear hj
  have hrun : ∀ (z : GConc V M D) n, z.run env ops (List.replicate (n + 1) 0) =
      (z.step env ops 0).run env ops (List.replicate n 0) := fun _ _ => rfl
  have e1 : s.step env ops 0 = { s with thr := Function.update s.thr 0 (.del 0 ok (.nbTest 0 o j nb)) } := by
    simp [GConc.step, GConc.stepDel, ho, hp, hid]
  rcases hr : s.nodeRef 0 nb with _ | o2
  · have e2 : ∀ z : GConc V M D, z.thr 0 = .del 0 ok (.nbTest 0 o j nb) → z.nodeRef 0 nb = none →
        z.step env ops 0 = { z with thr := Function.update z.thr 0 (.del 0 ok (.nbr 0 o (j + 1))) } := by
      intro z hz hr
      simp [GConc.step, GConc.stepDel, ho, hz, hr]
    refine ⟨2, by omega, ?_⟩
    have : s.run env ops (List.replicate 2 0) =
        { s with thr := Function.update s.thr 0 (.del 0 ok (.nbr 0 o (j + 1))) } := by
      rw [hrun, e1, hrun, e2]
      · simp [GConc.run]
      · simp
      · exact hr
    rw [this]
    exact ⟨by simp, rfl, hn, fun u hu => Function.update_of_ne hu ..⟩
  · have e2 : ∀ z : GConc V M D, z.thr 0 = .del 0 ok (.nbTest 0 o j nb) → z.nodeRef 0 nb = some o2 →
        z.step env ops 0 = { z with thr := Function.update z.thr 0 (.del 0 ok (.nbHas 0 o j nb)) } := by
      intro z hz hr
      simp [GConc.step, GConc.stepDel, ho, hz, hr]
    by_cases hin : x ∈ s.content o2
    · have e3 : ∀ z : GConc V M D, z.thr 0 = .del 0 ok (.nbHas 0 o j nb) → z.nodeRef 0 nb = some o2 →
          x ∈ z.content o2 →
          z.step env ops 0 = { z with thr := Function.update z.thr 0 (.del 0 ok (.nbDel 0 o j nb)) } := by
        intro z hz hr hin
        simp [GConc.step, GConc.stepDel, ho, hz, hr, hin]
      have e4 : ∀ z : GConc V M D, z.thr 0 = .del 0 ok (.nbDel 0 o j nb) → z.nodeRef 0 nb = some o2 →
          x ∈ z.content o2 →
          z.step env ops 0 = { z with lists := z.lists.modify o2 (fun y => removeFirst y x)
                                      thr := Function.update z.thr 0 (.del 0 ok (.nbr 0 o (j + 1))) } := by
        intro z hz hr hin
        simp [GConc.step, GConc.stepDel, ho, hz, hr, hin]
      have hne : o2 ≠ o := fun h => hx (h ▸ hin)
      refine ⟨4, by omega, ?_⟩
      have : s.run env ops (List.replicate 4 0) =
          { s with lists := s.lists.modify o2 (fun y => removeFirst y x)
                   thr := Function.update s.thr 0 (.del 0 ok (.nbr 0 o (j + 1))) } := by
        rw [hrun, e1, hrun, e2, hrun, e3, hrun, e4]
        · simp [GConc.run]
        all_goals first
          | exact hr
          | exact hin
          | (simp; done)
      rw [this]
      refine ⟨by simp, ?_, ⟨hn.1, ?_⟩, fun u hu => Function.update_of_ne hu ..⟩
      · simp [GConc.content, List.getElem?_modify, hne]
      · simpa using hn.2
    · have e3 : ∀ z : GConc V M D, z.thr 0 = .del 0 ok (.nbHas 0 o j nb) → z.nodeRef 0 nb = some o2 →
          x ∉ z.content o2 →
          z.step env ops 0 = { z with thr := Function.update z.thr 0 (.del 0 ok (.nbr 0 o (j + 1))) } := by
        intro z hz hr hin
        simp [GConc.step, GConc.stepDel, ho, hz, hr, hin]
      refine ⟨3, by omega, ?_⟩
      have : s.run env ops (List.replicate 3 0) =
          { s with thr := Function.update s.thr 0 (.del 0 ok (.nbr 0 o (j + 1))) } := by
        rw [hrun, e1, hrun, e2, hrun, e3]
        · simp [GConc.run]
        all_goals first
          | exact hr
          | exact hin
          | (simp; done)
      rw [this]
      exact ⟨by simp, rfl, hn, fun u hu => Function.update_of_ne hu ..⟩

theorem nbr_round {s : GConc V M D} {q : V} {k₀ : Int} (ho : ops 0 = .search q k₀)
    (hd : ∀ v, ∃ d, env.dist q v = .ok d) {x : Id} {k : Int} {cl : Nat} {cands todo found : List (Id × D)} {o j : Nat}
    (hp : s.thr 0 = .srch (.nbr k cl cands todo found o j)) (hj : j < (s.content o).length) (hn : NodeAt s x o) :
    ∃ m, 1 ≤ m ∧ (∃ found', (s.run env ops (List.replicate m 0)).thr 0 =
        .srch (.nbr k cl cands todo found' o (j + 1))) ∧
      (s.run env ops (List.replicate m 0)).content o = s.content o ∧
      NodeAt (s.run env ops (List.replicate m 0)) x o ∧
      ∀ u, u ≠ 0 → (s.run env ops (List.replicate m 0)).thr u = s.thr u := by
  have hid : (s.content o)[j]? = some (s.content o)[j] := List.getElem?_eq_getElem hj
  generalize (s.content o)[j] = nb at hid
  clear hj
  by_cases hm : s.vectors.mem nb = true
  · obtain ⟨v, hv⟩ : ∃ v, s.vectors.get? nb = some v := by
      rw [Dict.mem_eq] at hm; exact Option.isSome_iff_exists.1 hm
    obtain ⟨d, hd⟩ := hd v
    refine ⟨2, by omega, ⟨found ++ [(nb, d)], ?_⟩, ?_, ?_, fun u hu => ?_⟩
    · simp [List.replicate, GConc.run, GConc.step, GConc.stepSr, ho, hp, hid, hm, hv, hd]
    · have h2 : (s.run env ops (List.replicate 2 0)).lists = s.lists := by
        simp [List.replicate, GConc.run, GConc.step, ho, hp, GConc.stepSr, hid, hm]
      unfold GConc.content
      rw [h2]
    · have h1 : (s.run env ops (List.replicate 2 0)).levels = s.levels := by
        simp [List.replicate, GConc.run, GConc.step, ho, hp, GConc.stepSr, hid, hm]
      have h2 : (s.run env ops (List.replicate 2 0)).lists = s.lists := by
        simp [List.replicate, GConc.run, GConc.step, ho, hp, GConc.stepSr, hid, hm]
      unfold NodeAt
      rw [h1, h2]
      exact hn
    · simp [List.replicate, GConc.run, GConc.step, GConc.stepSr, ho, hp, hid, hm, hu]
  · refine ⟨1, by omega, ⟨found, ?_⟩, ?_, ?_, fun u hu => ?_⟩
    · simp [List.replicate, GConc.run, GConc.step, GConc.stepSr, ho, hp, hid, hm]
    · simp [List.replicate, GConc.run, GConc.step, ho, hp, GConc.content]
    · have h1 : (s.run env ops (List.replicate 1 0)).levels = s.levels := by
        simp [List.replicate, GConc.run, GConc.step, ho, hp]
      have h2 : (s.run env ops (List.replicate 1 0)).lists = s.lists := by
        simp [List.replicate, GConc.run, GConc.step, ho, hp]
      unfold NodeAt
      rw [h1, h2]
      exact hn
    · simp [List.replicate, GConc.run, GConc.step, ho, hp, hu]

/-- Thread `j + 1` inserts one vector, not yet a neighbour of `x`, draws level 0 and connects it to `x`. -/
structure Feeds (s : GConc V M D) (x : Id) (o : Nat) (r : Nat → FRow V M) : Prop where
  op : ∀ j, ops (j + 1) = .insert [r j]
  level : ∀ j, env.level (j + 1) 0 = 0
  pick : ∀ j ks, (env.rnd (j + 1) 0).pick 0 ks = [x]
  fresh : ∀ j, (r j).id ≠ x ∧ (r j).id ∉ s.content o
  apart : ∀ i j, (r i).id = (r j).id → i = j

/-- **C238**, deletion on an HNSW index: no number of its own statements is enough.  If the deleted node has a
neighbour and other threads insert one vector each and connect it to this node, then for every `n` there is an
execution in which the deletion makes `n` statements and is not over. -/
theorem C238_hnsw_delete_refuted (s : GConc V M D) (x : Id) (ho : ops 0 = .delete [x]) (hv : s.vectors.mem x = true)
    (o : Nat) (hn : NodeAt s x o) (hl : s.content o ≠ []) (hx : x ∉ s.content o) (r : Nat → FRow V M)
    (hf : Feeds env ops s x o r) (hs : ∀ u, s.thr u = .start) (n : Nat) :
    ∃ sched, n ≤ sched.count 0 ∧ ¬ EndedG (s.run env ops sched) 0 := by
  suffices h : ∃ sched, n ≤ sched.count 0 ∧ (∃ ok i, (s.run env ops sched).thr 0 = .del 0 ok (.nbr 0 o i) ∧
      i < ((s.run env ops sched).content o).length) ∧ NodeAt (s.run env ops sched) x o ∧
      (s.run env ops sched).content o = s.content o ++ (List.range n).map (fun j => (r j).id) ∧
      ∀ j, n ≤ j → (s.run env ops sched).thr (j + 1) = .start by
    obtain ⟨sched, h1, ⟨ok, i, h2, -⟩, -⟩ := h
    exact ⟨sched, h1, fun ⟨y, hy⟩ => by rw [h2] at hy; cases hy⟩
  induction n with
  | zero =>
    have hlen : 0 < (s.content o).length := List.length_pos_iff.2 hl
    obtain ⟨⟨d, hd, hg⟩, hlt⟩ := hn
    have hm : d.mem x = true := by rw [Dict.mem_eq, hg]; rfl
    have hrun : s.run env ops (List.replicate 8 0) =
        { s with store := s.store.pop x, vectors := s.vectors.pop x, count := (s.vectors.pop x).length
                 thr := Function.update s.thr 0 (.del 0 (s.store.mem x) (.nbr 0 o 0)) } := by
      simp [List.replicate, GConc.run, GConc.step, GConc.stepDel, ho, hs, hv, hd, hm, GConc.nodeRef, hg]
    refine ⟨List.replicate 8 0, by simp, ⟨s.store.mem x, 0, ?_, ?_⟩, ?_, ?_, fun j _ => ?_⟩ <;> rw [hrun]
    · simp
    · exact hlen
    · exact ⟨⟨d, hd, hg⟩, hlt⟩
    · simp [GConc.content]
    · simp [hs]
  | succ n ih =>
    obtain ⟨sched, h1, ⟨ok, i, h2, h3⟩, h4, h5, h6⟩ := ih
    have hfr : (r n).id ∉ (s.run env ops sched).content o := by
      rw [h5, List.mem_append, List.mem_map]
      rintro (h | ⟨j, hj, he⟩)
      · exact (hf.fresh n).2 h
      · have := hf.apart j n he
        rw [List.mem_range] at hj
        omega
    obtain ⟨e1, e2, e3⟩ := node_append env ops (hf.op n) (h6 n le_rfl) (hf.level n) (hf.pick n) h4
      (Ne.symm (hf.fresh n).1) hfr
    have hx' : x ∉ ((s.run env ops sched).run env ops (List.replicate 13 (n + 1))).content o := by
      rw [e1, h5, List.append_assoc, List.mem_append, List.mem_append, List.mem_map, List.mem_singleton]
      rintro (h | ⟨j, -, he⟩ | he)
      · exact hx h
      · exact (hf.fresh j).1 he
      · exact (hf.fresh n).1 he.symm
    have h7 := e3 0 (by omega)
    rw [h2] at h7
    obtain ⟨m, hm, g1, g2, g3, g4⟩ := del_round env ops ho h7 (by rw [e1, List.length_append]; omega) hx' e2
    have hrun : s.run env ops (sched ++ (List.replicate 13 (n + 1) ++ List.replicate m 0)) =
        ((s.run env ops sched).run env ops (List.replicate 13 (n + 1))).run env ops (List.replicate m 0) := by
      simp only [GConc.run, List.foldl_append]
    refine ⟨sched ++ (List.replicate 13 (n + 1) ++ List.replicate m 0), ?_, ⟨ok, i + 1, ?_, ?_⟩, ?_, ?_, fun j hj => ?_⟩
    · rw [List.count_append, List.count_append, List.count_replicate_self]; omega
    · rw [hrun]; exact g1
    · rw [hrun, g2, e1, List.length_append, List.length_singleton]; omega
    · rw [hrun]; exact g3
    · rw [hrun, g2, e1, h5, List.range_succ, List.map_append, List.append_assoc]; rfl
    · rw [hrun, g4 _ (by omega), e3 _ (by omega), h6 j (by omega)]

/-- **C238**, search of an HNSW index: no number of its own statements is enough.  If the first node of the only
level has a neighbour and other threads insert one vector each and connect it to this node, then for every `n` there
is an execution in which the search makes `n` statements and is not over. -/
theorem C238_hnsw_search_refuted (s : GConc V M D) (q : V) (k : Int) (ho : ops 0 = .search q k)
    (hd : ∀ v, ∃ d, env.dist q v = .ok d) (x : Id) (o : Nat) (rest : Dict Id Nat)
    (hlv : s.levels = [(x, o) :: rest]) (v : V) (hv : s.vectors.get? x = some v) (hlt : o < s.lists.length)
    (hl : s.content o ≠ []) (r : Nat → FRow V M)
    (hf : Feeds env ops s x o r) (hs : ∀ u, s.thr u = .start) (n : Nat) :
    ∃ sched, n ≤ sched.count 0 ∧ ¬ EndedG (s.run env ops sched) 0 := by
  suffices h : ∃ sched, n ≤ sched.count 0 ∧ (∃ k cl cands todo found i, (s.run env ops sched).thr 0 =
        .srch (.nbr k cl cands todo found o i) ∧
      i < ((s.run env ops sched).content o).length) ∧ NodeAt (s.run env ops sched) x o ∧
      (s.run env ops sched).content o = s.content o ++ (List.range n).map (fun j => (r j).id) ∧
      ∀ j, n ≤ j → (s.run env ops sched).thr (j + 1) = .start by
    obtain ⟨sched, h1, ⟨_, _, _, _, _, i, h2, -⟩, -⟩ := h
    exact ⟨sched, h1, fun ⟨y, hy⟩ => by rw [h2] at hy; cases hy⟩
  induction n with
  | zero =>
    have hlen : 0 < (s.content o).length := List.length_pos_iff.2 hl
    have hg : Dict.get? ((x, o) :: rest) x = some o := by simp [Dict.get?]
    have hm : Dict.mem ((x, o) :: rest) x = true := by rw [Dict.mem_eq, hg]; rfl
    have he : s.vectors.isEmpty = false := by
      cases h : s.vectors with
      | nil => rw [h] at hv; cases hv
      | cons a l => rfl
    obtain ⟨d, hdv⟩ := hd v
    have hrun : s.run env ops (List.replicate 10 0) =
        { s with thr := Function.update s.thr 0
                   (.srch (.nbr (min k (s.vectors.length : Int)) 0 [(x, d)] [] [] o 0)) } := by
      simp [List.replicate, GConc.run, GConc.step, GConc.stepSr, ho, hs, hv, he, hlv, hm, GConc.nodeRef, hg, hdv]
    refine ⟨List.replicate 10 0, by simp, ⟨min k (s.vectors.length : Int), 0, [(x, d)], [], [], 0, ?_, ?_⟩, ?_, ?_,
      fun j _ => ?_⟩ <;> rw [hrun]
    · simp
    · exact hlen
    · exact ⟨⟨_, by rw [hlv]; rfl, hg⟩, hlt⟩
    · simp [GConc.content]
    · simp [hs]
  | succ n ih =>
    obtain ⟨sched, h1, ⟨k', cl, cands, todo, found, i, h2, h3⟩, h4, h5, h6⟩ := ih
    have hfr : (r n).id ∉ (s.run env ops sched).content o := by
      rw [h5, List.mem_append, List.mem_map]
      rintro (h | ⟨j, hj, he⟩)
      · exact (hf.fresh n).2 h
      · have := hf.apart j n he
        rw [List.mem_range] at hj
        omega
    obtain ⟨e1, e2, e3⟩ := node_append env ops (hf.op n) (h6 n le_rfl) (hf.level n) (hf.pick n) h4
      (Ne.symm (hf.fresh n).1) hfr
    have h7 := e3 0 (by omega)
    rw [h2] at h7
    obtain ⟨m, hm, ⟨found', g1⟩, g2, g3, g4⟩ :=
      nbr_round env ops ho hd h7 (by rw [e1, List.length_append]; omega) e2
    have hrun : s.run env ops (sched ++ (List.replicate 13 (n + 1) ++ List.replicate m 0)) =
        ((s.run env ops sched).run env ops (List.replicate 13 (n + 1))).run env ops (List.replicate m 0) := by
      simp only [GConc.run, List.foldl_append]
    refine ⟨sched ++ (List.replicate 13 (n + 1) ++ List.replicate m 0), ?_,
      ⟨k', cl, cands, todo, found', i + 1, ?_, ?_⟩, ?_, ?_, fun j hj => ?_⟩
    · rw [List.count_append, List.count_append, List.count_replicate_self]; omega
    · rw [hrun]; exact g1
    · rw [hrun, g2, e1, List.length_append, List.length_singleton]; omega
    · rw [hrun]; exact g3
    · rw [hrun, g2, e1, h5, List.range_succ, List.map_append, List.append_assoc]; rfl
    · rw [hrun, g4 _ (by omega), e3 _ (by omega), h6 j (by omega)]

end

/-! ## Cases -/

/-- Every thread draws level 0 and connects to `a`. -/
def feedEnv : HParEnv Nat Nat where
  efSearch := 50
  dist a b := .ok ((a - b) + (b - a))
  rnd _ _ := ⟨0, fun _ _ => ["a"]⟩

/-- Ids `xx`, `xxx`, ... -/
def feedRow (j : Nat) : FRow Nat Nat := ⟨String.ofList (List.replicate (j + 2) 'x'), j, none⟩

/-- Thread 0 makes one call, the others insert one vector each. -/
def feedOps (f : FOp Nat Nat) : Nat → FOp Nat Nat
  | 0 => f
  | j + 1 => .insert [feedRow j]

theorem feed_len (j : Nat) : (feedRow j).id.length = j + 2 := by
  simp [feedRow]

theorem feeds (f : FOp Nat Nat) : Feeds feedEnv (feedOps f) threeIn "a" 0 feedRow where
  op _ := rfl
  level _ := rfl
  pick _ _ := rfl
  fresh j := by
    have h := feed_len j
    refine ⟨fun he => ?_, fun he => ?_⟩
    · rw [he, show "a".length = 1 from rfl] at h; omega
    · have : (feedRow j).id = "b" := by simpa [GConc.content, threeIn] using he
      rw [this, show "b".length = 1 from rfl] at h; omega
  apart i j h := by
    have hi := feed_len i
    rw [h, feed_len j] at hi
    omega

/-- The hypotheses of `C238_hnsw_delete_refuted` and `C238_hnsw_search_refuted`. -/
example : threeIn.vectors.mem "a" = true ∧ NodeAt threeIn "a" 0 ∧ threeIn.content 0 ≠ [] ∧ "a" ∉ threeIn.content 0 ∧
    threeIn.levels = [("a", 0) :: [("b", 1), ("c", 2)]] ∧ threeIn.vectors.get? "a" = some 0 ∧
    (∀ v, ∃ d, feedEnv.dist 3 v = .ok d) ∧ ∀ u, threeIn.thr u = .start :=
  ⟨by decide, ⟨⟨_, rfl, by decide⟩, by decide⟩, by decide, by decide, rfl, by decide, fun v => ⟨_, rfl⟩, fun _ => rfl⟩

/-- A deletion that two insertions keep busy: after 14 statements of its own it is still in the list of `a`; alone it
is over after 16. -/
example :
    let ops := feedOps (.delete ["a"])
    (threeIn.run feedEnv ops (List.replicate 8 0 ++ List.replicate 13 1 ++ List.replicate 4 0 ++ List.replicate 13 2 ++
      List.replicate 2 0)).thr 0 = .del 0 true (.nbHas 0 0 1 "xx") ∧
    (threeIn.run feedEnv ops (List.replicate 13 0)).thr 0 ≠ .done (.flag true) ∧
    (threeIn.run feedEnv ops (List.replicate 16 0)).thr 0 = .done (.flag true) := by
  decide +kernel

/-- The hypothesis on the drawn neighbours in `C238_hnsw`; an insertion of one row has at most 110 statements and is over
after 18 here, an update after 3. -/
example : (∀ i l ks, ((feedEnv.rnd 1 i).pick l ks).length ≤ 1) ∧
    hnswSteps 1 (feedOps (.delete []) 1) = 110 ∧
    (threeIn.run feedEnv (feedOps (.delete [])) (List.replicate 15 1)).thr 1 ≠ .done (.ids ["xx"]) ∧
    (threeIn.run feedEnv (feedOps (.delete [])) (List.replicate 18 1)).thr 1 = .done (.ids ["xx"]) ∧
    (threeIn.run feedEnv (feedOps (.update "b" 7 none)) [0, 0, 0]).thr 0 = .done (.flag true) ∧
    (threeIn.run feedEnv (feedOps (.update "b" 7 none)) [0, 0]).thr 0 = .updSet :=
  ⟨fun _ _ _ => le_rfl, by decide, by decide +kernel, by decide +kernel, by decide +kernel, by decide +kernel⟩

/-- A deletion beside updates: `StaySmall` with one level and lists of one id holds, so 16 statements are enough. -/
example : let ops : Nat → FOp Nat Nat := fun t => if t = 0 then .delete ["a"] else .update "b" 7 none
    StaySmall feedEnv ops threeIn (List.replicate 16 0) 1 1 ∧
    EndedG (threeIn.run feedEnv ops (List.replicate 16 0)) 0 := by
  intro ops
  have hb : StaySmall feedEnv ops threeIn (List.replicate 16 0) 1 1 := by
    intro pre hp
    obtain ⟨hl, hr⟩ : pre.length ≤ 16 ∧ pre = List.replicate pre.length 0 := by
      refine ⟨by simpa using hp.length_le, List.eq_replicate_iff.2 ⟨rfl, fun b h => ?_⟩⟩
      exact List.eq_of_mem_replicate (hp.subset h)
    rw [hr]
    generalize pre.length = n at hl
    have key : ∀ n ≤ 16, (threeIn.run feedEnv ops (List.replicate n 0)).levels.length ≤ 1 ∧
        ∀ l ∈ (threeIn.run feedEnv ops (List.replicate n 0)).lists, l.length ≤ 1 := by decide +kernel
    obtain ⟨k1, k2⟩ := key n hl
    refine ⟨k1, fun r => ?_⟩
    rw [GConc.content]
    cases hr : (threeIn.run feedEnv ops (List.replicate n 0)).lists[r]? with
    | none => simp
    | some l => exact k2 l (List.mem_of_getElem? hr)
  exact ⟨hb, C238_hnsw_delete_partial feedEnv ops threeIn 0 rfl ["a"] rfl 1 1 _ hb (by decide)⟩

end Valori.Props
