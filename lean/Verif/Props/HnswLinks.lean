import Verif.Lemmas.HnswLinks
import Verif.Props.Hnsw

/-!
# C145: how many links the HNSW graph has

`m` is the configured number of links per new vector: `random.sample(nodes, min(m, len(nodes)))`.
-/

namespace Valori.Props
open Valori Valori.Spec

variable {σ V M D : Type} [LinearOrder D] {B : Backend σ V M} {okId : Id → Prop} {okM : M → Prop}

/-- **C145, partial.**  If never more than `m` nodes are sampled, then after any history every level
has on average at most `2 m` links per node, so the graph grows linearly with the live vectors. -/
theorem C145_hnsw_links_partial (L : Lawful B okId okM) (env : HnswEnv V D) (m : Nat)
    (hm : ∀ i l nodes, ((env.rnd i).pick l nodes).length ≤ m) (s : σ)
    (live : List (Item V M)) (hs : Holds L s live) (h : List (IxCall V M))
    (hok : Live.HistOk okId okM live h) :
    ∀ d ∈ (hnswAfter env B s h).1.levels,
      (d.map fun e => (links d e.1).length).sum ≤ 2 * m * d.length := by
  have hinv : Hnsw.Inv L (Live.after live h) (hnswAfter env B s h) := hnswAfter_inv env hs hok
  have h0 : ∀ d ∈ (hnswOn env B s).1.levels, Hnsw.Owed m d := by
    obtain ⟨hi, hl, hc⟩ := hs
    obtain ⟨l, s', e, i', c', hnd, -⟩ := L.list hi
    rw [e] at hl
    simp only [Except.ok.injEq] at hl
    subst hl
    exact Hnsw.init_keeps (L := L) (Hnsw.keeps_owed hm) hnd e i'
      (by rw [c']; funext id; exact hc id) (by simp [Hnsw.Owed.empty])
  have hall := (hnswOn_inv env hs).1.run_keeps (Hnsw.keeps_owed hm) h hok h0
  intro d hd
  have := (hall d hd).card (hinv.gr.lev.all d hd).1
  simp only [links_eq]
  simpa [Dict.keys, Function.comp_def] using this

example : ∀ i l nodes, (((exHnsw [1, 2, 0, 1] 2).rnd i).pick l nodes).length ≤ 2 := by
  intro i l nodes; simp [exHnsw]

/-- Nine insertions, `m = 1`: the first vector has eight links. -/
example : let rows := (List.range 9).map fun i => (toString i, i)
    ((hnswAfter (exHnsw [] 1) (memBackend Nat Nat) exMem [.insert 2 rows none]).1.levels.map
      fun d => (links d "0").length) = [8] := by decide

/-- All other nodes of level 0 are linked to `a`, its first node. -/
def Star (a : String) (ls : List Level) : Prop :=
  ∃ d, ls = [d] ∧ d.keys.head? = some a ∧ ∀ n ∈ d.keys, n ≠ a → n ∈ Hnsw.nbrs d a

omit [LinearOrder D] in
theorem keeps_star {env : HnswEnv V D} {m : Nat} (hm : 1 ≤ m)
    (he : ∀ i, (env.rnd i).level = 0 ∧ ∀ l nodes, (env.rnd i).pick l nodes = nodes.take m)
    (a : String) : Hnsw.KeepsInsert env M (Star a) := by
  constructor
  intro live f id v hg hid ⟨d, hd, h1, h2⟩
  obtain ⟨ks, hks⟩ : ∃ ks, d.keys = a :: ks := by
    cases hk : d.keys with
    | nil => rw [hk] at h1; simp at h1
    | cons x ks => rw [hk] at h1; simp only [List.head?_cons, Option.some.injEq] at h1; exact ⟨ks, by rw [h1]⟩
  have hidd : id ∉ d.keys := fun hk => hid ((hg.lev.all d (by rw [hd]; simp)).2 id hk)
  have hgd := (hg.lev.all d (by rw [hd]; simp)).1
  have hkeys := (hgd.insertLevel id ((env.rnd f.draws).pick 0)).2
  rw [if_neg hidd] at hkeys
  refine ⟨Hnsw.insertLevel id ((env.rnd f.draws).pick 0) d, ?_, ?_, ?_⟩
  · simp [Hnsw.insertInternal, (he _).1, hd, Hnsw.pad, Hnsw.onLevels]
  · rw [hkeys, hks]; rfl
  · have hak : (Hnsw.addNode d id).keys = a :: (ks ++ [id]) := by
      rw [Hnsw.addNode_keys, if_neg hidd, hks]; rfl
    have ha : a ≠ id := fun e => hidd (by rw [hks, e]; simp)
    intro n hn hna
    rw [hkeys, List.mem_append, List.mem_singleton] at hn
    simp only [Hnsw.insertLevel, Hnsw.mem_connect, Hnsw.nbrs_addNode]
    rcases hn with hn | rfl
    · exact Or.inl (h2 n hn hna)
    · refine Or.inr (Or.inr ⟨rfl, ha, ?_⟩)
      rw [List.mem_filter, hak, (he _).2]
      obtain ⟨m', rfl⟩ : ∃ m', m = m' + 1 := ⟨m - 1, by omega⟩
      simp

/-- **C145, refuted.**  But no bound holds for a single node: whatever `m ≥ 1`, if the sample happens
to be the oldest nodes each time, the first of `n + 1` inserted vectors has `n` links. -/
theorem C145_hnsw_degree_refuted (L : Lawful B okId okM) (env : HnswEnv V D) (m : Nat) (hm : 1 ≤ m)
    (he : ∀ i, (env.rnd i).level = 0 ∧ ∀ l nodes, (env.rnd i).pick l nodes = nodes.take m)
    (s : σ) (hs : Holds L s ([] : List (Item V M))) (a : String) (v : V) (rows : List (String × V))
    (hok : Live.HistOk okId okM ([] : List (Item V M))
      [.insert 2 [(a, v)] none, .insert 2 rows none]) :
    ∃ d, (hnswAfter env B s [.insert 2 [(a, v)] none, .insert 2 rows none]).1.levels = [d] ∧
      rows.length ≤ (links d a).length := by
  set h : List (IxCall V M) := [.insert 2 [(a, v)] none, .insert 2 rows none] with hh
  have hinv : Hnsw.Inv L (Live.after [] h) (hnswAfter env B s h) := hnswAfter_inv env hs hok
  -- the first insertion
  set c1 : IxCall V M := .insert 2 [(a, v)] none with hc1
  have i0 := (hnswOn_inv env hs).1
  have hlev0 : (hnswOn env B s).1.levels = [[]] := by
    obtain ⟨hi, hl, hc⟩ := hs
    obtain ⟨l, s', e, i', c', hnd, -⟩ := L.list hi
    rw [e] at hl
    simp only [Except.ok.injEq, List.map_nil] at hl
    subst hl
    simp [hnswOn, Hnsw.init, e, Hnsw.loadAll]
  have i1 := (i0.call (env := env) c1 hok.1).1
  set t1 := (Hnsw.call env B (hnswOn env B s) c1).2 with ht1
  have hstar : Star a t1.1.levels := by
    obtain ⟨q1, q2, q3⟩ := hok.1
    obtain ⟨g1, g2, -⟩ := q2 (a, v) (by simp)
    obtain ⟨s1, e1, -, -⟩ := L.store (v := v) (m := none) i0.st g2 g1 (by simp)
    have hin : (hnswOn env B s).1.inited = true := i0.gr.inited
    have hst : t1.1.levels = (Hnsw.insertInternal env a v (hnswOn env B s).1).levels := by
      simp [ht1, hc1, Hnsw.call, Hnsw.insert, hin, Hnsw.insertLoop, rowMeta, e1]
    refine ⟨Hnsw.insertLevel a ((env.rnd (hnswOn env B s).1.draws).pick 0) [], ?_, ?_⟩
    · rw [hst]
      simp [Hnsw.insertInternal, (he _).1, hlev0, Hnsw.pad, Hnsw.onLevels]
    · have hk := (Hnsw.GraphOk.empty.insertLevel a
        ((env.rnd (hnswOn env B s).1.draws).pick 0)).2
      simp only [Dict.keys, List.map_nil, List.not_mem_nil, if_false, List.nil_append] at hk
      simp only [Dict.keys, hk, List.head?_cons, true_and, List.mem_singleton]
      exact fun n hn hne => absurd hn hne
  -- the other insertions
  have hstar2 : Star a (hnswAfter env B s h).1.levels := by
    have hf : hnswAfter env B s h = (Hnsw.call env B t1 (.insert 2 rows none)).2 := rfl
    rw [hf]
    obtain ⟨q1, q2, q3⟩ := hok.2.1
    have hin : t1.1.inited = true := i1.gr.inited
    have := Hnsw.insertLoop_keeps (L := L) (keeps_star (M := M) hm he a) none (by simp) rows 0 _
      t1.1 t1.2 i1 q1 q2 hstar
    simp only [Hnsw.call, Hnsw.insert, hin]
    cases hx : Hnsw.insertLoop env B none 0 rows t1.1 t1.2 with
    | mk r t =>
      rw [hx] at this
      cases r <;> exact this
  obtain ⟨d, hd, h1, h2⟩ := hstar2
  refine ⟨d, hd, ?_⟩
  have hz := hinv.gr.lev.zero
  have hg := (hinv.gr.lev.all d (by rw [hd]; simp)).1
  rw [hd] at hz
  simp only [List.getElem?_cons_zero, Option.map_some, Option.some.injEq] at hz
  have hlen : d.keys.length = rows.length + 1 := by
    rw [hz]
    simp [hh, hc1, Live.after, Live.next, Live.items, Live.idsOf, Flat.items_length, Nat.add_comm]
  rw [links_eq]
  have hsub : d.keys.erase a ⊆ Hnsw.nbrs d a := by
    intro n hn
    obtain ⟨k1, k2⟩ := hg.keys.mem_erase_iff.1 hn
    exact h2 n k2 k1
  have := ((hg.keys.erase a).subperm hsub).length_le
  have ha : a ∈ d.keys := List.mem_of_mem_head? h1
  rw [List.length_erase_of_mem ha, hlen] at this
  omega

example : Live.HistOk (fun _ => True) (fun _ => True) ([] : List (Item Nat Nat))
      [.insert 2 [("a", 1)] none, .insert 2 [("b", 2), ("c", 3)] none] := by
  simp [Live.HistOk, Live.CallOk, Live.next, Live.items, Live.has]

end Valori.Props
