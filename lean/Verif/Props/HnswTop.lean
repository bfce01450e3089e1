import Verif.Props.Hnsw
import Verif.Lemmas.HnswTop

/-!
# Property C221: when an HNSW search finds nothing
-/

namespace Valori.Props
open Valori Spec

variable {σ V M D : Type} [LinearOrder D] {B : Backend σ V M} {okId : String → Prop} {okM : M → Prop}

/-- The levels drawn for `n` vectors, in the order of their insertion; at most 10. -/
def drawnLevels (env : HnswEnv V D) (n : Nat) : List Nat :=
  (List.range n).map fun i => min (env.rnd i).level 10

/-- One vector alone has the highest level, and that level is above 0. -/
def LoneTop (ls : List Nat) : Prop := ∃ l, 0 < l ∧ ls.count l = 1 ∧ ∀ x ∈ ls, x ≤ l

omit [LinearOrder D] in
theorem topOf_spec (env : HnswEnv V D) : ∀ n, (∀ x ∈ drawnLevels env n, x ≤ Hnsw.topOf env n) ∧
    (n ≠ 0 → Hnsw.topOf env n ∈ drawnLevels env n)
  | 0 => ⟨by simp [drawnLevels], fun h => absurd rfl h⟩
  | n + 1 => by
    obtain ⟨h1, h2⟩ := topOf_spec env n
    have hs : drawnLevels env (n + 1) = drawnLevels env n ++ [Hnsw.drawn env n] := by
      simp [drawnLevels, List.range_succ, Hnsw.drawn]
    rw [hs]
    show (∀ x ∈ _, x ≤ max (Hnsw.topOf env n) (Hnsw.drawn env n)) ∧
      (_ → max (Hnsw.topOf env n) (Hnsw.drawn env n) ∈ _)
    constructor
    · intro x hx
      rcases List.mem_append.1 hx with hx | hx
      · exact (h1 x hx).trans (le_max_left _ _)
      · rw [List.mem_singleton.1 hx]; exact le_max_right _ _
    · intro _
      by_cases h0 : n = 0
      · subst h0
        rw [show Hnsw.topOf env 0 = 0 from rfl, Nat.zero_max]
        simp
      · rcases le_total (Hnsw.drawn env n) (Hnsw.topOf env n) with h | h <;>
          [rw [max_eq_left h]; rw [max_eq_right h]]
        · exact List.mem_append_left _ (h2 h0)
        · simp

omit [LinearOrder D] in
/-- The number of nodes of the top level is the number of times the highest level was drawn. -/
theorem top_count (env : HnswEnv V D) (n : Nat) :
    ((List.range n).countP fun i => Hnsw.topOf env n ≤ Hnsw.drawn env i) =
      (drawnLevels env n).count (Hnsw.topOf env n) := by
  rw [List.count, drawnLevels, List.countP_map]
  apply List.countP_congr
  intro i hi
  have := (topOf_spec env n).1 (min (env.rnd i).level 10) (List.mem_map.2 ⟨i, hi, rfl⟩)
  simp only [Hnsw.drawn, Function.comp, beq_iff_eq]
  exact ⟨fun h => le_antisymm this (of_decide_eq_true h), fun h => decide_eq_true h.ge⟩

omit [LinearOrder D] in
theorem loneTop_iff (env : HnswEnv V D) (n : Nat) (hn : n ≠ 0) :
    LoneTop (drawnLevels env n) ↔
      0 < Hnsw.topOf env n ∧ (drawnLevels env n).count (Hnsw.topOf env n) = 1 := by
  obtain ⟨h1, h2⟩ := topOf_spec env n
  constructor
  · rintro ⟨l, hl, hc, hm⟩
    have hmem : l ∈ drawnLevels env n := List.count_pos_iff.1 (by omega)
    have : l = Hnsw.topOf env n := le_antisymm (h1 l hmem) (hm _ (h2 hn))
    exact this ▸ ⟨hl, hc⟩
  · rintro ⟨hl, hc⟩
    exact ⟨_, hl, hc, h1⟩

/-- **C221** After any history, deletions included: if the highest level of the graph is above 0 and has
at most one node, no search finds anything. -/
theorem C221_top_alone (L : Lawful B okId okM) (env : HnswEnv V D) (s : σ) (live : List (Item V M))
    (hs : Holds L s live) (h : List (IxCall V M)) (hok : Live.HistOk okId okM live h) (q : V) (k : Int)
    (hits : List (Hit D M)) (ds : List Level) (d : Level) :
    let t := hnswAfter env B s h
    t.1.levels = ds ++ [d] → ds ≠ [] → d.length ≤ 1 → t.1.statMaxLevel = some ds.length →
    (Hnsw.search env B 1 q k t.1 t.2).1 = .ok hits → hits = [] := by
  intro t hlev hds hd hm heq
  have hinv : Hnsw.Inv L (Live.after live h) t := hnswAfter_inv env hs hok
  have hm0 : t.1.maxLevel = ds.length := by
    have hi : t.1.inited = true := hinv.gr.inited
    simpa [Hnsw.statMaxLevel, hi] using hm
  by_cases hl : Live.after live h = []
  · obtain ⟨r, s', e, -, -, h2, -, -⟩ := hinv.search (env := env) q k
    rw [show Hnsw.search env B 1 q k t.1 t.2 = _ from e, h2 hl] at heq
    cases heq
    rfl
  · obtain ⟨r, s', e, -, h1, -, -, -⟩ := hinv.search (env := env) q k
    rw [show Hnsw.search env B 1 q k t.1 t.2 = _ from e] at heq
    obtain ⟨c, hc, rfl⟩ := h1 hits heq hl
    have hcur : min t.1.maxLevel (t.1.levels.length - 1) = ds.length := by
      rw [hm0, hlev]; simp
    have hlevd : Hnsw.lev t.1 ds.length = d := by simp [Hnsw.lev, hlev]
    have hnil : c = [] := by
      refine Hnsw.candidates_lone (f := t.1) hc (by rw [hcur]; exact List.length_pos_iff.2 hds) ?_
      rw [hcur, hlevd]
      intro n
      have hg : Hnsw.GraphOk d := (hinv.gr.lev.all d (by rw [hlev]; simp)).1
      by_contra hne
      obtain ⟨x, hx⟩ := List.exists_mem_of_ne_nil _ hne
      have hxk := hg.nbr_key hx
      have hnk := Hnsw.key_of_nbrs hx
      have hxn : x = n := by
        rcases d with _ | ⟨a, _ | ⟨b, d⟩⟩
        · cases hxk
        · simp only [Dict.keys, List.map_cons, List.map_nil, List.mem_singleton] at hxk hnk
          rw [hxk, hnk]
        · simp only [List.length_cons] at hd; omega
      exact hg.irr n (hxn ▸ hx)
    subst hnil
    have hlen := (sliceTo_sublist (pySortBy Prod.snd ([] : List (String × D)))
      (min k ((Live.after live h).length : Int))).length_le
    rw [(Valori.pySortBy_perm Prod.snd ([] : List (String × D))).length_eq, List.length_nil] at hlen
    rw [List.eq_nil_of_length_eq_zero (Nat.le_zero.1 hlen)]
    rfl

/-- **C221** While nothing is deleted, with `m ≥ 2` and `ef_search ≥ 1`, a search with `k ≥ 1` finds
nothing exactly if there is nothing, or if the highest level drawn for the vectors is above 0 and was drawn
for one vector only. -/
theorem C221_nothing_iff (L : Lawful B okId okM) (env : HnswEnv V D) (m : Nat) (hm : 2 ≤ m)
    (hsample : ∀ i l, ∀ nodes : List String, nodes.Nodup → ((env.rnd i).pick l nodes).Nodup ∧
      (∀ x ∈ (env.rnd i).pick l nodes, x ∈ nodes) ∧
      ((env.rnd i).pick l nodes).length = min m nodes.length)
    (hef : 1 ≤ env.efSearch) (s : σ) (live : List (Item V M)) (hs : Holds L s live)
    (h : List (IxCall V M)) (hok : Live.HistOk okId okM live h) (hd : ∀ ids, .delete ids ∉ h) (q : V)
    (k : Int) (hk : 1 ≤ k) (hits : List (Hit D M)) :
    let t := hnswAfter env B s h
    (Hnsw.search env B 1 q k t.1 t.2).1 = .ok hits →
    (hits = [] ↔ Live.after live h = [] ∨ LoneTop (drawnLevels env (Live.after live h).length)) := by
  intro t heq
  have hinv : Hnsw.Inv L (Live.after live h) t := hnswAfter_inv env hs hok
  have hall : Hnsw.Shape env t.1 ∧ Hnsw.Linked t.1 := by
    have hbase : Hnsw.Shape env (hnswOn env B s).1 ∧ Hnsw.Linked (hnswOn env B s).1 := by
      obtain ⟨hi, hl, hc⟩ := hs
      obtain ⟨l, s', e, i', c', hnd, -⟩ := L.list hi
      rw [e] at hl
      simp only [Except.ok.injEq] at hl
      subst hl
      have hc' : L.content s' = Live.find live := by rw [c']; funext id; exact hc id
      refine ⟨Hnsw.init_grow (L := L) (Hnsw.keeps_shape env) hnd e i' hc' ?_,
        Hnsw.init_grow (L := L) (Hnsw.keeps_linked hm hsample) hnd e i' hc' ?_⟩
      · have hz : ∀ l, Hnsw.lev { (Hnsw.new : Hnsw V) with inited := true, levels := [[]] } l = [] := by
          intro l; cases l <;> rfl
        refine ⟨rfl, rfl, rfl, fun l => by rw [hz]; rfl, fun l n hn => ?_⟩
        rw [hz] at hn; cases hn
      · intro l h2
        have hz : Hnsw.lev { (Hnsw.new : Hnsw V) with inited := true, levels := [[]] } l = [] := by
          cases l <;> rfl
        rw [hz] at h2
        simp at h2
    exact ⟨(hnswOn_inv env hs).1.run_grow (Hnsw.keeps_shape env) h hok hd hbase.1,
      (hnswOn_inv env hs).1.run_grow (Hnsw.keeps_linked hm hsample) h hok hd hbase.2⟩
  obtain ⟨hsh, hlk⟩ := hall
  by_cases hl : Live.after live h = []
  · obtain ⟨r, s', e, -, -, h2, -, -⟩ := hinv.search (env := env) q k
    rw [show Hnsw.search env B 1 q k t.1 t.2 = _ from e, h2 hl] at heq
    cases heq
    exact ⟨fun _ => Or.inl hl, fun _ => rfl⟩
  · obtain ⟨r, s', e, -, h1, -, -, -⟩ := hinv.search (env := env) q k
    have heq0 := heq
    rw [show Hnsw.search env B 1 q k t.1 t.2 = _ from e] at heq
    obtain ⟨c, hc, he⟩ := h1 hits heq hl
    have hn : (Live.after live h).length = t.1.draws := by rw [hsh.draws, hinv.gr.cnt]
    have hn0 : t.1.draws ≠ 0 := by
      rw [← hn]; exact fun h => hl (List.eq_nil_of_length_eq_zero h)
    have hsz : (Hnsw.lev t.1 t.1.maxLevel).length =
        (drawnLevels env t.1.draws).count (Hnsw.topOf env t.1.draws) := by
      rw [hsh.size, hsh.top, top_count]
    have hpos : 0 < (Hnsw.lev t.1 t.1.maxLevel).length := by
      rw [hsz]; exact List.count_pos_iff.2 ((topOf_spec env _).2 hn0)
    have hhits : hits = [] ↔ c = [] := by
      rw [he]
      constructor
      · intro h0
        by_contra hcn
        have hlen := congrArg List.length h0
        rw [sliceTo_nonneg _ (by omega)] at hlen
        simp only [attachMd, List.length_map, List.length_take, List.length_nil,
          (Valori.pySortBy_perm Prod.snd c).length_eq] at hlen
        have := List.length_pos_iff.2 hcn
        have := List.length_pos_iff.2 hl
        omega
      · rintro rfl
        have hlen := (sliceTo_sublist (pySortBy Prod.snd ([] : List (String × D)))
          (min k ((Live.after live h).length : Int))).length_le
        rw [(Valori.pySortBy_perm Prod.snd ([] : List (String × D))).length_eq, List.length_nil] at hlen
        rw [List.eq_nil_of_length_eq_zero (Nat.le_zero.1 hlen)]
        rfl
    rw [hn, loneTop_iff env _ hn0, ← hsz, ← hsh.top, hhits]
    constructor
    · intro hcn
      refine Or.inr ?_
      by_contra hcon
      refine Hnsw.candidates_found hinv.gr hsh hlk hef hc (List.length_pos_iff.1 hpos) (fun h0 => ?_) hcn
      have : ¬ (Hnsw.lev t.1 t.1.maxLevel).length = 1 := fun h1 => hcon ⟨h0, h1⟩
      omega
    · rintro (h0 | ⟨h0, h1⟩)
      · exact absurd h0 hl
      · have hlv : t.1.levels = t.1.levels.dropLast ++ [Hnsw.lev t.1 t.1.maxLevel] := by
          have hne := hinv.gr.levels_ne
          conv_lhs => rw [← List.dropLast_append_getLast hne]
          congr 2
          rw [List.getLast_eq_getElem]
          have hlt : t.1.maxLevel < t.1.levels.length := by rw [hsh.len]; omega
          simp only [Hnsw.lev, List.getElem?_eq_getElem hlt, Option.getD_some, hsh.len,
            Nat.add_sub_cancel]
        have hdl : t.1.levels.dropLast.length = t.1.maxLevel := by
          rw [List.length_dropLast, hsh.len, Nat.add_sub_cancel]
        have := C221_top_alone L env s live hs h hok q k hits _ _ hlv
          (List.length_pos_iff.1 (by rw [hdl]; exact h0)) h1.le
          (by rw [hdl]; exact if_pos hinv.gr.inited) heq0
        exact hhits.1 this

/-- **C221** An index with one vector can be searched exactly if its level was drawn as 0. -/
theorem C221_single (L : Lawful B okId okM) (env : HnswEnv V D) (m : Nat) (hm : 2 ≤ m)
    (hsample : ∀ i l, ∀ nodes : List String, nodes.Nodup → ((env.rnd i).pick l nodes).Nodup ∧
      (∀ x ∈ (env.rnd i).pick l nodes, x ∈ nodes) ∧
      ((env.rnd i).pick l nodes).length = min m nodes.length)
    (hef : 1 ≤ env.efSearch) (s : σ) (hs : Holds L s ([] : List (Item V M))) (id : String) (v : V)
    (hid : id ≠ "" ∧ okId id) (q : V) (k : Int) (hk : 1 ≤ k) (hits : List (Hit D M)) :
    let t := hnswAfter env B s [.insert 2 [(id, v)] none]
    (Hnsw.search env B 1 q k t.1 t.2).1 = .ok hits → (hits = [] ↔ (env.rnd 0).level ≠ 0) := by
  intro t heq
  have := C221_nothing_iff L env m hm hsample hef s [] hs [.insert 2 [(id, v)] none]
    ⟨⟨by simp, by simp [hid, Live.has], by simp⟩, trivial⟩ (by simp) q k hk hits heq
  rw [this]
  have hlen : (Live.after ([] : List (Item V M)) [.insert 2 [(id, v)] none]).length = 1 := by
    simp [Live.after, Live.next, Live.items]
  have hne : Live.after ([] : List (Item V M)) [.insert 2 [(id, v)] none] ≠ [] := by
    intro h; rw [h] at hlen; cases hlen
  rw [hlen, loneTop_iff env 1 (by decide)]
  simp only [hne, false_or, drawnLevels, Hnsw.topOf, Hnsw.drawn, List.range_one, List.map_cons, List.map_nil,
    Nat.zero_max, List.count_singleton_self, and_true]
  omega

/-! Levels 2, 0, 2: something is found. Levels 1, 0, 2: nothing is, though three vectors are there. -/

theorem exHnsw_samples (ls : List Nat) (m : Nat) : ∀ i l, ∀ nodes : List String, nodes.Nodup →
    (((exHnsw ls m).rnd i).pick l nodes).Nodup ∧
    (∀ x ∈ ((exHnsw ls m).rnd i).pick l nodes, x ∈ nodes) ∧
    (((exHnsw ls m).rnd i).pick l nodes).length = min m nodes.length := by
  intro i l nodes hn
  simp only [exHnsw]
  exact ⟨hn.sublist (List.take_sublist _ _), fun x hx => List.mem_of_mem_take hx, List.length_take⟩

example : let h : List (IxCall Nat Nat) := [.insert 2 [("a", 10), ("b", 20), ("c", 30)] none]
    let t := hnswAfter (exHnsw [2, 0, 2] 2) (memBackend Nat Nat) exMem h
    let t' := hnswAfter (exHnsw [1, 0, 2] 2) (memBackend Nat Nat) exMem h
    (Hnsw.search (exHnsw [2, 0, 2] 2) (memBackend Nat Nat) 1 10 1 t.1 t.2).1 = .ok [⟨"a", 0, none⟩] ∧
    drawnLevels (exHnsw [2, 0, 2] 2) 3 = [2, 0, 2] ∧
    (Hnsw.search (exHnsw [1, 0, 2] 2) (memBackend Nat Nat) 1 10 1 t'.1 t'.2).1 = .ok [] ∧
    drawnLevels (exHnsw [1, 0, 2] 2) 3 = [1, 0, 2] := by decide

example (hits : List (Hit Nat Nat)) :
    let h : List (IxCall Nat Nat) := [.insert 2 [("a", 10), ("b", 20), ("c", 30)] none, .update "b" 25 none]
    let t := hnswAfter (exHnsw [1, 0, 2] 2) (memBackend Nat Nat) exMem h
    (Hnsw.search (exHnsw [1, 0, 2] 2) (memBackend Nat Nat) 1 10 1 t.1 t.2).1 = .ok hits →
    (hits = [] ↔ Live.after [] h = [] ∨ LoneTop (drawnLevels (exHnsw [1, 0, 2] 2) 3)) :=
  C221_nothing_iff memLawful (exHnsw [1, 0, 2] 2) 2 le_rfl (exHnsw_samples _ _) (by decide) exMem []
    exMem_holds _ (by simp [Live.HistOk, Live.CallOk, Live.next, Live.items, Live.has]) (by simp) 10 1
    le_rfl hits

example : LoneTop [1, 0, 2] ∧ ¬ LoneTop [2, 0, 2] ∧ ¬ LoneTop [0, 0] :=
  ⟨⟨2, by decide⟩, by rintro ⟨l, h1, h2, h3⟩; have := h3 2 (by simp); simp [List.count_cons] at h2; grind,
    by rintro ⟨l, h1, h2, -⟩; simp [List.count_cons] at h2; grind⟩

end Valori.Props
