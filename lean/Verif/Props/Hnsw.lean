import Verif.Lemmas.Hnsw
import Verif.Props.Flat

/-!
# Properties C15, C24 - C27, C82, C83: the HNSW index

Over every lawful storage, every (partial) distance function into a linear order, and every
outcome of the random choices (`HnswEnv.rnd` is an arbitrary stream).
-/

namespace Valori.Props
open Valori Valori.Spec

variable {σ V M D : Type} [LinearOrder D] {B : Backend σ V M} {okId : Id → Prop} {okM : M → Prop}

/-- A new HNSW index, initialised on storage state `s`. -/
def hnswOn (env : HnswEnv V D) (B : Backend σ V M) (s : σ) : Hnsw V × σ :=
  (Hnsw.init env B Hnsw.new s).2

/-- The state after a history on a new index. -/
def hnswAfter (env : HnswEnv V D) (B : Backend σ V M) (s : σ) (h : List (IxCall V M)) :
    Hnsw V × σ := (Hnsw.run env B (hnswOn env B s) h).2

/-- The neighbours of a node on a level. -/
def links (d : List (String × List String)) (n : String) : List String :=
  match d.find? (fun e => e.1 = n) with | none => [] | some e => e.2

theorem links_eq (d : Level) (n : String) : links d n = Hnsw.nbrs d n := by
  induction d with
  | nil => rfl
  | cons e d ih =>
    obtain ⟨x, l⟩ := e
    simp only [links, Hnsw.nbrs, List.find?_cons, Dict.get?] at ih ⊢
    by_cases h : x = n
    · simp [h]
    · simp only [h, decide_false, if_false]; exact ih

omit [LinearOrder D] in
theorem hnswOn_inv {L : Lawful B okId okM} (env : HnswEnv V D) {s : σ} {live : List (Item V M)}
    (hs : Holds L s live) : Hnsw.Inv L live (hnswOn env B s) ∧
      ∀ n, Hnsw.SampleAll env n → live.length ≤ n →
        Hnsw.Clique (Live.idsOf live) (Hnsw.base (hnswOn env B s).1) := by
  obtain ⟨hi, hl, hc⟩ := hs
  obtain ⟨l, s', e, i', c', hnd, -⟩ := L.list hi
  rw [e] at hl
  simp only [Except.ok.injEq] at hl
  subst hl
  obtain ⟨t, e2, g1, g2⟩ := Hnsw.init_inv (L := L) env hnd e i' (by rw [c']; funext id; exact hc id)
  have : hnswOn env B s = t := by simp [hnswOn, e2]
  rw [this]
  exact ⟨g1, g2⟩

theorem hnswAfter_inv {L : Lawful B okId okM} (env : HnswEnv V D) {s : σ}
    {live : List (Item V M)} (hs : Holds L s live) {h : List (IxCall V M)}
    (hok : Live.HistOk okId okM live h) : Hnsw.Inv L (Live.after live h) (hnswAfter env B s h) :=
  (hnswOn_inv env hs).1.run h hok

/-! Concrete data: natural numbers, absolute difference, 1000 has another dimension.  Levels are
taken from a list; all nodes, or only the first `m`, are sampled. -/

def exHnsw (levels : List Nat) (m : Nat) : HnswEnv Nat Nat where
  efSearch := 50
  dist a b := if a = 1000 ∨ b = 1000 then .error .value else .ok ((a - b) + (b - a))
  rnd i := ⟨levels.getD i 0, fun _ l => l.take m⟩

/-- Insert, update, delete, insert. -/
def exHnswHist : List (IxCall Nat Nat) :=
  [.insert 2 [("a", 10), ("b", 20), ("c", 30)] (some [some 1, none]), .update "b" 25 (some 7),
   .delete ["c"], .insert 2 [("d", 29)] none]

theorem exHnswHist_ok : Live.HistOk (fun _ => True) (fun _ => True) [] exHnswHist := by
  simp [exHnswHist, Live.HistOk, Live.CallOk, Live.next, Live.removeAll, Live.remove, Live.items,
    Live.has, Live.replace]

/-! ## C24 -/

/-- **C24** After any history and any random outcome the graph is well-formed: on every level
links are symmetric, not to oneself, not doubled, between nodes of the level; nodes are live;
level 0 has exactly the live ids. -/
theorem C24_hnsw_graph (L : Lawful B okId okM) (env : HnswEnv V D) (s : σ)
    (live : List (Item V M)) (hs : Holds L s live) (h : List (IxCall V M))
    (hok : Live.HistOk okId okM live h) :
    let f := (hnswAfter env B s h).1
    (∀ d ∈ f.levels, (d.map Prod.fst).Nodup ∧
      (∀ a b, b ∈ links d a → a ∈ links d b ∧ b ∈ d.map Prod.fst ∧ a ≠ b) ∧
      (∀ a, (links d a).Nodup) ∧
      ∀ a ∈ d.map Prod.fst, a ∈ (Live.after live h).map Item.id) ∧
    ∃ d0 rest, f.levels = d0 :: rest ∧ d0.map Prod.fst = (Live.after live h).map Item.id := by
  intro f
  have hinv : Hnsw.Inv L (Live.after live h) (hnswAfter env B s h) := hnswAfter_inv env hs hok
  refine ⟨?_, ?_⟩
  · intro d hd
    obtain ⟨g, hk⟩ := hinv.gr.lev.all d hd
    simp only [links_eq]
    refine ⟨g.keys, ?_, g.nd, hk⟩
    intro a b hab
    refine ⟨g.sym _ _ hab, g.nbr_key hab, ?_⟩
    rintro rfl
    exact g.irr a hab
  · have hz := hinv.gr.lev.zero
    have : (hnswAfter env B s h).1.levels = f.levels := rfl
    rw [this] at hz
    cases hl : f.levels with
    | nil => rw [hl] at hz; simp at hz
    | cons d ds => rw [hl] at hz; exact ⟨d, ds, rfl, Option.some.inj hz⟩

/-- A graph with three levels, links, after a delete. -/
example : (hnswAfter (exHnsw [1, 2, 0, 1] 2) (memBackend Nat Nat) exMem exHnswHist).1.levels =
    [[("a", ["b", "d"]), ("b", ["a", "d"]), ("d", ["a", "b"])],
     [("a", ["b", "d"]), ("b", ["a", "d"]), ("d", ["a", "b"])], [("b", [])]] := by decide

/-! ## C25 -/

/-- **C25** In every reachable state a search that returns gives at most `min k n` results,
ordered by distance, each a live id with the true distance and current metadata; and it does
return when the distance to every live vector is defined. -/
theorem C25_hnsw_sound (L : Lawful B okId okM) (env : HnswEnv V D) (s : σ)
    (live : List (Item V M)) (hs : Holds L s live) (h : List (IxCall V M))
    (hok : Live.HistOk okId okM live h) (q : V) (k : Int) (hk0 : 0 ≤ k) :
    let t := hnswAfter env B s h
    (∀ hits, (Hnsw.search env B 1 q k t.1 t.2).1 = .ok hits →
      hits.length ≤ min k.toNat (Live.after live h).length ∧
      hits.Pairwise (fun a b => a.dist ≤ b.dist) ∧
      ∀ x ∈ hits, ∃ y ∈ Live.after live h, y.id = x.id ∧ env.dist q y.vec = .ok x.dist ∧
        x.md = y.md) ∧
    ((∀ y ∈ Live.after live h, ∃ d, env.dist q y.vec = .ok d) →
      ∃ hits, (Hnsw.search env B 1 q k t.1 t.2).1 = .ok hits) := by
  intro t
  have hinv : Hnsw.Inv L (Live.after live h) t := hnswAfter_inv env hs hok
  obtain ⟨r, s', e, -, h1, h2, -, h4⟩ := hinv.search (env := env) q k
  rw [show Hnsw.search env B 1 q k t.1 t.2 = _ from e]
  refine ⟨?_, ?_⟩
  · intro hits hh
    by_cases hl : Live.after live h = []
    · rw [h2 hl] at hh
      cases hh
      simp
    · obtain ⟨c, hc, rfl⟩ := h1 hits hh hl
      have hsort := Valori.pySortBy_sorted (Prod.snd) c
      rw [sliceTo_nonneg _ (by omega)]
      refine ⟨?_, ?_, ?_⟩
      · simp only [attachMd, List.length_map, List.length_take]
        omega
      · simp only [attachMd, List.pairwise_map]
        exact hsort.sublist (List.take_sublist _ _)
      · intro x hx
        simp only [attachMd, List.mem_map] at hx
        obtain ⟨y, hy, rfl⟩ := hx
        have := (Valori.pySortBy_perm Prod.snd c).mem_iff.1 (List.mem_of_mem_take hy)
        obtain ⟨z, z1, z2, z3⟩ := Hnsw.candidates_spec hinv.gr.vec hc y this
        refine ⟨z, z1, z2, z3, ?_⟩
        simp only
        rw [← z2, Live.find_mem hinv.gr.nd z1]; rfl
  · intro hd
    obtain ⟨c, hc⟩ := Hnsw.candidates_total hinv.gr hd
    exact h4 c hc

example : (Hnsw.search (exHnsw [0, 0, 0, 0] 2) (memBackend Nat Nat) 1 28 2
    (hnswAfter (exHnsw [0, 0, 0, 0] 2) (memBackend Nat Nat) exMem exHnswHist).1
    (hnswAfter (exHnsw [0, 0, 0, 0] 2) (memBackend Nat Nat) exMem exHnswHist).2).1 =
    .ok [⟨"d", 1, none⟩, ⟨"b", 3, some 7⟩] := by decide

/-! ## C15 (HNSW) -/

/-- **C15** (HNSW) After a delete, no search returns the id until it is inserted again. -/
theorem C15_hnsw_deleted_gone (L : Lawful B okId okM) (env : HnswEnv V D) (s : σ)
    (live : List (Item V M)) (hs : Holds L s live) (h h' : List (IxCall V M)) (ids : List String)
    (id : String) (hid : id ∈ ids)
    (hok : Live.HistOk okId okM live (h ++ .delete ids :: h')) (hq : ∀ c ∈ h', ¬ inserts id c)
    (q : V) (k : Int) (hk0 : 0 ≤ k) (hits : List (Hit D M)) :
    let t := hnswAfter env B s (h ++ .delete ids :: h')
    (Hnsw.search env B 1 q k t.1 t.2).1 = .ok hits → id ∉ hits.map Hit.id := by
  intro t heq hm
  obtain ⟨-, -, hsound⟩ := (C25_hnsw_sound L env s live hs _ hok q k hk0).1 hits heq
  obtain ⟨x, hx, rfl⟩ := List.mem_map.1 hm
  obtain ⟨y, hy, he, -, -⟩ := hsound x hx
  have : Live.after live (h ++ .delete ids :: h') =
      Live.after ((Live.removeAll (Live.after live h) ids).2) h' := by
    simp [Live.after, List.foldl_append, Live.next]
  rw [this] at hy
  exact after_not_mem _ _ (fun hm => (removeAll_sub _ _ _ hm).2 hid) h' hq
    (List.mem_map.2 ⟨y, hy, he⟩)

/-! ## C83, C26, C27 -/

/-- **C83** While `max_level` is 0, a search that returns is exact among the oldest live vector
and its neighbours on level 0. -/
theorem C83_hnsw_level0_exact (L : Lawful B okId okM) (env : HnswEnv V D) (s : σ)
    (live : List (Item V M)) (hs : Holds L s live) (h : List (IxCall V M))
    (hok : Live.HistOk okId okM live h) (q : V) (k : Int) (hk0 : 0 ≤ k)
    (dq : V → D) (hq : ∀ v d, env.dist q v = .ok d → dq v = d) (hits : List (Hit D M))
    (x : Item V M) (rest : List (Item V M)) (hl : Live.after live h = x :: rest)
    (d0 : Level) (ds : List Level) :
    let t := hnswAfter env B s h
    t.1.statMaxLevel = some 0 → t.1.levels = d0 :: ds →
    (Hnsw.search env B 1 q k t.1 t.2).1 = .ok hits →
    IsTopK dq ((Live.after live h).filter fun y => y.id = x.id ∨ y.id ∈ links d0 x.id)
      k.toNat hits := by
  intro t hm hlev heq
  have hinv : Hnsw.Inv L (Live.after live h) t := hnswAfter_inv env hs hok
  have hm0 : t.1.maxLevel = 0 := by
    have hi : t.1.inited = true := hinv.gr.inited
    simpa [Hnsw.statMaxLevel, hi] using hm
  obtain ⟨r, s', e, -, h1, -, -, -⟩ := hinv.search (env := env) q k
  rw [show Hnsw.search env B 1 q k t.1 t.2 = _ from e] at heq
  obtain ⟨c, hc, rfl⟩ := h1 hits heq (by rw [hl]; simp)
  have hids := Hnsw.candidates_flat hinv.gr hm0 hc hl
  rw [hlev] at hids
  simp only [List.getElem?_cons_zero, Option.getD_some, ← links_eq] at hids
  have hg : Hnsw.GraphOk d0 := (hinv.gr.lev.all d0 (by rw [hlev]; simp)).1
  have hcn : (c.map Prod.fst).Nodup := by
    rw [hids, List.nodup_cons, links_eq]
    exact ⟨hg.irr _, hg.nd _⟩
  have hcand := Hnsw.candidates_spec hinv.gr.vec hc
  set sub := (Live.after live h).filter fun y => y.id = x.id ∨ y.id ∈ links d0 x.id with hsub
  have hsubn : (Live.idsOf sub).Nodup := by
    have : (Live.idsOf sub).Sublist (Live.idsOf (Live.after live h)) :=
      List.Sublist.map _ List.filter_sublist
    exact hinv.gr.nd.sublist this
  have hperm : c.Perm (sub.map fun y => (y.id, dq y.vec)) := by
    have hn1 : c.Nodup := List.Nodup.of_map _ hcn
    have hn2 : (sub.map fun y => (y.id, dq y.vec)).Nodup := by
      apply List.Nodup.of_map Prod.fst
      rw [List.map_map]
      exact hsubn
    rw [List.perm_ext_iff_of_nodup hn1 hn2]
    rintro ⟨i, d⟩
    constructor
    · intro hi
      obtain ⟨y, y1, y2, y3⟩ := hcand _ hi
      have : i ∈ c.map Prod.fst := List.mem_map.2 ⟨_, hi, rfl⟩
      rw [hids, List.mem_cons] at this
      simp only at y2 y3
      refine List.mem_map.2 ⟨y, ?_, by rw [y2, hq _ _ y3]⟩
      simp only [hsub, List.mem_filter, decide_eq_true_eq]
      exact ⟨y1, by rw [y2]; exact this⟩
    · intro hi
      obtain ⟨y, hy, he⟩ := List.mem_map.1 hi
      injection he with h1 h2
      subst h1 h2
      simp only [hsub, List.mem_filter, decide_eq_true_eq] at hy
      have : y.id ∈ c.map Prod.fst := by rw [hids, List.mem_cons]; exact hy.2
      obtain ⟨⟨j, d⟩, hj, hj'⟩ := List.mem_map.1 this
      simp only at hj'
      subst hj'
      obtain ⟨z, z1, z2, z3⟩ := hcand _ hj
      simp only at z2 z3
      have := Live.eq_of_id hinv.gr.nd z1 hy.1 z2
      subst this
      rw [hq _ _ z3]; exact hj
  have hle : sub.length ≤ (Live.after live h).length := List.length_filter_le _ _
  have hlen : (pySortBy Prod.snd c).length = sub.length := by
    rw [(Valori.pySortBy_perm Prod.snd c).length_eq, hperm.length_eq]; simp
  have htake : sliceTo (pySortBy Prod.snd c) (min k ((Live.after live h).length : Int)) =
      (pySortBy Prod.snd c).take k.toNat := by
    rw [sliceTo_nonneg _ (by omega)]
    by_cases hle' : k ≤ ((Live.after live h).length : Int)
    · rw [min_eq_left hle']
    · rw [min_eq_right (by omega), List.take_of_length_le (by omega),
        List.take_of_length_le (by omega)]
  rw [htake]
  exact isTopK_sub hinv.gr.nd hsubn (fun y hy => (List.mem_filter.1 hy).1) dq
    ((Valori.pySortBy_perm Prod.snd c).trans hperm) (Valori.pySortBy_sorted Prod.snd c) k.toNat

/-- **C83** While `max_level` is 0 and the index never held more vectors than `m` (so that
`random.sample` takes every node), a search that returns is exact over all live vectors. -/
theorem C83_hnsw_small_exact (L : Lawful B okId okM) (env : HnswEnv V D) (m : Nat)
    (hsample : ∀ i l, ∀ nodes : List String, nodes.Nodup → nodes.length ≤ m → ∀ n ∈ nodes,
      n ∈ (env.rnd i).pick l nodes) (s : σ)
    (live : List (Item V M)) (hs : Holds L s live) (h : List (IxCall V M))
    (hok : Live.HistOk okId okM live h)
    (hsmall : ∀ p, p <+: h → (Live.after live p).length ≤ m) (q : V) (k : Int) (hk0 : 0 ≤ k)
    (dq : V → D) (hq : ∀ v d, env.dist q v = .ok d → dq v = d) (hits : List (Hit D M)) :
    let t := hnswAfter env B s h
    t.1.statMaxLevel = some 0 →
    (Hnsw.search env B 1 q k t.1 t.2).1 = .ok hits → IsTopK dq (Live.after live h) k.toNat hits := by
  intro t hm heq
  have hinv : Hnsw.Inv L (Live.after live h) t := hnswAfter_inv env hs hok
  cases hl : Live.after live h with
  | nil =>
    obtain ⟨r, s', e, -, -, h2, -, -⟩ := hinv.search (env := env) q k
    rw [show Hnsw.search env B 1 q k t.1 t.2 = _ from e, h2 hl] at heq
    cases heq
    exact ⟨by simp, by simp, by simp, by simp, by simp⟩
  | cons x rest =>
    have h0 := hnswOn_inv env hs
    have hcl := h0.1.run_clique hsample h hok hsmall
      (h0.2 m hsample (hsmall [] (by simp)))
    cases hlev : t.1.levels with
    | nil => exact absurd hlev hinv.gr.levels_ne
    | cons d0 ds =>
      have htop := C83_hnsw_level0_exact L env s live hs h hok q k hk0 dq hq hits x rest hl d0 ds hm
        hlev heq
      have hb : Hnsw.base t.1 = d0 := by simp [Hnsw.base, hlev]
      rw [show Hnsw.base (Hnsw.run env B (hnswOn env B s) h).2.1 = d0 from hb] at hcl
      have : ((Live.after live h).filter fun y => y.id = x.id ∨ y.id ∈ links d0 x.id) =
          Live.after live h := by
        rw [List.filter_eq_self]
        intro y hy
        simp only [decide_eq_true_eq, links_eq]
        by_cases e : y.id = x.id
        · exact Or.inl e
        · exact Or.inr (hcl _ (List.mem_map.2 ⟨y, hy, rfl⟩) _
            (List.mem_map.2 ⟨x, by rw [hl]; simp, rfl⟩) e)
      rw [this, hl] at htop
      exact htop

/-- A sample of one node that is always the new node itself. -/
def exHnswLone : HnswEnv Nat Nat :=
  { exHnsw [] 1 with rnd := fun _ => ⟨0, fun _ l => l.drop (l.length - 1)⟩ }

/-- With a sample of three the answer is exact, with a sample of one it need not be. -/
example : let t := hnswAfter (exHnsw [] 3) (memBackend Nat Nat) exMem exHnswHist
    let t' := hnswAfter exHnswLone (memBackend Nat Nat) exMem exHnswHist
    t.1.statMaxLevel = some 0 ∧
    (Hnsw.search (exHnsw [] 3) (memBackend Nat Nat) 1 28 3 t.1 t.2).1 =
      .ok [⟨"d", 1, none⟩, ⟨"b", 3, some 7⟩, ⟨"a", 18, some 1⟩] ∧
    t'.1.statMaxLevel = some 0 ∧
    (Hnsw.search exHnswLone (memBackend Nat Nat) 1 28 3 t'.1 t'.2).1 =
      .ok [⟨"a", 18, some 1⟩] := by decide

example : ∀ i l, ∀ nodes : List String, nodes.Nodup → nodes.length ≤ 3 → ∀ n ∈ nodes,
    n ∈ ((exHnsw [] 3).rnd i).pick l nodes := by
  intro i l nodes _ h n hn
  simpa [exHnsw, List.take_of_length_le h] using hn

/-- **C26** (partial: only while `max_level` is 0) A search with `k ≥ 1` that returns on a
non-empty index finds something. -/
theorem C26_hnsw_nonempty_partial (L : Lawful B okId okM) (env : HnswEnv V D) (s : σ)
    (live : List (Item V M)) (hs : Holds L s live) (h : List (IxCall V M))
    (hok : Live.HistOk okId okM live h) (q : V) (k : Int) (hk1 : 1 ≤ k) (hits : List (Hit D M))
    (hne : Live.after live h ≠ []) :
    let t := hnswAfter env B s h
    t.1.statMaxLevel = some 0 →
    (Hnsw.search env B 1 q k t.1 t.2).1 = .ok hits → hits ≠ [] := by
  intro t hm heq
  have hinv : Hnsw.Inv L (Live.after live h) t := hnswAfter_inv env hs hok
  cases hl : Live.after live h with
  | nil => exact absurd hl hne
  | cons x rest =>
    have hm0 : t.1.maxLevel = 0 := by
      have hi : t.1.inited = true := hinv.gr.inited
      simpa [Hnsw.statMaxLevel, hi] using hm
    obtain ⟨r, s', e, -, h1, -, -, -⟩ := hinv.search (env := env) q k
    rw [show Hnsw.search env B 1 q k t.1 t.2 = _ from e] at heq
    obtain ⟨c, hc, rfl⟩ := h1 hits heq hne
    have hids := Hnsw.candidates_flat hinv.gr hm0 hc hl
    have hlen : 1 ≤ c.length := by
      have := congrArg List.length hids; simp at this; omega
    rw [sliceTo_nonneg _ (by omega)]
    intro he
    have := congrArg List.length he
    simp only [attachMd, List.length_map, List.length_take, List.length_nil,
      (Valori.pySortBy_perm Prod.snd c).length_eq, hl, List.length_cons] at this
    omega

/-- **C26** (refuted) With one vector drawn on level 1, a search finds nothing. -/
theorem C26_hnsw_nonempty_refuted :
    let h : List (IxCall Nat Nat) := [.insert 2 [("a", 10)] none]
    let t := hnswAfter (exHnsw [1] 16) (memBackend Nat Nat) exMem h
    t.1.statCount = some 1 ∧
    (Hnsw.search (exHnsw [1] 16) (memBackend Nat Nat) 1 10 1 t.1 t.2).1 = .ok [] := by decide

/-- **C26** (refuted) After the only node of the top level is deleted, a search finds nothing
although vectors remain. -/
theorem C26_hnsw_deleted_top_refuted :
    let h : List (IxCall Nat Nat) :=
      [.insert 2 [("a", 10), ("b", 20), ("c", 30)] none, .delete ["b"]]
    let t := hnswAfter (exHnsw [0, 1, 0] 16) (memBackend Nat Nat) exMem h
    t.1.statCount = some 2 ∧
    (Hnsw.search (exHnsw [0, 1, 0] 16) (memBackend Nat Nat) 1 10 1 t.1 t.2).1 = .ok [] := by
  decide

/-- **C27** (partial: only while `max_level` is 0) The ids returned are pairwise different. -/
theorem C27_hnsw_distinct_partial (L : Lawful B okId okM) (env : HnswEnv V D) (s : σ)
    (live : List (Item V M)) (hs : Holds L s live) (h : List (IxCall V M))
    (hok : Live.HistOk okId okM live h) (q : V) (k : Int) (hk0 : 0 ≤ k) (hits : List (Hit D M)) :
    let t := hnswAfter env B s h
    t.1.statMaxLevel = some 0 →
    (Hnsw.search env B 1 q k t.1 t.2).1 = .ok hits → (hits.map Hit.id).Nodup := by
  intro t hm heq
  have hinv : Hnsw.Inv L (Live.after live h) t := hnswAfter_inv env hs hok
  cases hl : Live.after live h with
  | nil =>
    obtain ⟨r, s', e, -, -, h2, -, -⟩ := hinv.search (env := env) q k
    rw [show Hnsw.search env B 1 q k t.1 t.2 = _ from e, h2 hl] at heq
    cases heq
    simp
  | cons x rest =>
    cases hits with
    | nil => simp
    | cons a as =>
      cases hlev : t.1.levels with
      | nil => exact absurd hlev hinv.gr.levels_ne
      | cons d0 ds =>
        exact (C83_hnsw_level0_exact L env s live hs h hok q k hk0
          (fun v => match env.dist q v with | .ok d => d | .error _ => a.dist)
          (by intro v d hv; simp [hv]) (a :: as) x rest hl d0 ds hm hlev heq).nodup

/-- **C27** (refuted) Two vectors on level 1: one of them is returned twice, the other not. -/
theorem C27_hnsw_distinct_refuted :
    let h : List (IxCall Nat Nat) := [.insert 2 [("a", 10), ("b", 20), ("c", 30), ("d", 40)] none]
    let t := hnswAfter (exHnsw [1, 1, 1, 0] 16) (memBackend Nat Nat) exMem h
    (Hnsw.search (exHnsw [1, 1, 1, 0] 16) (memBackend Nat Nat) 1 20 4 t.1 t.2).1 =
      .ok [⟨"b", 0, none⟩, ⟨"b", 0, none⟩, ⟨"c", 10, none⟩, ⟨"a", 10, none⟩] := by decide

/-! ## C82 -/

/-- **C82** Replies to insert, delete and update in every history are those of the abstract list
of live items; at the end the reported count, the storage and a retrieve of any id agree with
that list. -/
theorem C82_hnsw_history (L : Lawful B okId okM) (env : HnswEnv V D) (s : σ)
    (live : List (Item V M)) (hs : Holds L s live) (h : List (IxCall V M))
    (hok : Live.HistOk okId okM live h) :
    let t := hnswAfter env B s h
    (∀ c, Live.CallOk okId okM (Live.after live h) c → (∀ q n k, c ≠ .search n q k) →
      (Hnsw.call env B t c).1 = Live.reply (fun _ _ => false) (Live.after live h) c) ∧
    t.1.statCount = some (Live.after live h).length ∧
    (∀ id, okId id → (B.retrieve t.2 id).1 = .ok (Live.find (Live.after live h) id)) ∧
    ∃ l, (B.list t.2 none).1 = .ok l ∧ ∀ id, id ∈ l ↔ id ∈ (Live.after live h).map Item.id := by
  intro t
  have hinv : Hnsw.Inv L (Live.after live h) t := hnswAfter_inv env hs hok
  refine ⟨fun c hc hns => (hinv.call (env := env) c hc).2.1 hns, ?_, ?_, ?_⟩
  · simp [Hnsw.statCount, hinv.gr.inited, hinv.gr.cnt]
  · intro id hid
    obtain ⟨s', e, -, -⟩ := L.retrieve hinv.st hid
    rw [e, hinv.cont]
  · obtain ⟨l, s', e, -, -, -, hm⟩ := L.list hinv.st
    refine ⟨l, by rw [e], ?_⟩
    intro id
    rw [hm, hinv.cont, Live.find_isSome, Live.has_iff]

example : (Hnsw.run (exHnsw [1, 2, 0, 1] 2) (memBackend Nat Nat)
    (hnswOn (exHnsw [1, 2, 0, 1] 2) (memBackend Nat Nat) exMem) exHnswHist).1 =
    [.ids ["a", "b", "c"], .flag true, .flag true, .ids ["d"]] ∧
    (hnswAfter (exHnsw [1, 2, 0, 1] 2) (memBackend Nat Nat) exMem exHnswHist).1.statCount =
      some 3 := by decide

end Valori.Props
