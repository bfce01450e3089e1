import Verif.Lemmas.HnswDrawn
import Verif.Props.Hnsw

/-!
# What an HNSW search finds (C26, C27, C231)

The levels drawn decide whether a search finds anything and how often it returns the same vector.
-/

namespace Valori.Props
open Valori.Spec

variable {σ V M D : Type} [LinearOrder D] {B : Backend σ V M} {okId : Id → Prop} {okM : M → Prop}

/-- The levels drawn in a history; the code caps them at 10. -/
def drawnBy (env : HnswEnv V D) (live : List (Item V M)) (h : List (IxCall V M)) : Drawn :=
  Drawn.after (fun i => min (env.rnd i).level 10) live h

theorem hnswAfter_lev {L : Lawful B okId okM} (env : HnswEnv V D) {s : σ} {live : List (Item V M)}
    (hs : Holds L s live) {h : List (IxCall V M)} (hok : Live.HistOk okId okM live h) :
    Hnsw.Dr.Lev env (drawnBy env live h) (hnswAfter env B s h).1 ∧
      ∀ n, Hnsw.SampleAll env n → (∀ p, p <+: h → (Live.after live p).length ≤ n) →
        Hnsw.Dr.Full (hnswAfter env B s h).1 := by
  have h0 := (hnswOn_inv env hs).1
  obtain ⟨hi, hl, hc⟩ := hs
  obtain ⟨l, s', e, i', c', hnd, -⟩ := L.list hi
  rw [e] at hl
  simp only [Except.ok.injEq] at hl
  subst hl
  obtain ⟨t, e2, g1, g2⟩ := Hnsw.Dr.init_lev (L := L) env hnd e i' (by rw [c']; funext id; exact hc id)
  have ht : hnswOn env B s = t := by simp [hnswOn, e2]
  rw [ht] at h0
  obtain ⟨r1, r2⟩ := Hnsw.Dr.Lev.run (env := env) h0 g1 h hok
  rw [← ht] at r1 r2
  refine ⟨r1, fun n hp hn => r2 n hp hn ?_⟩
  rw [ht]
  exact g2 n hp (by simpa [Live.after] using hn [] (by simp))

/-- **C26** (refuted) Whatever the history and whatever else was drawn: if the highest level drawn so far is
not 0 and at most one live vector stands on it, no search finds anything. -/
theorem C26_hnsw_lone_top_refuted (L : Lawful B okId okM) (env : HnswEnv V D) (s : σ)
    (live : List (Item V M)) (hs : Holds L s live) (h : List (IxCall V M))
    (hok : Live.HistOk okId okM live h) (ht : 1 ≤ (drawnBy env live h).top)
    (h1 : ((drawnBy env live h).on (drawnBy env live h).top).length ≤ 1) (q : V) (k : Int) :
    let t := hnswAfter env B s h
    (∀ hits, (Hnsw.search env B 1 q k t.1 t.2).1 = .ok hits → hits = []) ∧
    ((∀ x ∈ Live.after live h, ∃ d, env.dist q x.vec = .ok d) →
      (Hnsw.search env B 1 q k t.1 t.2).1 = .ok []) := by
  intro t
  have hinv : Hnsw.Inv L (Live.after live h) t := hnswAfter_inv env hs hok
  have hlev := (hnswAfter_lev (B := B) env hs hok).1
  have key : ∀ hits, (Hnsw.search env B 1 q k t.1 t.2).1 = .ok hits → hits = [] := by
    intro hits heq
    obtain ⟨r, s', e, -, a1, a2, -, -⟩ := hinv.search (env := env) q k
    rw [show Hnsw.search env B 1 q k t.1 t.2 = _ from e] at heq
    by_cases hl : Live.after live h = []
    · rw [a2 hl] at heq; exact (Except.ok.inj heq).symm
    · obtain ⟨c, hc, rfl⟩ := a1 hits heq hl
      rw [Hnsw.Dr.candidates_lone hlev ht h1 hinv.gr.vec hc]
      simp [sliceTo, pySortBy, attachMd]
  refine ⟨key, fun hd => ?_⟩
  obtain ⟨r, s', e, -, -, -, -, a4⟩ := hinv.search (env := env) q k
  obtain ⟨c, hc⟩ := Hnsw.candidates_total hinv.gr hd
  obtain ⟨hits, rfl⟩ := a4 c hc
  have he : (Hnsw.search env B 1 q k t.1 t.2).1 = .ok hits := by
    rw [show Hnsw.search env B 1 q k t.1 t.2 = _ from e]
  rw [he, key hits he]

/-- **C26** (refuted) In particular a database that holds one vector finds it only while the highest level
drawn is 0. -/
theorem C26_hnsw_single_refuted (L : Lawful B okId okM) (env : HnswEnv V D) (s : σ)
    (live : List (Item V M)) (hs : Holds L s live) (h : List (IxCall V M))
    (hok : Live.HistOk okId okM live h) (x : Item V M) (hx : Live.after live h = [x])
    (hm : (hnswAfter env B s h).1.statMaxLevel ≠ some 0) (q : V) (k : Int) :
    let t := hnswAfter env B s h
    ∀ hits, (Hnsw.search env B 1 q k t.1 t.2).1 = .ok hits → hits = [] := by
  have hinv : Hnsw.Inv L (Live.after live h) (hnswAfter env B s h) := hnswAfter_inv env hs hok
  have hlev := (hnswAfter_lev (B := B) env hs hok).1
  refine (C26_hnsw_lone_top_refuted L env s live hs h hok ?_ ?_ q k).1
  · simp only [Hnsw.statMaxLevel, hinv.gr.inited, if_true, hlev.top, ne_eq, Option.some.injEq] at hm
    omega
  · have h0 := hlev.on_live hinv.gr
    have : ((drawnBy env live h).on (drawnBy env live h).top).length ≤ ((drawnBy env live h).on 0).length := by
      simp only [Drawn.on, List.length_map]
      refine List.Sublist.length_le (List.monotone_filter_right _ ?_)
      intro p _
      simp
    rw [h0, hx] at this
    simpa [Live.idsOf] using this

/-- One vector drawn on level 3 meets the hypotheses, and so do three of which one stands alone on top. -/
example : (drawnBy (exHnsw [3] 16) ([] : List (Item Nat Nat)) [.insert 2 [("a", 10)] none]).top = 3 ∧
    (let g := drawnBy (exHnsw [1, 0, 2, 1] 16) ([] : List (Item Nat Nat))
        [.insert 2 [("a", 10), ("b", 20), ("c", 30)] none, .insert 2 [("d", 40)] none]
     g.top = 2 ∧ g.on 2 = ["c"] ∧ g.on 1 = ["a", "c", "d"]) := by decide

/-! ## Small databases -/

theorem sum_replicate_nat (n a : Nat) : (List.replicate n a).sum = n * a := by
  induction n with
  | zero => simp
  | succ n ih => rw [List.replicate_succ, List.sum_cons, ih, Nat.succ_mul, Nat.add_comm]

theorem topCopies_sub {live : List (Item V M)} (hn : (Live.idsOf live).Nodup) {dq : V → D}
    {c : List (Id × D)} {n : Nat}
    (hc : c.Perm ((List.replicate n (live.map fun x => (x.id, dq x.vec))).flatten)) (k : Int)
    (hk : 0 ≤ k) :
    IsTopCopies dq live n k.toNat (attachMd (Live.find live)
      (sliceTo (pySortBy Prod.snd c) (min k (live.length : Int)))) := by
  rw [sliceTo_nonneg _ (by omega)]
  set p := pySortBy Prod.snd c with hp
  have hpp : p.Perm ((List.replicate n (live.map fun x => (x.id, dq x.vec))).flatten) :=
    (Valori.pySortBy_perm Prod.snd c).trans hc
  have hps : p.Pairwise fun a b => a.2 ≤ b.2 := Valori.pySortBy_sorted Prod.snd c
  set j := (min k (live.length : Int)).toNat with hj
  have hid : (attachMd (V := V) (M := M) (Live.find live) (p.take j)).map Hit.id =
      (p.map Prod.fst).take j := by
    rw [attachMd, List.map_map, List.map_take]; rfl
  have hmem : ∀ y ∈ p, ∃ x ∈ live, x.id = y.1 ∧ y.2 = dq x.vec := by
    intro y hy
    have := hpp.mem_iff.1 hy
    rw [List.mem_flatten] at this
    obtain ⟨l, hl, hyl⟩ := this
    obtain ⟨-, rfl⟩ := List.mem_replicate.1 hl
    obtain ⟨x, hx, rfl⟩ := List.mem_map.1 hyl
    exact ⟨x, hx, rfl, rfl⟩
  have hcount : ∀ id, (p.map Prod.fst).count id = n * (Live.idsOf live).count id := by
    intro id
    have h1 : ((List.replicate n (live.map fun x => (x.id, dq x.vec))).flatten).map Prod.fst =
        (List.replicate n (Live.idsOf live)).flatten := by
      rw [List.map_flatten, List.map_replicate, List.map_map]; rfl
    rw [(hpp.map Prod.fst).count_eq, h1, List.count_flatten, List.map_replicate, sum_replicate_nat]
  refine ⟨?_, ?_, ?_, ?_, ?_⟩
  · simp only [attachMd, List.length_map, List.length_take, hpp.length_eq, List.length_flatten,
      List.map_replicate, sum_replicate_nat]
    split
    · rename_i h0; subst h0; simp
    · rename_i h0
      have : live.length ≤ n * live.length := Nat.le_mul_of_pos_left _ (by omega)
      omega
  · intro id
    rw [hid]
    refine ((List.take_sublist _ _).count_le _).trans ?_
    rw [hcount]
    have := List.nodup_iff_count_le_one.1 hn id
    calc n * (Live.idsOf live).count id ≤ n * 1 := Nat.mul_le_mul_left _ this
      _ = n := Nat.mul_one n
  · simp only [attachMd, List.pairwise_map]
    exact hps.sublist (List.take_sublist _ _)
  · intro h hh
    obtain ⟨y, hy, rfl⟩ := List.mem_map.1 hh
    obtain ⟨x, x1, x2, x3⟩ := hmem y (List.mem_of_mem_take hy)
    refine ⟨x, x1, x2, x3, ?_⟩
    simp only
    rw [← x2, Live.find_mem hn x1]
    rfl
  · intro x hx hlt h hh
    obtain ⟨y, hy, rfl⟩ := List.mem_map.1 hh
    rw [hid] at hlt
    have htot : (p.map Prod.fst).count x.id = n := by
      rw [hcount, List.count_eq_one_of_mem hn (List.mem_map.2 ⟨x, hx, rfl⟩), Nat.mul_one]
    rw [← List.take_append_drop j (p.map Prod.fst), List.count_append] at htot
    have hpos : 0 < ((p.map Prod.fst).drop j).count x.id := by omega
    rw [List.count_pos_iff, ← List.map_drop] at hpos
    obtain ⟨z, hz, hze⟩ := List.mem_map.1 hpos
    obtain ⟨w, w1, w2, w3⟩ := hmem z (List.mem_of_mem_drop hz)
    have hw : w = x := Live.eq_of_id hn w1 hx (w2.trans hze)
    subst hw
    rw [← List.take_append_drop j p, List.pairwise_append] at hps
    have := hps.2.2 y hy z hz
    rw [w3] at this
    exact this

/-- **C231** While the index never held more vectors than `m` (so that `random.sample` takes every node), a
search that returns gives the nearest vectors with each vector counted `copies` times, a number fixed by
the levels drawn. -/
theorem C231_small (L : Lawful B okId okM) (env : HnswEnv V D) (m : Nat)
    (hsample : ∀ i l, ∀ nodes : List String, nodes.Nodup → nodes.length ≤ m → ∀ n ∈ nodes,
      n ∈ (env.rnd i).pick l nodes) (hef : 0 ≤ env.efSearch) (s : σ)
    (live : List (Item V M)) (hs : Holds L s live) (h : List (IxCall V M))
    (hok : Live.HistOk okId okM live h)
    (hsmall : ∀ p, p <+: h → (Live.after live p).length ≤ m) (q : V) (k : Int) (hk0 : 0 ≤ k)
    (dq : V → D) (hq : ∀ v d, env.dist q v = .ok d → dq v = d) (hits : List (Hit D M)) :
    let t := hnswAfter env B s h
    (Hnsw.search env B 1 q k t.1 t.2).1 = .ok hits →
    IsTopCopies dq (Live.after live h) ((drawnBy env live h).copies env.efSearch.toNat) k.toNat hits := by
  intro t heq
  have hinv : Hnsw.Inv L (Live.after live h) t := hnswAfter_inv env hs hok
  obtain ⟨hlev, hfull⟩ := hnswAfter_lev (B := B) env hs hok
  obtain ⟨r, s', e, -, a1, a2, -, -⟩ := hinv.search (env := env) q k
  rw [show Hnsw.search env B 1 q k t.1 t.2 = _ from e] at heq
  by_cases hl : Live.after live h = []
  · rw [a2 hl] at heq
    obtain rfl := Except.ok.inj heq
    rw [hl]
    exact ⟨by simp, by simp, by simp, by simp, by simp⟩
  · obtain ⟨c, hc, rfl⟩ := a1 hits heq hl
    exact topCopies_sub hinv.gr.nd
      (Hnsw.Dr.candidates_copies hef hlev (hfull m hsample hsmall) hinv.gr hq hc) k hk0

theorem walk_zero (ef : Nat) (g : Drawn) : ∀ l, g.walk ef l 0 = 0 := by
  intro l
  induction l with
  | zero => rfl
  | succ l ih => simp [Drawn.walk, ih]

theorem on_length_mono (g : Drawn) {i j : Nat} (h : i ≤ j) : (g.on j).length ≤ (g.on i).length := by
  simp only [Drawn.on, List.length_map]
  refine List.Sublist.length_le (List.monotone_filter_right _ ?_)
  intro p hp
  simp only [decide_eq_true_eq] at hp ⊢
  omega

theorem walk_pos {ef : Nat} (hef : 1 ≤ ef) (g : Drawn) : ∀ l c, 1 ≤ c → (1 ≤ l → 2 ≤ (g.on l).length) →
    1 ≤ g.walk ef l c := by
  intro l
  induction l with
  | zero => intro c hc _; exact hc
  | succ l ih =>
    intro c hc h2
    simp only [Drawn.walk]
    have h2' := h2 (by omega)
    refine ih _ ?_ (fun _ => h2'.trans (on_length_mono g (Nat.le_succ l)))
    have : 1 ≤ c * ((g.on (l + 1)).length - 1) := Nat.mul_pos hc (by omega)
    omega

/-- When the search sees anything. -/
theorem copies_pos_iff (ef : Nat) (g : Drawn) :
    1 ≤ g.copies ef ↔ (g.top = 0 ∧ g.nodes ≠ []) ∨ (1 ≤ g.top ∧ 1 ≤ ef ∧ 2 ≤ (g.on g.top).length) := by
  simp only [Drawn.copies]
  rcases ht : g.top with _ | T
  · have h0 : (g.on 0).length = g.nodes.length := by simp [Drawn.on]
    simp only [Drawn.walk, h0]
    rcases g.nodes with _ | ⟨a, l⟩ <;> simp
  · constructor
    · intro h
      refine .inr ⟨by omega, ?_, ?_⟩
      · by_contra h0
        have : ef = 0 := by omega
        subst this
        simp [Drawn.walk, walk_zero] at h
      · by_contra h2
        have : min 1 (g.on (T + 1)).length * ((g.on (T + 1)).length - 1) = 0 := by
          have : (g.on (T + 1)).length - 1 = 0 := by omega
          rw [this, Nat.mul_zero]
        simp only [Drawn.walk, this, Nat.min_zero, walk_zero] at h
        omega
    · rintro (⟨h0, -⟩ | ⟨-, h1, h2⟩)
      · omega
      exact walk_pos h1 g _ _ (by omega) (fun _ => h2)

/-- **C26** While the index never held more vectors than `m`: a search with `k ≥ 1` on a non-empty index finds
something exactly if the highest level drawn is 0 or two live vectors stand on it. -/
theorem C26_hnsw_small_iff (L : Lawful B okId okM) (env : HnswEnv V D) (m : Nat)
    (hsample : ∀ i l, ∀ nodes : List String, nodes.Nodup → nodes.length ≤ m → ∀ n ∈ nodes,
      n ∈ (env.rnd i).pick l nodes) (hef : 1 ≤ env.efSearch) (s : σ)
    (live : List (Item V M)) (hs : Holds L s live) (h : List (IxCall V M))
    (hok : Live.HistOk okId okM live h)
    (hsmall : ∀ p, p <+: h → (Live.after live p).length ≤ m) (hne : Live.after live h ≠ []) (q : V)
    (k : Int) (hk : 1 ≤ k) (dq : V → D) (hq : ∀ v d, env.dist q v = .ok d → dq v = d) (hits : List (Hit D M)) :
    let t := hnswAfter env B s h
    let g := drawnBy env live h
    (Hnsw.search env B 1 q k t.1 t.2).1 = .ok hits →
    (hits ≠ [] ↔ g.top = 0 ∨ 2 ≤ (g.on g.top).length) := by
  intro t g heq
  have hinv : Hnsw.Inv L (Live.after live h) t := hnswAfter_inv env hs hok
  obtain ⟨hlev, hfull⟩ := hnswAfter_lev (B := B) env hs hok
  have hnodes : g.nodes ≠ [] := by
    intro h0
    have := hlev.on_live hinv.gr
    rw [show (drawnBy env live h).on 0 = [] by
      rw [Hnsw.Dr.on_zero]; exact congrArg (List.map Prod.fst) h0] at this
    exact hne (by simpa [Live.idsOf] using this.symm)
  have hlen := (C231_small L env m hsample (by omega) s live hs h hok hsmall q k (by omega) dq hq hits
    heq).length
  have hpos : 0 < (Live.after live h).length := List.length_pos_iff.2 hne
  have hcop := copies_pos_iff env.efSearch.toNat g
  rw [← List.length_pos_iff, hlen]
  split
  · rename_i h0
    have hno : ¬ 1 ≤ g.copies env.efSearch.toNat := by
      rw [show g.copies env.efSearch.toNat = 0 from h0]; omega
    rw [hcop] at hno
    simp only [Nat.lt_irrefl, false_iff]
    rintro (h1 | h1)
    · exact hno (.inl ⟨h1, hnodes⟩)
    · by_cases ht : g.top = 0
      · exact hno (.inl ⟨ht, hnodes⟩)
      · exact hno (.inr ⟨by omega, by omega, h1⟩)
  · rename_i h0
    have hyes : 1 ≤ g.copies env.efSearch.toNat := Nat.pos_of_ne_zero h0
    rw [hcop] at hyes
    refine ⟨fun _ => ?_, fun _ => by omega⟩
    rcases hyes with ⟨h1, -⟩ | ⟨-, -, h1⟩
    · exact .inl h1
    · exact .inr h1

/-- **C27** While the index never held more vectors than `m`, and no two live vectors are equally far from the
query: a search for two or more results repeats a vector exactly if the number of copies is at least 2. -/
theorem C27_hnsw_small_iff (L : Lawful B okId okM) (env : HnswEnv V D) (m : Nat)
    (hsample : ∀ i l, ∀ nodes : List String, nodes.Nodup → nodes.length ≤ m → ∀ n ∈ nodes,
      n ∈ (env.rnd i).pick l nodes) (hef : 0 ≤ env.efSearch) (s : σ)
    (live : List (Item V M)) (hs : Holds L s live) (h : List (IxCall V M))
    (hok : Live.HistOk okId okM live h)
    (hsmall : ∀ p, p <+: h → (Live.after live p).length ≤ m) (h2 : 2 ≤ (Live.after live h).length) (q : V)
    (k : Int) (hk : 2 ≤ k) (dq : V → D) (hq : ∀ v d, env.dist q v = .ok d → dq v = d)
    (hties : ∀ x ∈ Live.after live h, ∀ y ∈ Live.after live h, dq x.vec = dq y.vec → x.id = y.id)
    (hits : List (Hit D M)) :
    let t := hnswAfter env B s h
    (Hnsw.search env B 1 q k t.1 t.2).1 = .ok hits →
    ((hits.map Hit.id).Nodup ↔ (drawnBy env live h).copies env.efSearch.toNat ≤ 1) := by
  intro t heq
  have hT := C231_small L env m hsample hef s live hs h hok hsmall q k (by omega) dq hq hits heq
  constructor
  · intro hnd
    by_contra hgt
    have hlen := hT.length
    rw [if_neg (by omega)] at hlen
    match hits, hlen with
    | [], hlen => simp only [List.length_nil] at hlen; omega
    | [_], hlen => simp only [List.length_cons, List.length_nil] at hlen; omega
    | a :: b :: rest, _ =>
      obtain ⟨x, x1, x2, x3, -⟩ := hT.sound a (by simp)
      obtain ⟨y, y1, y2, y3, -⟩ := hT.sound b (by simp)
      have hc : ((a :: b :: rest).map Hit.id).count x.id = 1 :=
        List.count_eq_one_of_mem hnd (by simp [x2])
      have hle := hT.best x x1 (by rw [hc]; omega) b (by simp)
      have hsa : a.dist ≤ b.dist := (List.pairwise_cons.1 hT.sorted).1 b (by simp)
      have : dq x.vec = dq y.vec := by
        rw [← x3, ← y3]
        exact le_antisymm hsa (by rw [x3]; exact hle)
      have hid := hties x x1 y y1 this
      rw [x2, y2] at hid
      simp [hid] at hnd
  · intro hle
    exact List.nodup_iff_count_le_one.2 fun id => (hT.atMost id).trans hle

/-- The number of copies where at most level 1 was drawn. -/
theorem C231_copies (ef : Nat) (g : Drawn) :
    (g.top = 0 → g.nodes ≠ [] → g.copies ef = 1) ∧
    (g.top = 1 → g.copies ef = min ef ((g.on 1).length - 1)) := by
  constructor
  · intro h0 hn
    have := List.length_pos_iff.2 hn
    simp only [Drawn.copies, h0, Drawn.walk, Drawn.on, Nat.zero_le, decide_true, List.filter_true,
      List.length_map]
    omega
  · intro h1
    simp only [Drawn.copies, h1, Drawn.walk]
    rcases hn : (g.on 1).length with _ | n
    · simp
    · rw [show min 1 (n + 1) = 1 by omega, Nat.one_mul]

/-- Four vectors, three of them on level 1: every vector is seen twice, and the four results are two vectors.
With two vectors on level 1 the answer is exact, with one nothing is found. -/
example : let f := fun lv : List Nat =>
      let t := hnswAfter (exHnsw lv 4) (memBackend Nat Nat) exMem
        [.insert 2 [("a", 10), ("b", 20), ("c", 30), ("d", 40)] none]
      ((drawnBy (exHnsw lv 4) ([] : List (Item Nat Nat))
          [.insert 2 [("a", 10), ("b", 20), ("c", 30), ("d", 40)] none]).copies 50,
        match (Hnsw.search (exHnsw lv 4) (memBackend Nat Nat) 1 28 4 t.1 t.2).1 with
        | .ok hits => hits.map Hit.id
        | .error _ => ["error"])
    f [1, 0, 1, 1] = (2, ["c", "c", "b", "b"]) ∧ f [1, 0, 1, 0] = (1, ["c", "b", "d", "a"]) ∧
      f [0, 0, 0, 1] = (0, []) := by decide +kernel

example : ∀ i l, ∀ nodes : List String, nodes.Nodup → nodes.length ≤ 4 → ∀ n ∈ nodes,
    n ∈ ((exHnsw [1, 0, 1, 1] 4).rnd i).pick l nodes := by
  intro i l nodes _ h n hn
  simpa [exHnsw, List.take_of_length_le h] using hn

end Valori.Props
