import Verif.Lemmas.Hnsw

/-! Which nodes an HNSW graph has on which level while nothing is deleted, and where a search gets. -/

namespace Valori
open Spec (Item Hit IxCall IxReply)
open Spec

variable {σ V M D : Type} {B : Backend σ V M} {okId : Id → Prop} {okM : M → Prop}

namespace Hnsw
variable {L : Lawful B okId okM} {live : List (Item V M)}

/-! ## Predicates of the index kept by every call but delete -/

/-- `P` survives insertions of fresh ids and changes of the vectors. -/
structure KeepsGrow (env : HnswEnv V D) (M : Type) (P : Hnsw V → Prop) : Prop where
  insert : ∀ {live : List (Item V M)} {f : Hnsw V} {id : Id} (v : V), Gr live f →
    id ∉ Live.idsOf live → P f → P (insertInternal env id v f)
  vec : ∀ {f : Hnsw V} (w : Dict Id V), P f → P { f with vectors := w }

variable {P : Hnsw V → Prop}

theorem insertLoop_grow {env : HnswEnv V D} (hP : KeepsGrow env M P) (mds : Option (List (Option M)))
    (hm : ∀ x : List (Option M), mds = some x → ∀ m, some m ∈ x → okM m)
    (rows : List (Id × V)) : ∀ (i : Nat) (live : List (Item V M)) (f : Hnsw V) (s : σ),
    Inv L live (f, s) → (rows.map Prod.fst).Nodup →
    (∀ r ∈ rows, r.1 ≠ "" ∧ okId r.1 ∧ Live.has live r.1 = false) → P f →
    P (insertLoop env B mds i rows f s).2.1 := by
  induction rows with
  | nil => intro i live f s h _ _ hp; exact hp
  | cons r rows ih =>
    obtain ⟨id, v⟩ := r
    intro i live f s h hnd hr hp
    obtain ⟨h1, h2, h3⟩ := hr (id, v) (by simp)
    simp only [List.map_cons, List.nodup_cons] at hnd
    obtain ⟨s1, e1, i1, c1⟩ := L.store (v := v) (m := Live.mdAt mds i) h.st h2 h1
      (fun x hx => Flat.mdAt_ok hm i x hx)
    have h3' := Live.has_false_iff.1 h3
    have hI : Inv L (live ++ [⟨id, v, Live.mdAt mds i⟩]) (insertInternal env id v f, s1) :=
      ⟨h.gr.insertInternal env h3' v _, i1, by
        simp only at c1 ⊢
        rw [c1, Live.find_append_single h3', show L.content s = Live.find live from h.cont]⟩
    have := ih (i + 1) _ _ s1 hI hnd.2 (by
      intro r hr'
      obtain ⟨g1, g2, g3⟩ := hr r (by simp [hr'])
      refine ⟨g1, g2, ?_⟩
      rw [Live.has_false_iff] at g3 ⊢
      simp only [Live.idsOf, List.map_append, List.map_cons, List.map_nil, List.mem_append,
        List.mem_singleton, not_or]
      exact ⟨g3, fun e => hnd.1 (e ▸ List.mem_map.2 ⟨r, hr', rfl⟩)⟩)
      (hP.insert v h.gr h3' hp)
    simp only [insertLoop]
    simp only [Live.mdAt_eq_rowMeta, e1]
    cases hx : insertLoop env B mds (i + 1) rows (insertInternal env id v f) s1 with
    | mk r t =>
      rw [hx] at this
      cases r <;> exact this

theorem loadAll_grow {env : HnswEnv V D} (hP : KeepsGrow env M P) {all : List (Item V M)}
    (hn : (Live.idsOf all).Nodup) (todo : List (Item V M)) :
    ∀ (done : List (Item V M)) (f : Hnsw V) (s : σ), all = done ++ todo → Gr done f → L.inv s →
    L.content s = Live.find all → P f →
    P (loadAll env B (Live.idsOf todo) f s).2.1 := by
  induction todo with
  | nil => intro done f s ha h hs hc hp; exact hp
  | cons x todo ih =>
    intro done f s ha h hs hc hp
    have hx : x ∈ all := by rw [ha]; simp
    have hf : L.content s x.id = some (x.vec, x.md) := by rw [hc]; exact Live.find_mem hn hx
    obtain ⟨s1, e1, i1, c1⟩ := L.retrieve hs (L.dom hs (by rw [hf]; rfl))
    have hfresh : x.id ∉ Live.idsOf done := by
      rw [ha, Live.idsOf, List.map_append, List.map_cons, List.nodup_append] at hn
      intro hm
      exact hn.2.2 _ hm _ (by simp) rfl
    have := ih (done ++ [x]) _ s1 (by simp [ha])
      (h.insertInternal env hfresh x.vec x.md) i1 (by rw [c1, hc]) (hP.insert x.vec h hfresh hp)
    simp only [Live.idsOf, List.map_cons, loadAll, e1, hf] at this ⊢
    exact this

theorem init_grow {env : HnswEnv V D} (hP : KeepsGrow env M P) {s s' : σ} (hn : (Live.idsOf live).Nodup)
    (hl : B.list s none = (.ok (Live.idsOf live), s')) (hs : L.inv s')
    (hc : L.content s' = Live.find live)
    (hp : P { (Hnsw.new : Hnsw V) with inited := true, levels := [[]] }) :
    P (Hnsw.init env B Hnsw.new s).2.1 := by
  have := loadAll_grow (B := B) hP hn live [] { (Hnsw.new : Hnsw V) with
    inited := true, levels := [[]] } s' rfl
    ⟨rfl, by simp, rfl, rfl, ⟨by simp [GraphOk.empty, Dict.keys], by simp [Dict.keys]⟩⟩ hs hc hp
  simp only [Hnsw.init, hl]
  cases hx : loadAll env B (Live.idsOf live) { (Hnsw.new : Hnsw V) with
    inited := true, levels := [[]] } s' with
  | mk r t =>
    rw [hx] at this
    cases r <;> exact this

variable [LinearOrder D]

theorem Inv.call_grow {env : HnswEnv V D} (hP : KeepsGrow env M P) {t : Hnsw V × σ} (h : Inv L live t)
    (c : IxCall V M) (hc : Live.CallOk okId okM live c) (hd : ∀ ids, c ≠ .delete ids) (hp : P t.1) :
    P (Hnsw.call env B t c).2.1 := by
  obtain ⟨f, s⟩ := t
  have hi : f.inited = true := h.gr.inited
  cases c with
  | insert nd rows mds =>
    by_cases hnd : nd = 2
    · subst hnd
      obtain ⟨h1, h2, h3⟩ := hc
      have := insertLoop_grow hP mds h3 rows 0 live f s h h1 h2 hp
      simp only [Hnsw.call, Hnsw.insert, hi]
      cases hx : insertLoop env B mds 0 rows f s with
      | mk r t =>
        rw [hx] at this
        cases r <;> exact this
    · have e : Hnsw.insert env B nd rows mds f s = (.error .index, f, s) := by
        simp [Hnsw.insert, hi, hnd]
      simp only [Hnsw.call, e]
      exact hp
  | delete ids => exact absurd rfl (hd ids)
  | update id v m =>
    simp only [Hnsw.call, Hnsw.update, hi]
    cases hx : B.update s id v m with
    | mk r s' =>
      rcases r with e | b
      · exact hp
      · cases b
        · exact hp
        · simp only [Bool.not_true, Bool.false_eq_true, if_false]
          split
          · have hp : P f := hp
            have := hP.vec (f.vectors.set id v) hp
            rw [hi] at this
            exact this
          · exact hp
  | search nd q k =>
    by_cases hnd : nd = 1
    · subst hnd
      obtain ⟨r, s', e, -⟩ := h.search (env := env) q k
      simp only [Hnsw.call, e]
      cases r <;> exact hp
    · have e : Hnsw.search env B nd q k f s = (.error .index, f, s) := by
        simp [Hnsw.search, hi, hnd]
      simp only [Hnsw.call, e]
      exact hp

theorem Inv.run_grow {env : HnswEnv V D} (hP : KeepsGrow env M P) {t : Hnsw V × σ} (h : Inv L live t)
    (cs : List (IxCall V M)) (hc : Live.HistOk okId okM live cs) (hd : ∀ ids, .delete ids ∉ cs)
    (hp : P t.1) : P (Hnsw.run env B t cs).2.1 := by
  induction cs generalizing live t with
  | nil => exact hp
  | cons c cs ih =>
    exact ih (h.call (env := env) c hc.1).1 hc.2 (fun ids h => hd ids (List.mem_cons_of_mem _ h))
      (h.call_grow hP c hc.1 (fun ids e => hd ids (e ▸ List.mem_cons_self)) hp)

omit [LinearOrder D]

/-! ## Levels -/

/-- A level of the graph. -/
def lev (f : Hnsw V) (l : Nat) : Level := (f.levels[l]?).getD []

theorem Gr.lev_keys {f : Hnsw V} (h : Gr live f) (i : Nat) :
    GraphOk (Hnsw.lev f i) ∧ ∀ n ∈ Dict.keys (Hnsw.lev f i), n ∈ Live.idsOf live := h.level_keys i

/-- The level drawn by the `i`-th insertion. -/
def drawn (env : HnswEnv V D) (i : Nat) : Nat := min (env.rnd i).level 10

/-- The highest level drawn by the first `n` insertions. -/
def topOf (env : HnswEnv V D) : Nat → Nat
  | 0 => 0
  | n + 1 => max (topOf env n) (drawn env n)

theorem onLevels_get {g : Nat → Level → Level} {level : Nat} : ∀ (ds : List Level) (l i : Nat),
    (onLevels g level l ds)[i]? = (ds[i]?).map fun d => if l + i ≤ level then g (l + i) d else d
  | [], _, _ => by simp [onLevels]
  | d :: ds, l, 0 => by simp [onLevels]
  | d :: ds, l, i + 1 => by
    simp only [onLevels, List.getElem?_cons_succ, onLevels_get ds (l + 1) i]
    rw [show l + 1 + i = l + (i + 1) by omega]

theorem onLevels_length {g : Nat → Level → Level} {level : Nat} : ∀ (ds : List Level) (l : Nat),
    (onLevels g level l ds).length = ds.length
  | [], _ => rfl
  | d :: ds, l => by simp [onLevels, onLevels_length ds]

theorem pad_length (ds : List Level) (level : Nat) :
    (pad ds level).length = max ds.length (level + 1) := by
  simp [pad]; omega

theorem pad_get (ds : List Level) (level i : Nat) : ((pad ds level)[i]?).getD [] = (ds[i]?).getD [] := by
  unfold pad
  rw [List.getElem?_append]
  split
  · rfl
  · rename_i h
    rw [List.getElem?_eq_none (not_lt.1 h), List.getElem?_replicate]
    split <;> rfl

theorem lev_insert (env : HnswEnv V D) (id : Id) (v : V) (f : Hnsw V) (l : Nat) :
    lev (insertInternal env id v f) l =
      if l ≤ drawn env f.draws then insertLevel id ((env.rnd f.draws).pick l) (lev f l) else lev f l := by
  show ((onLevels _ _ 0 (pad f.levels (drawn env f.draws)))[l]?).getD [] = _
  rw [onLevels_get, Nat.zero_add]
  have hp := pad_get f.levels (drawn env f.draws) l
  cases hg : (pad f.levels (drawn env f.draws))[l]? with
  | none =>
    have := List.getElem?_eq_none_iff.1 hg
    rw [pad_length] at this
    rw [if_neg (by omega)]
    rw [hg] at hp
    exact hp
  | some d =>
    rw [hg] at hp
    have hp : d = lev f l := hp
    rw [Option.map_some, Option.getD_some, hp]
    rfl

/-- What the levels look like while nothing is deleted. -/
structure Shape (env : HnswEnv V D) (f : Hnsw V) : Prop where
  draws : f.draws = f.count
  top : f.maxLevel = topOf env f.draws
  len : f.levels.length = f.maxLevel + 1
  size : ∀ l, (lev f l).length = (List.range f.draws).countP fun i => l ≤ drawn env i
  sub : ∀ l, ∀ n ∈ Dict.keys (lev f (l + 1)), n ∈ Dict.keys (lev f l)

theorem keeps_shape (env : HnswEnv V D) : KeepsGrow env M (Shape env) := by
  refine ⟨?_, fun w h => ⟨h.draws, h.top, h.len, h.size, h.sub⟩⟩
  intro live f id v hg hid h
  have hk : ∀ l, Dict.keys (lev (insertInternal env id v f) l) =
      Dict.keys (lev f l) ++ if l ≤ drawn env f.draws then [id] else [] := by
    intro l
    obtain ⟨g1, g2⟩ := hg.lev_keys l
    rw [lev_insert]
    split
    · rw [(GraphOk.insertLevel g1 id _).2, if_neg (fun h => hid (g2 _ h))]
    · rw [List.append_nil]
  refine ⟨?_, ?_, ?_, ?_, ?_⟩
  · show f.draws + 1 = (f.vectors.set id v).length
    have hl : (f.vectors.set id v).length = live.length + 1 := by
      rw [hg.vec, vecs_set_fresh hid v none]; simp [vecs]
    rw [hl, h.draws, hg.cnt]
  · show max f.maxLevel (drawn env f.draws) = topOf env (f.draws + 1)
    rw [h.top]; rfl
  · show (onLevels _ _ 0 (pad f.levels (drawn env f.draws))).length = max f.maxLevel (drawn env f.draws) + 1
    rw [onLevels_length, pad_length, h.len]; omega
  · intro l
    have : ∀ d : Level, d.length = (Dict.keys d).length := fun d => (List.length_map _).symm
    rw [this, hk, List.length_append, ← this, h.size l]
    show _ = (List.range (f.draws + 1)).countP _
    rw [List.range_succ, List.countP_append]
    congr 1
    by_cases hl : l ≤ drawn env f.draws <;> simp [hl]
  · intro l n hn
    rw [hk, List.mem_append] at hn ⊢
    rcases hn with hn | hn
    · exact Or.inl (h.sub l n hn)
    · by_cases hl : l + 1 ≤ drawn env f.draws
      · rw [if_pos hl] at hn
        rw [if_pos (by omega)]
        exact Or.inr hn
      · rw [if_neg hl] at hn
        cases hn

/-- Nobody is alone on a level with others. -/
def Linked (f : Hnsw V) : Prop :=
  ∀ l, 2 ≤ (lev f l).length → ∀ n ∈ Dict.keys (lev f l), nbrs (lev f l) n ≠ []

/-- `random.sample(nodes, min(m, len(nodes)))`. -/
def SamplesOf (env : HnswEnv V D) (m : Nat) : Prop :=
  ∀ i l, ∀ nodes : List Id, nodes.Nodup → ((env.rnd i).pick l nodes).Nodup ∧
    (∀ x ∈ (env.rnd i).pick l nodes, x ∈ nodes) ∧
    ((env.rnd i).pick l nodes).length = min m nodes.length

theorem keeps_linked {env : HnswEnv V D} {m : Nat} (hm : 2 ≤ m) (hs : SamplesOf env m) :
    KeepsGrow env M (Linked (V := V)) := by
  refine ⟨?_, fun w h => h⟩
  intro live f id v hg hid h l h2 n hn hnil
  obtain ⟨g1, g2⟩ := hg.lev_keys l
  have hidk : id ∉ Dict.keys (lev f l) := fun h => hid (g2 _ h)
  rw [lev_insert] at h2 hn hnil
  split at h2
  · rename_i hl
    rw [if_pos hl] at hn hnil
    have hk := (GraphOk.insertLevel g1 id ((env.rnd f.draws).pick l)).2
    rw [if_neg hidk] at hk
    have hk : Dict.keys (insertLevel id ((env.rnd f.draws).pick l) (lev f l)) = Dict.keys (lev f l) ++ [id] := hk
    have hka : Dict.keys (addNode (lev f l) id) = Dict.keys (lev f l) ++ [id] := by
      rw [addNode_keys, if_neg hidk]
    have hnd : (Dict.keys (lev f l) ++ [id]).Nodup := by
      rw [← hka]; exact (GraphOk.addNode g1 id).keys
    have hlen : 2 ≤ (Dict.keys (lev f l) ++ [id]).length := by
      rw [← hk, Dict.keys, List.length_map]; exact h2
    obtain ⟨s1, s2, s3⟩ := hs f.draws l _ hnd
    set p := (env.rnd f.draws).pick l (Dict.keys (lev f l) ++ [id]) with hpd
    -- a sampled node other than the new one
    obtain ⟨x, hx, hxid⟩ : ∃ x ∈ p, x ≠ id := by
      by_contra hcon
      push Not at hcon
      have : p.length ≤ 1 := by
        rcases p with _ | ⟨a, _ | ⟨b, p⟩⟩
        · simp
        · simp
        · have ha := hcon a (by simp)
          have hb := hcon b (by simp)
          rw [ha, hb] at s1
          simp at s1
      rw [s3] at this
      omega
    have hxk : x ∈ Dict.keys (lev f l) := by
      have := s2 x hx
      rw [List.mem_append, List.mem_singleton] at this
      exact this.resolve_right hxid
    have hmem : ∀ a y, y ∈ nbrs (insertLevel id ((env.rnd f.draws).pick l) (lev f l)) a ↔
        y ∈ nbrs (lev f l) a ∨ (a = id ∧ y ≠ id ∧ y ∈ p) ∨ (y = id ∧ a ≠ id ∧ a ∈ p) := by
      intro a y
      simp only [insertLevel, mem_connect, nbrs_addNode, hka]
      have : (p.filter fun z => decide (z ∈ Dict.keys (lev f l) ++ [id])) = p :=
        List.filter_eq_self.2 fun z hz => by simpa using s2 z hz
      rw [← hpd, this]
    have hnone : ∀ y, y ∉ nbrs (insertLevel id ((env.rnd f.draws).pick l) (lev f l)) n := by
      intro y hy
      rw [hnil] at hy
      cases hy
    rw [hk, List.mem_append, List.mem_singleton] at hn
    rcases hn with hn | rfl
    · -- an old node
      by_cases h2' : 2 ≤ (lev f l).length
      · have := h l h2' n hn
        obtain ⟨y, hy⟩ := List.exists_mem_of_ne_nil _ this
        exact hnone y ((hmem n y).2 (Or.inl hy))
      · have hl1 : (Dict.keys (lev f l)).length = 1 := by
          have h1 : (Dict.keys (lev f l)).length = (lev f l).length := List.length_map _
          rw [List.length_append, List.length_singleton] at hlen
          omega
        obtain ⟨a, ha⟩ := List.length_eq_one_iff.1 hl1
        rw [ha, List.mem_singleton] at hxk hn
        have hxn : x = n := hxk.trans hn.symm
        refine hnone id ((hmem n id).2 (Or.inr (Or.inr ⟨rfl, ?_, hxn ▸ hx⟩)))
        exact hxn ▸ hxid
    · exact hnone x ((hmem n x).2 (Or.inr (Or.inl ⟨rfl, hxid, hx⟩)))
  · rename_i hl
    rw [if_neg hl] at hn hnil
    exact h l h2 n hn hnil

/-! ## Where a search gets -/

variable [LinearOrder D]

omit [LinearOrder D] in
theorem expand_nil {dist : V → Except Err D} {vectors : Dict Id V} {lvl : Level} {n : Id} {d : D}
    (h : nbrs lvl n = []) : expand dist vectors lvl [(n, d)] = .ok [] := by
  simp only [expand, h, scanNbrs, List.append_nil]

theorem descend_nil (env : HnswEnv V D) (q : V) (f : Hnsw V) : ∀ l, descend env q f l [] = .ok []
  | 0 => rfl
  | l + 1 => by
    have : sliceTo (pySortBy Prod.snd ([] : List (Id × D))) env.efSearch = [] :=
      List.eq_nil_of_length_eq_zero (by
        have := (sliceTo_sublist (pySortBy Prod.snd ([] : List (Id × D))) env.efSearch).length_le
        rw [(pySortBy_perm Prod.snd ([] : List (Id × D))).length_eq, List.length_nil] at this
        omega)
    simp only [descend, expand, this]
    exact descend_nil env q f l

/-- A top level above 0 whose first node has no neighbour ends the search. -/
theorem candidates_lone {env : HnswEnv V D} {q : V} {f : Hnsw V} {c : List (Id × D)}
    (hc : candidates env q f = .ok c) (hpos : 0 < min f.maxLevel (f.levels.length - 1))
    (ht : ∀ n, nbrs (lev f (min f.maxLevel (f.levels.length - 1))) n = []) : c = [] := by
  simp only [candidates] at hc
  obtain ⟨l, hl⟩ : ∃ l, min f.maxLevel (f.levels.length - 1) = l + 1 := ⟨_, (Nat.succ_pred_eq_of_pos hpos).symm⟩
  rw [hl] at hc ht
  cases he : entry env q f ((f.levels[l + 1]?).getD []) with
  | error e => rw [he] at hc; cases hc
  | ok c0 =>
    rw [he] at hc
    have h0 : expand (env.dist q) f.vectors ((f.levels[l + 1]?).getD []) c0 = .ok [] := by
      unfold entry at he
      split at he
      · cases he; rfl
      · split at he
        · cases he
        · split at he
          · cases he
          · cases he
            exact expand_nil (ht _)
    have h1 : descend env q f (l + 1) c0 = .ok [] := by
      have : sliceTo (pySortBy Prod.snd ([] : List (Id × D))) env.efSearch = [] :=
        List.eq_nil_of_length_eq_zero (by
          have := (sliceTo_sublist (pySortBy Prod.snd ([] : List (Id × D))) env.efSearch).length_le
          rw [(pySortBy_perm Prod.snd ([] : List (Id × D))).length_eq, List.length_nil] at this
          omega)
      simp only [descend, h0, this]
      exact descend_nil env q f l
    simp only [h1] at hc
    cases hc
    rfl

/-- From nodes of a linked graph the walk down does not end. -/
theorem descend_found {env : HnswEnv V D} {q : V} {f : Hnsw V} (hg : Gr live f) (hl : Linked f)
    (hsub : ∀ l, ∀ n ∈ Dict.keys (lev f (l + 1)), n ∈ Dict.keys (lev f l)) (he : 1 ≤ env.efSearch) :
    ∀ (l : Nat) (cs c : List (Id × D)), (0 < l → 2 ≤ (lev f l).length) → cs ≠ [] →
    (∀ x ∈ cs, x.1 ∈ Dict.keys (lev f l)) → descend env q f l cs = .ok c → c ≠ []
  | 0, cs, c, _, hne, _, h => by
    simp only [descend, Except.ok.injEq] at h
    exact h ▸ hne
  | l + 1, cs, c, h2, hne, hk, h => by
    simp only [descend] at h
    have h2 := h2 (Nat.succ_pos l)
    cases hx : expand (env.dist q) f.vectors ((f.levels[l + 1]?).getD []) cs with
    | error e => rw [hx] at h; cases h
    | ok new =>
      rw [hx] at h
      rw [hg.vec] at hx
      obtain ⟨-, hnew⟩ := expand_spec hx
      obtain ⟨g1, g2⟩ := hg.lev_keys (l + 1)
      have hmem : ∀ x ∈ new, x.1 ∈ Dict.keys (lev f (l + 1)) := by
        intro x hx
        have : x.1 ∈ new.map Prod.fst := List.mem_map_of_mem hx
        rw [hnew, List.mem_filter, List.mem_flatMap] at this
        obtain ⟨⟨y, -, hy⟩, -⟩ := this
        exact g1.nbr_key hy
      have hnn : new ≠ [] := by
        rintro rfl
        obtain ⟨x, hx⟩ := List.exists_mem_of_ne_nil _ hne
        obtain ⟨y, hy⟩ := List.exists_mem_of_ne_nil _ (hl (l + 1) h2 x.1 (hk x hx))
        have : y ∈ ([] : List (Id × D)).map Prod.fst := by
          rw [hnew, List.mem_filter]
          exact ⟨List.mem_flatMap.2 ⟨x, hx, hy⟩, by simpa using g2 y (g1.nbr_key hy)⟩
        cases this
      refine descend_found hg hl hsub he l _ c (fun _ => ?_) ?_ ?_ h
      · refine h2.trans ?_
        have hle : (Dict.keys (lev f (l + 1))).length ≤ (Dict.keys (lev f l)).length :=
          (List.subperm_of_subset g1.keys (hsub l)).length_le
        rwa [Dict.keys, Dict.keys, List.length_map, List.length_map] at hle
      · rw [sliceTo_nonneg _ (by omega)]
        intro hnil
        have h1 := congrArg List.length hnil
        rw [List.length_take, (pySortBy_perm Prod.snd new).length_eq, List.length_nil] at h1
        have := List.length_pos_iff.2 hnn
        omega
      · intro x hx
        have := (sliceTo_sublist _ _).subset hx
        rw [(pySortBy_perm _ _).mem_iff] at this
        exact hsub l _ (hmem x this)

theorem candidates_found {env : HnswEnv V D} {q : V} {f : Hnsw V} (hg : Gr live f) (hs : Shape env f)
    (hl : Linked f) (he : 1 ≤ env.efSearch) {c : List (Id × D)} (hc : candidates env q f = .ok c)
    (hne : lev f f.maxLevel ≠ []) (h2 : 0 < f.maxLevel → 2 ≤ (lev f f.maxLevel).length) : c ≠ [] := by
  simp only [candidates] at hc
  have hcur : min f.maxLevel (f.levels.length - 1) = f.maxLevel := by rw [hs.len]; omega
  rw [hcur] at hc
  cases hent : entry env q f ((f.levels[f.maxLevel]?).getD []) with
  | error e => rw [hent] at hc; cases hc
  | ok c0 =>
    rw [hent] at hc
    obtain ⟨-, e2⟩ := entry_spec hg.vec hent
    have hk0 : ∀ x ∈ c0, x.1 ∈ Dict.keys (lev f f.maxLevel) := by
      intro x hx
      have : x.1 ∈ c0.map Prod.fst := List.mem_map_of_mem hx
      rw [e2] at this
      exact List.mem_of_mem_take this
    have hn0 : c0 ≠ [] := by
      rintro rfl
      have h1 := congrArg List.length e2
      have : (Dict.keys (lev f f.maxLevel)).length = (lev f f.maxLevel).length := List.length_map _
      have h3 : (Dict.keys ((f.levels[f.maxLevel]?).getD [])).length = (lev f f.maxLevel).length := this
      rw [List.length_take, h3, List.map_nil, List.length_nil] at h1
      have := List.length_pos_iff.2 hne
      omega
    cases hd : descend env q f f.maxLevel c0 with
    | error e => simp only [hd] at hc; cases hc
    | ok c1 =>
      simp only [hd] at hc
      have hn1 := descend_found hg hl hs.sub he _ c0 c1 h2 hn0 hk0 hd
      have : c1.isEmpty = false := by cases c1 with | nil => exact absurd rfl hn1 | cons => rfl
      rw [this] at hc
      simp only [Bool.false_eq_true, if_false] at hc
      split at hc
      · cases hc
      · cases hc
        intro h
        exact hn1 (List.append_eq_nil_iff.1 h).1

end Hnsw
end Valori
