import Verif.Lemmas.HnswPar
import Verif.Props.Hnsw

/-!
# C210, C211: threads inserting into and searching one HNSW index
-/

namespace Valori.Props

open Valori Valori.Spec

variable {V M D : Type}

/-- The ids on level `l`. -/
def nodesAt (levels : List Level) (l : Nat) : List String :=
  match levels[l]? with
  | none => []
  | some d => d.map Prod.fst

/-- Level `d` is well-formed, apart from links being doubled: no node twice, links symmetric, between
nodes of the level, not to oneself. -/
structure GraphFine (d : Level) : Prop where
  once : (d.map Prod.fst).Nodup
  sym : ∀ a b, b ∈ links d a → a ∈ links d b
  inside : ∀ a b, b ∈ links d a → b ∈ d.map Prod.fst
  irr : ∀ a, a ∉ links d a

/-- An index at rest, with all threads about to start: index and storage agree, level 0 has the ids of all
vectors, the other levels some of them, and the graph is well-formed. -/
structure HRest (s : HPar V M D) : Prop where
  thr : s.thr = fun _ => .start
  agree : ∀ id, s.vectors.get? id = (s.store.get? id).map Prod.fst
  once : s.vectors.keys.Nodup
  some : s.levels ≠ []
  nodes : ∀ l, ∀ id ∈ nodesAt s.levels l, (s.vectors.get? id).isSome
  ground : ∀ id, (s.vectors.get? id).isSome → id ∈ nodesAt s.levels 0
  graph : ∀ d ∈ s.levels, GraphFine d

theorem mem_nodesAt (s : HPar V M D) (l : Nat) (id : String) : id ∈ nodesAt s.levels l ↔ s.onLevel l id := by
  unfold nodesAt HPar.onLevel HPar.nodeOf
  cases s.levels[l]? with
  | none => simp
  | some d => exact Dict.mem_keys d id

theorem links_iff (s : HPar V M D) {l : Nat} {d : Level} (h : s.levels[l]? = some d) (a b : String) :
    b ∈ links d a ↔ s.link l a b := by
  rw [links_eq]
  unfold HPar.link HPar.nodeOf Hnsw.nbrs
  rw [h]
  simp only [Option.bind_some]
  cases Dict.get? d a with
  | none => simp
  | some ns => simp

theorem link_level {s : HPar V M D} {l : Nat} {a b : String} (h : s.link l a b) : ∃ d, s.levels[l]? = some d := by
  obtain ⟨ns, hns, -⟩ := h
  unfold HPar.nodeOf at hns
  cases hd : s.levels[l]? with
  | none => rw [hd] at hns; cases hns
  | some d => exact ⟨d, rfl⟩

variable [LinearOrder D]

theorem HRest.inv {env : HParEnv V D} {ops : Nat → HOp V M} {s : HPar V M D} (h : HRest s) :
    HPar.SInv env ops s s := by
  refine ⟨⟨⟨.rfl' s, fun id x hx => .inl hx, fun id x hx => .inl hx, ?_, ?_, fun l id hl => .inl hl, h.once, ?_,
    h.some, ?_, ?_, .inr rfl⟩, ?_⟩, ?_⟩
  · intro id v hv
    rw [h.agree] at hv
    cases hs : s.store.get? id with
    | none => rw [hs] at hv; cases hv
    | some x =>
      rw [hs] at hv
      obtain rfl := Option.some.inj hv
      exact ⟨x.2, rfl⟩
  · intro l id hl
    exact h.nodes l id ((mem_nodesAt s l id).2 hl)
  · intro d hd
    exact (h.graph d hd).once
  · intro l a b hl
    obtain ⟨d, hd⟩ := link_level hl
    have g := h.graph d (List.mem_of_getElem? hd)
    rw [← links_iff s hd] at hl
    refine ⟨(mem_nodesAt s l b).1 ?_, ?_⟩
    · unfold nodesAt; rw [hd]; exact g.inside a b hl
    · rintro rfl; exact g.irr a hl
  · intro l a b hl
    obtain ⟨d, hd⟩ := link_level hl
    have g := h.graph d (List.mem_of_getElem? hd)
    rw [← links_iff s hd] at hl
    exact .inl ((links_iff s hd b a).1 (g.sym a b hl))
  · intro t rows _; rw [h.thr]; trivial
  · intro t q k _ _; rw [h.thr]; trivial

/-- New ids: all different and not stored before. -/
abbrev NewIds (ops : Nat → HOp V M) (s : HPar V M D) : Prop :=
  FreshRows (fun t => (ops t).rows) s.store.keys

theorem hrun_inv {env : HParEnv V D} {ops : Nat → HOp V M} {s0 : HPar V M D} (h0 : HRest s0)
    (hf : NewIds ops s0) (sched : List Nat) : HPar.SInv env ops s0 (HPar.run env ops s0 sched) :=
  HPar.sinv_run hf (fun id h => (Dict.mem_keys _ _).2 h) sched s0 h0.inv

/-! ## C210: inserting -/

/-- **C210** (partial: the vector count, the top level and doubled links are below) Whatever the schedule,
and with searches running beside: no insertion raises, and each returns the ids of its rows in order.  When
all insertions have returned, the storage holds every row under its id and is otherwise unchanged; the index
has the same vectors; level `l` has the old nodes and the new rows whose level reaches `l`; the graph is
well-formed; and no old link is lost. -/
theorem C210_hnsw_parallel_partial (env : HParEnv V D) (ops : Nat → HOp V M) (s0 : HPar V M D) (h0 : HRest s0)
    (hf : NewIds ops s0) (sched : List Nat) :
    let s := HPar.run env ops s0 sched
    (∀ t rows r, ops t = .insert rows → s.thr t = .done r → r = .ids (rows.map FRow.id)) ∧
    ((∀ t rows, ops t = .insert rows → ∃ r, s.thr t = .done r) →
      (∀ t, ∀ r ∈ (ops t).rows, s.store.get? r.id = some (r.v, r.m)) ∧
      (∀ id, (∀ t, ∀ r ∈ (ops t).rows, r.id ≠ id) → s.store.get? id = s0.store.get? id) ∧
      (∀ id, s.vectors.get? id = (s.store.get? id).map Prod.fst) ∧ s.vectors.keys.Nodup ∧
      (∀ l id, id ∈ nodesAt s.levels l ↔ id ∈ nodesAt s0.levels l ∨
        ∃ t j r, (ops t).rows[j]? = some r ∧ r.id = id ∧ l ≤ env.level t j) ∧
      (∀ d ∈ s.levels, GraphFine d) ∧
      ∀ (l : Nat) (d : Level), s0.levels[l]? = some d → ∃ d', s.levels[l]? = some d' ∧ ∀ a, links d a <+: links d' a) := by
  intro s
  have h := hrun_inv (env := env) h0 hf sched
  have hs : HPar.run env ops s0 sched = s := rfl
  rw [hs] at h
  refine ⟨?_, ?_⟩
  · intro t rows r ho hd
    have := h.base.ins t rows ho
    rw [hd] at this
    exact this.1
  · intro hall
    have hfull : ∀ t j r, (ops t).rows[j]? = some r → HPar.Full s (env.level t j) r := by
      intro t j r hr
      cases ho : ops t with
      | search q k => rw [ho] at hr; simp [HOp.rows] at hr
      | insert rows =>
        obtain ⟨x, hx⟩ := hall t rows ho
        have := h.base.ins t rows ho
        rw [hx] at this
        rw [ho] at hr
        exact this.2 j r hr
    have hfull' : ∀ t, ∀ r ∈ (ops t).rows, ∃ lv, HPar.Full s lv r := by
      intro t r hr
      obtain ⟨j, hj⟩ := List.getElem?_of_mem hr
      exact ⟨_, hfull t j r hj⟩
    have g := h.base.glob
    refine ⟨?_, ?_, ?_, g.vecNodup, ?_, ?_, ?_⟩
    · intro t r hr
      obtain ⟨lv, hl⟩ := hfull' t r hr
      exact hl.st
    · intro id hid
      cases hx : s.store.get? id with
      | some x =>
        rcases g.stFrom id x hx with h1 | ⟨t, r, h1, h2, -⟩
        · exact h1.symm
        · exact absurd h2 (hid t r h1)
      | none =>
        cases hy : s0.store.get? id with
        | none => rfl
        | some y => rw [g.keep.st id y hy] at hx; cases hx
    · intro id
      cases hx : s.store.get? id with
      | some x =>
        rcases g.stFrom id x hx with h1 | ⟨t, r, h1, h2, h3⟩
        · have := h0.agree id
          rw [h1] at this
          exact g.keep.vec _ _ this
        · obtain ⟨lv, hl⟩ := hfull' t r h1
          rw [← h2, hl.vec, h3]
          rfl
      | none =>
        cases hv : s.vectors.get? id with
        | none => rfl
        | some v =>
          obtain ⟨m, hm⟩ := g.vecStore id v hv
          rw [hx] at hm; cases hm
    · intro l id
      rw [mem_nodesAt, mem_nodesAt]
      constructor
      · exact g.nodeFrom l id
      · rintro (h1 | ⟨t, j, r, h1, rfl, h3⟩)
        · exact g.keep.onLevel h1
        · exact (hfull t j r h1).node l h3
    · intro d hd
      obtain ⟨l, hl⟩ := List.getElem?_of_mem hd
      refine ⟨g.levNodup d hd, ?_, ?_, ?_⟩
      · intro a b hab
        rw [links_iff s hl] at hab ⊢
        rcases g.sym l a b hab with h1 | ⟨t, i, todo, r, h1, -, h3⟩
        · exact h1
        · cases ho : ops t with
          | search q k => rw [ho] at h1; simp [HOp.rows] at h1
          | insert rows =>
            obtain ⟨x, hx⟩ := hall t rows ho
            rw [hx] at h3
            rcases h3 with h3 | h3 <;> cases h3
      · intro a b hab
        rw [links_iff s hl] at hab
        have := (mem_nodesAt s l b).2 (g.linkOk l a b hab).1
        unfold nodesAt at this
        rw [hl] at this
        exact this
      · intro a haa
        rw [links_iff s hl] at haa
        exact (g.linkOk l a a haa).2 rfl
    · intro l d hd
      have hlt : l < s.levels.length := lt_of_lt_of_le (List.getElem?_eq_some_iff.1 hd).1 g.keep.len
      refine ⟨s.levels[l], List.getElem?_eq_getElem hlt, fun a => ?_⟩
      rw [links_eq, links_eq]
      unfold Hnsw.nbrs
      cases ha : Dict.get? d a with
      | none => simp
      | some ns =>
        have h1 : s0.nodeOf l a = some ns := by unfold HPar.nodeOf; rw [hd]; exact ha
        obtain ⟨x, hx⟩ := g.keep.node l a ns h1
        unfold HPar.nodeOf at hx
        rw [List.getElem?_eq_getElem hlt] at hx
        simp only [Option.bind_some] at hx
        rw [hx]
        exact List.prefix_append _ _

/-- **C210**, entry point.  If the search had a place to start from before (or the index was empty), it has
one afterwards. -/
theorem C210_hnsw_entry (env : HParEnv V D) (ops : Nat → HOp V M) (s0 : HPar V M D) (h0 : HRest s0)
    (hf : NewIds ops s0) (ht : nodesAt s0.levels s0.maxLevel ≠ [] ∨ s0.maxLevel = 0) (sched : List Nat) :
    let s := HPar.run env ops s0 sched
    (∀ t rows, ops t = .insert rows → ∃ r, s.thr t = .done r) →
    s.vectors ≠ [] → nodesAt s.levels s.maxLevel ≠ [] := by
  intro s hall hne
  have h := hrun_inv (env := env) h0 hf sched
  have hs : HPar.run env ops s0 sched = s := rfl
  rw [hs] at h
  have conv : (∃ x, s.onLevel s.maxLevel x) → nodesAt s.levels s.maxLevel ≠ [] := by
    rintro ⟨x, hx⟩ hc
    have := (mem_nodesAt s s.maxLevel x).2 hx
    rw [hc] at this
    cases this
  apply conv
  rcases h.base.glob.top with h1 | h1
  · exact h1
  · rcases ht with ht | ht
    · obtain ⟨x, hx⟩ := List.exists_mem_of_ne_nil _ ht
      rw [mem_nodesAt] at hx
      exact ⟨x, by rw [h1]; exact h.base.glob.keep.onLevel hx⟩
    · rw [h1, ht]
      cases hv : s.vectors with
      | nil => exact absurd hv hne
      | cons e rest =>
        have hg : s.vectors.get? e.1 = some e.2 := by rw [hv]; simp [Dict.get?]
        rcases h.base.glob.vecFrom e.1 e.2 hg with h2 | ⟨t, r, h2, h3, -⟩
        · refine ⟨e.1, h.base.glob.keep.onLevel ?_⟩
          rw [← mem_nodesAt]
          exact h0.ground e.1 (by rw [h2]; rfl)
        · obtain ⟨j, hj⟩ := List.getElem?_of_mem h2
          cases ho : ops t with
          | search q k => rw [ho] at hj; simp [HOp.rows] at hj
          | insert rows =>
            obtain ⟨x, hx⟩ := hall t rows ho
            have := h.base.ins t rows ho
            rw [hx] at this
            rw [ho] at hj
            exact ⟨r.id, (this.2 j r hj).node 0 (Nat.zero_le _)⟩

/-- The index as the next caller sees it. -/
def hnswLeft (s : HPar V M D) : Hnsw V := ⟨s.levels, s.vectors, s.maxLevel, s.count, true, 0⟩

variable {σ : Type} {B : Backend σ V M} {okId : Id → Prop} {okM : M → Prop}

/-- **C210**, searching.  When all insertions have returned, a search returns (if the distances are
defined) at most `k` results in order of distance, each a stored vector with its distance and its
metadata. -/
theorem C210_hnsw_search (L : Lawful B okId okM) (env : HParEnv V D) (ops : Nat → HOp V M) (s0 : HPar V M D)
    (h0 : HRest s0) (hf : NewIds ops s0) (sched : List Nat) (env' : HnswEnv V D) (st : σ) (hst : L.inv st)
    (q : V) (k : Int) (hk : 0 ≤ k) :
    let s := HPar.run env ops s0 sched
    (∀ t rows, ops t = .insert rows → ∃ r, s.thr t = .done r) →
    (∀ id, L.content st id = s.store.get? id) →
    (∀ hits, (Hnsw.search env' B 1 q k (hnswLeft s) st).1 = .ok hits →
      hits.length ≤ k.toNat ∧ hits.Pairwise (fun a b => a.dist ≤ b.dist) ∧
      ∀ x ∈ hits, ∃ v, s.store.get? x.id = some (v, x.md) ∧ env'.dist q v = .ok x.dist) ∧
    ((∀ id v m, s.store.get? id = some (v, m) → ∃ d, env'.dist q v = .ok d) →
      ∃ hits, (Hnsw.search env' B 1 q k (hnswLeft s) st).1 = .ok hits) := by
  intro s hall hcont
  obtain ⟨-, hfin⟩ := C210_hnsw_parallel_partial env ops s0 h0 hf sched
  obtain ⟨-, -, hag, hnd, hnodes, -⟩ := hfin hall
  have hinv := hrun_inv (env := env) h0 hf sched
  have hs : HPar.run env ops s0 sched = s := rfl
  rw [hs] at hag hnd hnodes hinv
  let live : List (Item V M) := s.vectors.map fun e => ⟨e.1, e.2, (s.store.get? e.1).bind Prod.snd⟩
  have hv : (hnswLeft s).vectors = Hnsw.vecs live := by
    simp [hnswLeft, Hnsw.vecs, live, List.map_map, Function.comp_def]
  have hids : Live.idsOf live = s.vectors.keys := by
    rw [← Hnsw.vecs_keys, ← hv]; rfl
  have hlnd : (Live.idsOf live).Nodup := by rw [hids]; exact hnd
  have hfind : ∀ id, Live.find live id = s.store.get? id := by
    intro id
    have h1 := Hnsw.vecs_get? live id
    rw [← hv] at h1
    have h1' : s.vectors.get? id = (Live.find live id).map Prod.fst := h1
    rw [hag] at h1'
    cases hx : Live.find live id with
    | none =>
      rw [hx] at h1'
      cases hy : s.store.get? id with
      | none => rfl
      | some y => rw [hy] at h1'; cases h1'
    | some x =>
      have hm : ∃ y ∈ live, y.id = id ∧ (y.vec, y.md) = x := by
        unfold Live.find at hx
        cases hf : live.find? (fun e => e.id = id) with
        | none => rw [hf] at hx; cases hx
        | some y =>
          rw [hf] at hx
          refine ⟨y, List.mem_of_find?_eq_some hf, ?_, Option.some.inj hx⟩
          have := List.find?_some hf
          simpa using this
      obtain ⟨y, hy, rfl, rfl⟩ := hm
      obtain ⟨e, he, rfl⟩ := List.mem_map.1 hy
      have hg := Dict.get?_of_mem hnd (k := e.1) (a := e.2) he
      rw [hag] at hg
      simp only at hg ⊢
      cases hz : s.store.get? e.1 with
      | none => rw [hz] at hg; cases hg
      | some z =>
        rw [hz] at hg
        obtain ⟨z1, z2⟩ := z
        simp only [Option.map_some, Option.some.injEq] at hg
        rw [hg]
        rfl
  have hc : L.content st = Live.find live := by
    funext id; rw [hcont, hfind]
  have hmem : ∀ y ∈ live, s.store.get? y.id = some (y.vec, y.md) := by
    intro y hy
    rw [← hfind]
    exact Live.find_mem hlnd hy
  obtain ⟨r, s', e, -, h1, h2, -, h4⟩ := Hnsw.search_raw (L := L) (env := env') (f := hnswLeft s) rfl hv hlnd hst hc q k
  rw [e]
  refine ⟨?_, ?_⟩
  · intro hits hh
    by_cases hl : live = []
    · rw [h2 hl] at hh
      cases hh
      simp
    · obtain ⟨c, hcand, rfl⟩ := h1 hits hh hl
      have hsort := Valori.pySortBy_sorted (Prod.snd) c
      rw [sliceTo_nonneg _ (by omega)]
      refine ⟨?_, ?_, ?_⟩
      · simp only [attachMd, List.length_map, List.length_take]
        omega
      · simp only [attachMd, List.pairwise_map]
        exact hsort.sublist (List.take_sublist _ _)
      · intro x hx
        simp only [attachMd, List.mem_map] at hx
        obtain ⟨y, hy, rfl⟩ := hx
        have := (Valori.pySortBy_perm Prod.snd c).mem_iff.1 (List.mem_of_mem_take hy)
        obtain ⟨z, z1, z2, z3⟩ := Hnsw.candidates_spec hv hcand y this
        refine ⟨z.vec, ?_, z3⟩
        simp only
        rw [← z2, Live.find_mem hlnd z1, hmem z z1]
        rfl
  · intro hd
    obtain ⟨c, hcand⟩ := Hnsw.candidates_total_raw (env := env') (q := q) (f := hnswLeft s) hv (by
      intro i n hn
      have h5 : n ∈ nodesAt s.levels i := by
        unfold nodesAt
        have : (hnswLeft s).levels = s.levels := rfl
        rw [this] at hn
        cases hg : s.levels[i]? with
        | none => rw [hg] at hn; simp [Dict.keys] at hn
        | some d => rw [hg] at hn; exact hn
      rw [mem_nodesAt] at h5
      rw [hids, Dict.mem_keys]
      exact hinv.base.glob.nodeVec i n h5) (fun x hx => hd x.id x.vec x.md (hmem x hx))
    exact h4 c hcand

/-! ## C211: searching beside insertions -/

/-- **C211** Whatever the schedule: a search that returns while other threads insert gives at most `k`
results in order of distance; each is stored with that metadata and its vector has that distance; and it is
an old entry or a row that some thread inserts. -/
theorem C211_hnsw_beside_sound (env : HParEnv V D) (ops : Nat → HOp V M) (s0 : HPar V M D) (h0 : HRest s0)
    (hf : NewIds ops s0) (sched : List Nat) (t : Nat) (q : V) (k : Int) (hk : 0 ≤ k) (ho : ops t = .search q k)
    (hits : List (Hit D M)) :
    let s := HPar.run env ops s0 sched
    s.thr t = .done (.hits hits) →
    hits.length ≤ k.toNat ∧ hits.Pairwise (fun a b => a.dist ≤ b.dist) ∧
    ∀ x ∈ hits, ∃ v, s.store.get? x.id = some (v, x.md) ∧ env.dist q v = .ok x.dist ∧
      (s0.store.get? x.id = some (v, x.md) ∨ ∃ t', ∃ r ∈ (ops t').rows, r = ⟨x.id, v, x.md⟩) := by
  intro s hd
  have h := hrun_inv (env := env) h0 hf sched
  have hs := h.srch t q k hk ho
  rw [hd] at hs
  obtain ⟨h1, h2, h3⟩ := hs
  rw [List.pairwise_map] at h2
  refine ⟨by omega, h2, fun x hx => ?_⟩
  obtain ⟨v, hv, hdist⟩ := h1 x hx
  refine ⟨v, hv, hdist, ?_⟩
  rcases h.base.glob.stFrom _ _ hv with h4 | ⟨t', r, h4, h5, h6⟩
  · exact .inl h4
  · refine .inr ⟨t', r, h4, ?_⟩
    obtain ⟨ri, rv, rm⟩ := r
    simp only [Prod.mk.injEq] at h5 h6
    rw [h5, h6.1, h6.2]

/-- **C211** (partial: one cause of failure remains) A search can come to raise in one place only, if the
distances are defined: between making the iterator over the nodes of the entry level and asking for the first
one, when the number of nodes has changed. -/
theorem C211_hnsw_beside_raises_partial (env : HParEnv V D) (ops : Nat → HOp V M) (s0 : HPar V M D)
    (h0 : HRest s0) (hf : NewIds ops s0) (sched : List Nat) (t : Nat) (q : V) (k : Int) (hk : 0 ≤ k)
    (ho : ops t = .search q k) (hd : ∀ v, ∃ d, env.dist q v = .ok d) :
    let s := HPar.run env ops s0 sched
    s.thr t ≠ .done .raised → (s.step env ops t).thr t = .done .raised →
    ∃ k' cl n d, s.thr t = .srch (.next k' cl n) ∧ s.levels[cl]? = some d ∧ d.length ≠ n := by
  intro s hn hr
  have h := hrun_inv (env := env) h0 hf sched
  have hs : HPar.run env ops s0 sched = s := rfl
  rw [hs] at h
  have hok := h.srch t q k hk ho
  unfold HPar.step at hr
  rw [ho] at hr
  cases ht : s.thr t with
  | start =>
    rw [ht] at hr
    simp only [Function.update_self] at hr
    split at hr <;> cases hr
  | ins i p => rw [ht] at hok; exact hok.elim
  | done r => rw [ht] at hr hn; simp only [ht] at hr; exact absurd hr hn
  | srch p =>
    rw [ht] at hr hok
    simp only [Function.update_self] at hr
    rcases (HPar.stepSr_ok h.base.glob hk hok).2 hr with ⟨k', cl, n, d, rfl, h2, h3⟩ | ⟨id, v, e, -, h2⟩
    · exact ⟨k', cl, n, d, rfl, h2, h3⟩
    · obtain ⟨d, hd'⟩ := hd v
      rw [h2] at hd'
      cases hd'

/-! ## Every index at rest -/

/-- A storage and an index in use, before the threads start. -/
def atRest (live : List (Item V M)) (f : Hnsw V) : HPar V M D :=
  ⟨live.map fun x => (x.id, (x.vec, x.md)), f.vectors, f.count, f.levels, f.maxLevel, fun _ => .start⟩

theorem atRest_get? (live : List (Item V M)) (id : String) :
    Dict.get? (live.map fun x => (x.id, (x.vec, x.md))) id = Live.find live id := by
  induction live with
  | nil => rfl
  | cons x l ih =>
    simp only [List.map_cons, Dict.get?, Live.find, List.find?_cons] at ih ⊢
    by_cases e : x.id = id
    · simp [e]
    · simp only [e, if_false, decide_false]; exact ih

/-- The hypothesis of C210 and C211 holds after every history of calls, one after the other, on an index over
any lawful storage. -/
theorem HRest.afterHistory (L : Lawful B okId okM) (env : HnswEnv V D) (s : σ) (live : List (Item V M))
    (hs : Holds L s live) (h : List (IxCall V M)) (hok : Live.HistOk okId okM live h) :
    HRest (atRest (Live.after live h) (hnswAfter env B s h).1 : HPar V M D) := by
  have hinv : Hnsw.Inv L (Live.after live h) (hnswAfter env B s h) := hnswAfter_inv env hs hok
  have hv := hinv.gr.vec
  have hz := hinv.gr.lev.zero
  have hkey : ∀ id, ((hnswAfter env B s h).1.vectors.get? id).isSome ↔ id ∈ Live.idsOf (Live.after live h) := by
    intro id
    rw [hv, ← Dict.mem_keys, Hnsw.vecs_keys]
  refine ⟨rfl, ?_, ?_, hinv.gr.levels_ne, ?_, ?_, ?_⟩
  · intro id
    simp only [atRest]
    rw [atRest_get?, hv, Hnsw.vecs_get?]
  · simp only [atRest]
    rw [hv, Hnsw.vecs_keys]
    exact hinv.gr.nd
  · intro l id hid
    simp only [atRest] at hid ⊢
    rw [hkey]
    unfold nodesAt at hid
    cases hd : (hnswAfter env B s h).1.levels[l]? with
    | none => rw [hd] at hid; cases hid
    | some d =>
      rw [hd] at hid
      exact (hinv.gr.lev.all d (List.mem_of_getElem? hd)).2 id hid
  · intro id hid
    simp only [atRest] at hid ⊢
    rw [hkey] at hid
    unfold nodesAt
    cases hd : (hnswAfter env B s h).1.levels[0]? with
    | none => rw [hd] at hz; cases hz
    | some d =>
      rw [hd] at hz
      have hz' : d.keys = Live.idsOf (Live.after live h) := Option.some.inj hz
      rw [← hz'] at hid
      exact hid
  · intro d hd
    obtain ⟨g, -⟩ := hinv.gr.lev.all d hd
    refine ⟨g.keys, ?_, ?_, ?_⟩
    · intro a b hab; rw [links_eq] at hab ⊢; exact g.sym _ _ hab
    · intro a b hab; rw [links_eq] at hab; exact g.nbr_key hab
    · intro a haa; rw [links_eq] at haa; exact g.irr a haa

/-! ## Concrete cases and refutations -/

/-- Numbers with absolute difference; thread `t` draws the levels `levels[t]` and links to the first `m`
nodes. -/
def exHPar (levels : List (List Nat)) (m : Nat) : HParEnv Nat Nat where
  efSearch := 50
  dist a b := if a = 1000 ∨ b = 1000 then .error .value else .ok ((a - b) + (b - a))
  rnd t i := ⟨((levels[t]?).getD []).getD i 0, fun _ l => l.take m⟩

/-- An initialised index without vectors. -/
def emptyHnsw : HPar Nat Nat Nat := ⟨[], [], 0, [[]], 0, fun _ => .start⟩

/-- Two threads insert one row each, the third searches. -/
def twoAndSearch : Nat → HOp Nat Nat
  | 0 => .insert [⟨"a", 10, none⟩]
  | 1 => .insert [⟨"b", 20, some 5⟩]
  | 2 => .search 12 2
  | _ => .insert []

/-- One thread inserts three rows, one searches. -/
def threeAndSearch : Nat → HOp Nat Nat
  | 0 => .insert [⟨"a", 10, none⟩, ⟨"b", 20, some 7⟩, ⟨"c", 30, none⟩]
  | 1 => .search 28 2
  | _ => .insert []

theorem emptyHnsw_rest : HRest emptyHnsw := by
  refine ⟨rfl, fun id => rfl, by decide, by decide, fun l id h => ?_, (fun id h => by cases h),
    fun d hd => ?_⟩
  · unfold nodesAt emptyHnsw at h
    rcases l with _ | l <;> simp at h
  · simp only [emptyHnsw, List.mem_singleton] at hd
    subst hd
    exact ⟨by simp, by simp [links], by simp [links], by simp [links]⟩

theorem twoAndSearch_new : NewIds twoAndSearch emptyHnsw := by
  refine ⟨fun t => ?_, fun t t' h => ?_, fun t r _ => by simp [emptyHnsw, Dict.keys]⟩
  · rcases t with _ | _ | _ | t <;> simp [twoAndSearch, HOp.rows]
  · rcases t with _ | _ | _ | t <;> rcases t' with _ | _ | _ | t' <;> simp [twoAndSearch, HOp.rows] at *

/-- One thread alone builds the graph of `Hnsw.insert`, and a search alone answers what `Hnsw.search`
answers. -/
example :
    let s := HPar.run (exHPar [[1, 2, 0]] 2) threeAndSearch emptyHnsw (List.replicate 90 0)
    let f := (Hnsw.insert (exHnsw [1, 2, 0] 2) (memBackend Nat Nat) 2 [("a", 10), ("b", 20), ("c", 30)]
      (some [none, some 7]) ⟨[[]], [], 0, 0, true, 0⟩ exMem).2
    s.thr 0 = .done (.ids ["a", "b", "c"]) ∧ s.levels = f.1.levels ∧ s.vectors = f.1.vectors ∧
    s.maxLevel = f.1.maxLevel ∧ s.count = f.1.count := by decide +kernel

example :
    let s := HPar.run (exHPar [[0, 0, 0]] 2) threeAndSearch emptyHnsw
      (List.replicate 60 0 ++ List.replicate 40 1)
    let f := (Hnsw.insert (exHnsw [0, 0, 0] 2) (memBackend Nat Nat) 2 [("a", 10), ("b", 20), ("c", 30)]
      (some [none, some 7]) ⟨[[]], [], 0, 0, true, 0⟩ exMem).2
    s.thr 1 = .done (.hits [⟨"c", 2, none⟩, ⟨"b", 8, some 7⟩]) ∧
    (Hnsw.search (exHnsw [0, 0, 0] 2) (memBackend Nat Nat) 1 28 2 f.1 f.2).1 =
      .ok [⟨"c", 2, none⟩, ⟨"b", 8, some 7⟩] := by decide +kernel

/-- Interleaved threads: all return; the search finds the row that was inserted while it ran. -/
example :
    let s := HPar.run (exHPar [] 2) twoAndSearch emptyHnsw
      (List.replicate 40 0 ++ [1, 1, 1] ++ List.replicate 7 2 ++ List.replicate 12 1 ++
        (List.replicate 20 [1, 2]).flatten)
    s.thr 0 = .done (.ids ["a"]) ∧ s.thr 1 = .done (.ids ["b"]) ∧
    s.thr 2 = .done (.hits [⟨"a", 2, none⟩, ⟨"b", 8, some 5⟩]) ∧
    s.levels = [[("a", ["b"]), ("b", ["a"])]] := by decide +kernel

/-- **C210 (refuted), count.** Two threads insert one vector each; both have returned, and
`get_stats()["vector_count"]` says 1. -/
theorem C210_hnsw_count_refuted :
    let s := HPar.run (exHPar [] 2) twoAndSearch emptyHnsw
      (List.replicate 4 0 ++ List.replicate 40 1 ++ List.replicate 40 0)
    (∀ t < 2, s.thr t = .done (.ids [["a", "b"].getD t ""])) ∧ s.vectors.length = 2 ∧
    (hnswLeft s).statCount = some 1 := by
  decide +kernel

/-- **C210 (refuted), top level.** The level of a node is forgotten: level 2 has a node, `max_level` says 0. -/
theorem C210_hnsw_top_refuted :
    let s := HPar.run (exHPar [[2], [0]] 2) twoAndSearch emptyHnsw
      (List.replicate 9 1 ++ List.replicate 60 0 ++ List.replicate 40 1)
    (∀ t < 2, s.thr t = .done (.ids [["a", "b"].getD t ""])) ∧ nodesAt s.levels 2 = ["a"] ∧
    (hnswLeft s).statMaxLevel = some 0 := by
  decide +kernel

/-- **C210 (refuted), links.** Two threads that link to each other enter one link twice.  When the node is
deleted later, one of the two stays: a link to a node that is not there. -/
theorem C210_hnsw_doubled_refuted :
    let s := HPar.run (exHPar [] 2) twoAndSearch emptyHnsw
      (List.replicate 10 0 ++ List.replicate 10 1 ++ List.replicate 3 0 ++ List.replicate 40 1 ++ List.replicate 40 0)
    (∀ t < 2, s.thr t = .done (.ids [["a", "b"].getD t ""])) ∧
    s.levels.map (fun d => [links d "a", links d "b"]) = [[["b"], ["a", "a"]]] ∧
    (Hnsw.removeInternal "a" (hnswLeft s)).levels = [[("b", ["a"])]] := by
  decide +kernel

/-- **C211 (refuted), raises.** A search on an index with a vector raises because another thread inserts. -/
theorem C211_hnsw_beside_refuted :
    let s := HPar.run (exHPar [] 2) twoAndSearch emptyHnsw
      (List.replicate 40 0 ++ List.replicate 6 2 ++ List.replicate 8 1 ++ [2])
    s.thr 0 = .done (.ids ["a"]) ∧ s.thr 2 = .done .raised ∧ s.store.get? "a" = some (10, none) := by
  decide +kernel

end Valori.Props
