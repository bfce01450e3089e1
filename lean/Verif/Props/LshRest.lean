import Verif.Props.LshConcCases
import Verif.Props.LoneLsh
import Verif.Props.LshConc
import Verif.Props.Lsh

/-!
# C241: a search of an LSH index after threads have left it at rest
-/

namespace Valori.Props
open Valori Valori.LConc Lsh
open Valori.Spec (NHit Slots)

variable {V M S : Type} [LinearOrder S] {e : LshEnv V S M} {env : LConcEnv V S} {d : Nat} {ops : Nat → LOp V M}
  {s s0 : LConc V M S}

/-- The ids of the index with what is stored under them. -/
def slotsOf (d : Nat) (s : LConc V M S) : Slots V M :=
  ⟨some d, (List.range s.nextId).map fun id =>
    match (s.vectors[id]?).join, (s.metas[id]?).join with
    | some v, some m => some (v, m)
    | _, _ => none⟩

theorem slotsOf_at {id : Nat} (hr : AtRest env s) {x : V × M} : (slotsOf d s).at? id = some x ↔ Lives env s id x.1 x.2 := by
  rw [at?_eq_some]
  simp only [slotsOf, List.getElem?_map]
  by_cases h : id < s.nextId
  · rw [List.getElem?_range h]
    rcases hr.old id h with ⟨v, m, hl⟩ | hg
    · simp only [hl.1, hl.2.1, Option.map_some, Option.join_some, Option.some.injEq]
      constructor
      · rintro rfl; exact hl
      · intro h'
        have h1 := h'.1; have h2 := h'.2.1
        rw [hl.1] at h1; rw [hl.2.1] at h2
        simp only [Option.some.injEq] at h1 h2
        rw [h1, h2]
    · simp only [hg.1, hg.2.1, Option.map_some, Option.join_some, Option.some.injEq]
      constructor
      · intro h'; cases h'
      · intro h'; have := h'.1; rw [hg.1] at this; cases this
  · rw [List.getElem?_eq_none (by simpa using h)]
    constructor
    · intro h'; cases h'
    · intro h'
      have := h'.1
      rw [List.getElem?_eq_none (by rw [hr.vec]; omega)] at this
      cases this

theorem hash_dim (hm : LMatch e env d) (ht : 0 < e.numTables) {v : V} {codes : List Code}
    (h : env.hash v = some codes) : e.dim v = d := by
  rw [hm.hash] at h
  obtain ⟨n, hn⟩ : ∃ n, e.numTables = n + 1 := ⟨e.numTables - 1, by omega⟩
  rw [hn, List.range_succ_eq_map] at h
  by_contra hd
  simp only [hashTables, hashOne, hd] at h
  split at h
  · cases h
  · rename_i hx
    split at hx
    · cases hx
    · simp at hx

theorem hash_codes (hc : e.hashSize ≤ e.numProj) (hm : LMatch e env d) (ht : 0 < e.numTables) {v : V}
    {codes : List Code} (h : env.hash v = some codes) :
    codes = (List.range e.numTables).map fun t => codeOf e d t v := by
  have hd := hash_dim hm ht h
  rw [hm.hash, hashTables_ok hc hd] at h
  exact (Option.some.inj h).symm

theorem plain_bucket (j : Nat) (c : Code) (tb : Dict Code (List Nat)) (h : s.tables[j]? = some tb) :
    Lsh.bucket (plainT tb) c = (s.bucket j c).map Int.ofNat := by
  unfold Lsh.bucket LConc.bucket
  rw [plainT_get, h]
  simp only [Option.getD_some]
  cases tb.get? c <;> rfl

theorem rest_inv (hc : e.hashSize ≤ e.numProj) (hm : LMatch e env d) (ht : 0 < e.numTables)
    (hl : s.tables.length = e.numTables) (hk : ∀ d ∈ s.tables, d.keys.Nodup) (hr : AtRest env s) :
    Inv e (slotsOf d s) (plainLsh d s) := by
  have hcur : ∀ n v, cur (slotsOf d s) n = some v ↔ ∃ m, Lives env s n v m := by
    intro n v
    simp only [cur, Option.map_eq_some_iff]
    constructor
    · rintro ⟨x, hx, rfl⟩; exact ⟨x.2, (slotsOf_at hr).1 hx⟩
    · rintro ⟨m, h⟩; exact ⟨(v, m), (slotsOf_at hr).2 h, rfl⟩
  have hlen : (slotsOf d s).slots.length = s.nextId := by simp [slotsOf]
  refine ⟨rfl, rfl, ?_, ?_, hlen.symm, by simp [plainLsh, hl], fun n v m h => ?_, ⟨fun j tb hj => ?_⟩⟩
  · apply List.ext_getElem?
    intro id
    show s.vectors[id]? = _
    simp only [slotsOf, List.map_map, List.getElem?_map]
    by_cases h : id < s.nextId
    · rw [List.getElem?_range h]
      rcases hr.old id h with ⟨v, m, h⟩ | h
      · simp [h.1, h.2.1]
      · simp [h.1, h.2.1]
    · rw [List.getElem?_eq_none (by rw [hr.vec]; omega), List.getElem?_eq_none (by simpa using h)]; rfl
  · apply List.ext_getElem?
    intro id
    show s.metas[id]? = _
    simp only [slotsOf, List.map_map, List.getElem?_map]
    by_cases h : id < s.nextId
    · rw [List.getElem?_range h]
      rcases hr.old id h with ⟨v, m, h⟩ | h
      · simp [h.1, h.2.1]
      · simp [h.1, h.2.1]
    · rw [List.getElem?_eq_none (by rw [hr.md]; omega), List.getElem?_eq_none (by simpa using h)]; rfl
  · obtain ⟨-, -, codes, hh, -⟩ := (slotsOf_at hr).1 h
    show some d = _
    rw [hash_dim hm ht hh]
  · simp only [plainLsh, List.getElem?_map, Option.map_eq_some_iff] at hj
    obtain ⟨tb, htb, rfl⟩ := hj
    have hjl : j < e.numTables := by rw [← hl]; exact (List.getElem?_eq_some_iff.1 htb).1
    have hcnt : ∀ c n, n ∈ s.bucket j c ↔ ∃ v m, Lives env s n v m ∧ codeOf e d j v = c := by
      intro c n
      constructor
      · intro hn
        have hlt : n < s.nextId := by
          by_contra hge
          exact hr.new n (by omega) j c hn
        rcases hr.old n hlt with ⟨v, m, h⟩ | h
        · refine ⟨v, m, h, ?_⟩
          obtain ⟨-, -, codes, h1, h2, h3⟩ := h
          have := h3 j c
          rw [hash_codes hc hm ht h1, List.getElem?_map, List.getElem?_range hjl] at this
          simp only [Option.map_some, Option.some.injEq] at this
          by_contra hne
          rw [if_neg hne] at this
          exact List.count_eq_zero.1 this hn
        · exact absurd hn (h.2.2 j c)
      · rintro ⟨v, m, ⟨-, -, codes, h1, h2, h3⟩, rfl⟩
        have := h3 j (codeOf e d j v)
        rw [hash_codes hc hm ht h1, List.getElem?_map, List.getElem?_range hjl] at this
        simp only [Option.map_some, if_true] at this
        exact List.count_pos_iff.1 (by omega)
    refine ⟨?_, fun c => ?_, fun c i => ?_⟩
    · have := hk tb (List.mem_of_getElem? htb)
      simpa [plainT, Dict.keys, Function.comp_def] using this
    · rw [plain_bucket j c tb htb]
      refine List.Nodup.map (fun a b h => by simpa using h) ?_
      rw [List.nodup_iff_count_le_one]
      intro n
      by_cases hn : n ∈ s.bucket j c
      · obtain ⟨v, m, ⟨-, -, codes, h1, h2, h3⟩, -⟩ := (hcnt c n).1 hn
        rw [h3]; split <;> omega
      · rw [List.count_eq_zero.2 hn]; omega
    · rw [plain_bucket j c tb htb, List.mem_map]
      constructor
      · rintro ⟨n, hn, rfl⟩
        obtain ⟨v, m, h, he⟩ := (hcnt c n).1 hn
        exact ⟨n, v, rfl, (hcur n v).2 ⟨m, h⟩, he⟩
      · rintro ⟨n, v, rfl, h, he⟩
        obtain ⟨m, h⟩ := (hcur n v).1 h
        exact ⟨n, (hcnt c n).2 ⟨v, m, h, he⟩, rfl⟩

/-- **C241** A search of an index at rest with nobody else at work is answered: at most `k` results, the most similar
first, each a living id with its true similarity, above the threshold, and its metadata; a vector that has to be
considered is left out only for vectors at least as similar. -/
theorem C241_search (hc : e.hashSize ≤ e.numProj) (hset : SetLike e.setOrder) (hm : LMatch e env d)
    (ht : 0 < e.numTables) (hl : s.tables.length = e.numTables) (hk : ∀ d ∈ s.tables, d.keys.Nodup) (hr : AtRest env s)
    {t : Nat} {q : V} {k : Nat} (ho : ops t = .search q k) (h0 : s.thr t = .start) (hq : Lsh.valid e d q = true)
    (hsim : ∀ v, ∃ x, e.sim q v = .ok x) :
    ∃ n hits, (s.run env ops (List.replicate n t)).thr t = .done (.hits hits) ∧ hits.length ≤ k ∧
      (hits.map NHit.id).Nodup ∧ hits.Pairwise (fun x y => y.score ≤ x.score) ∧
      (∀ h ∈ hits, ∃ (id : Nat) (v : V) (m : M), h.id = id ∧ Lives env s id v m ∧ e.sim q v = .ok h.score ∧
        e.threshold ≤ h.score ∧ h.md = some m) ∧
      ∀ (id : Nat) (v : V) (m : M) (x : S), Lives env s id v m →
        Considered e (plainLsh d s) (slotsOf d s) q v → e.sim q v = .ok x → e.threshold ≤ x →
        (⟨id, x, some m⟩ ∈ hits) ∨ (hits.length = k ∧ ∀ h ∈ hits, x ≤ h.score) := by
  have hI := rest_inv hc hm ht hl hk hr
  obtain ⟨hits, hh⟩ := lsh_answers hc hset hI q k none (fun d' h => by cases h; exact hq) hsim
  obtain ⟨n, r, h1, -, -, h2⟩ := C213_lsh_search hm h0 hk ho hq
  rw [hh] at h2
  simp only at h2
  have hA := lsh_search hc hset hI q k none hh
  refine ⟨n, hits, by rw [h1, h2], hA.length, hA.nodup, hA.sorted, fun h hm => ?_, fun id v m x hv => ?_⟩
  · obtain ⟨id, v, m, a1, a2, a3, a4, a5⟩ := hA.sound h hm
    exact ⟨id, v, m, a1, (slotsOf_at hr).1 a2, a3, a4, a5⟩
  · exact hA.best id v m x ((slotsOf_at (x := (v, m)) hr).2 hv)

/-- **C241** The same of the index that threads leave, once every call that has begun has ended. -/
theorem C241_search_after (hc : e.hashSize ≤ e.numProj) (hset : SetLike e.setOrder) (hm : LMatch e env d)
    (ht : 0 < e.numTables) (hl : s0.tables.length = e.numTables) (hk : ∀ d ∈ s0.tables, d.keys.Nodup)
    (hr : AtRest env s0) (h0 : ∀ t, s0.thr t = .start) (ha : Apart ops s0) (hf : ∀ t, OpFits env s0 (ops t))
    {sched : List Nat}
    (hall : ∀ t, (s0.run env ops sched).thr t = .start ∨ ∃ r, (s0.run env ops sched).thr t = .done r)
    {t : Nat} {q : V} {k : Nat} (ho : ops t = .search q k) (hs : (s0.run env ops sched).thr t = .start)
    (hq : Lsh.valid e d q = true) (hsim : ∀ v, ∃ x, e.sim q v = .ok x) :
    ∃ n hits, (s0.run env ops (sched ++ List.replicate n t)).thr t = .done (.hits hits) ∧ hits.length ≤ k ∧
      (hits.map NHit.id).Nodup ∧ hits.Pairwise (fun x y => y.score ≤ x.score) ∧
      (∀ h ∈ hits, ∃ (id : Nat) (v : V) (m : M), h.id = id ∧ Lives env (s0.run env ops sched) id v m ∧
        e.sim q v = .ok h.score ∧ e.threshold ≤ h.score ∧ h.md = some m) ∧
      ∀ (id : Nat) (v : V) (m : M) (x : S), Lives env (s0.run env ops sched) id v m →
        Considered e (plainLsh d (s0.run env ops sched)) (slotsOf d (s0.run env ops sched)) q v →
        e.sim q v = .ok x → e.threshold ≤ x →
        (⟨id, x, some m⟩ ∈ hits) ∨ (hits.length = k ∧ ∀ h ∈ hits, x ≤ h.score) := by
  obtain ⟨n, hits, h1, h2⟩ := C241_search (t := t) hc hset hm ht ((LInv.run hr h0 ha hf sched).tables.trans hl)
    (C213_lsh_keys hk sched) (C241_at_rest hr h0 ha hf hall) ho hs hq hsim
  refine ⟨n, hits, ?_, h2⟩
  rw [LConc.run, List.foldl_append]
  exact h1

/-! ## A case -/

/-- The hypotheses of both theorems can be met, with a search that has something to find. -/
example : lseq.hashSize ≤ lseq.numProj ∧ SetLike lseq.setOrder ∧ 0 < lseq.numTables ∧
    (lindex [0, 5, 0]).tables.length = lseq.numTables ∧ (∀ d ∈ (lindex [0, 5, 0]).tables, d.keys.Nodup) ∧
    Lsh.valid lseq 1 0 = true ∧ (∀ v, ∃ x, lseq.sim 0 v = .ok x) ∧
    Considered lseq (plainLsh 1 (lindex [0, 5, 0])) (slotsOf 1 (lindex [0, 5, 0])) 0 0 ∧
    ((lindex [0, 5, 0]).run lenv lapart (lsched ++ [1, 1, 1, 1, 1, 1, 1, 2, 2, 2, 2])).thr 4 = .start ∧
    ((lindex [0, 5, 0]).run lenv lapart (lsched ++ [1, 1, 1, 1, 1, 1, 1, 2, 2, 2, 2] ++ List.replicate 20 4)).thr 4 =
      .done (.hits [⟨0, 10, some 100⟩, ⟨3, 10, some 7⟩]) := by
  refine ⟨by decide, fun l => ⟨List.nodup_dedup _, fun x => List.mem_dedup⟩, by decide, by decide, by decide +kernel,
    by decide, fun v => ⟨_, rfl⟩, .inl ?_, by rfl, by rfl⟩
  exact ⟨_, _, rfl, rfl, 0, _, rfl, rfl⟩

end Valori.Props
