import Verif.Props.Lsh
import Mathlib.Tactic.FieldSimp
import Mathlib.Tactic.Positivity

/-!
# C33 and C85 for every history of an LSH index

What a refused update does to its id for good, and what the bucket statistics really are.
-/

namespace Valori.Props
open Valori Lsh
open Valori.Spec (NHit SCall Slots)

variable {V S M : Type} [LinearOrder S]

/-! ## C85 -/

/-- The members of one table are the live ids, in some order. -/
theorem table_perm {code : V → Code} {a : Slots V M} {d : Dict Code (List Int)}
    (h : TableOk code (cur a) d) : ((d.map Prod.snd).flatten).Perm (liveIds a) := by
  have hb : ∀ e ∈ d, bucket d e.1 = e.2 := fun e he => by
    simp [bucket, Dict.get?_of_mem h.keys he]
  have hnd : ((d.map Prod.snd).flatten).Nodup := by
    rw [List.nodup_flatten]
    constructor
    · intro l hl
      obtain ⟨e, he, rfl⟩ := List.mem_map.1 hl
      rw [← hb e he]; exact h.nd _
    · rw [List.pairwise_map]
      have hk : d.Pairwise fun x y => x.1 ≠ y.1 := by
        have := h.keys
        rw [Dict.keys, List.Nodup, List.pairwise_map] at this
        exact this
      refine (hk.imp_of_mem ?_)
      intro x y hx hy hxy i hi hj
      rw [← hb x hx] at hi
      rw [← hb y hy] at hj
      obtain ⟨n, v, e1, e2, e3⟩ := (h.mem _ _).1 hi
      obtain ⟨n', v', f1, f2, f3⟩ := (h.mem _ _).1 hj
      have : n = n' := by omega
      subst this
      rw [e2] at f2
      obtain rfl := Option.some.inj f2
      exact hxy (e3.symm.trans f3)
  have hnl : (liveIds a).Nodup := by
    unfold liveIds
    exact (List.nodup_range.filter _).map fun x y h => by simpa using h
  rw [List.perm_ext_iff_of_nodup hnd hnl]
  intro i
  constructor
  · intro hi
    obtain ⟨l, hl, hil⟩ := List.mem_flatten.1 hi
    obtain ⟨e, he, rfl⟩ := List.mem_map.1 hl
    rw [← hb e he] at hil
    obtain ⟨n, v, e1, e2, -⟩ := (h.mem _ _).1 hil
    obtain ⟨x, hx, -⟩ := Option.map_eq_some_iff.1 e2
    simp only [liveIds, List.mem_map, List.mem_filter, List.mem_range]
    exact ⟨n, ⟨at?_lt hx, by simp [hx]⟩, by simp [e1]⟩
  · intro hi
    simp only [liveIds, List.mem_map, List.mem_filter, List.mem_range] at hi
    obtain ⟨n, ⟨-, hn⟩, rfl⟩ := hi
    obtain ⟨x, hx⟩ := Option.isSome_iff_exists.1 hn
    have hm : (n : Int) ∈ bucket d (code x.1) := (h.mem _ _).2 ⟨n, x.1, rfl, by simp [cur, hx], rfl⟩
    simp only [bucket] at hm
    cases hg : d.get? (code x.1) with
    | none => simp [hg] at hm
    | some l =>
      rw [hg] at hm
      exact List.mem_flatten.2 ⟨l, List.mem_map.2 ⟨_, Dict.mem_of_get? hg, rfl⟩, hm⟩

/-- A list of lists that are all permutations of one list. -/
theorem flatten_perms {α : Type} (l : List α) (ls : List (List α)) (h : ∀ x ∈ ls, x.Perm l) :
    ls.flatten.Perm (List.replicate ls.length l).flatten := by
  induction ls with
  | nil => simp
  | cons x ls ih =>
    simp only [List.flatten_cons, List.length_cons, List.replicate_succ]
    exact (h x (by simp)).append (ih fun y hy => h y (by simp [hy]))

theorem foldl_max_le_iff (l : List Int) (x b : Int) : l.foldl max x ≤ b ↔ x ≤ b ∧ ∀ y ∈ l, y ≤ b := by
  induction l generalizing x with
  | nil => simp
  | cons y l ih => simp [ih, and_assoc]

theorem foldl_max_member (l : List Int) (x : Int) : l.foldl max x = x ∨ l.foldl max x ∈ l := by
  induction l generalizing x with
  | nil => simp
  | cons y l ih =>
    simp only [List.foldl_cons, List.mem_cons]
    rcases ih (max x y) with h | h
    · rw [h]
      rcases le_total x y with h' | h'
      · rw [max_eq_right h']; simp
      · rw [max_eq_left h']; simp
    · exact Or.inr (Or.inr h)

omit [LinearOrder S] in
/-- **C85** (refuted) for every history: what `get_stats` calls the largest bucket size is the largest
live id, and what it calls the average bucket size is the mean of the live ids, whatever the buckets. -/
theorem C85_lsh_buckets_refuted {env : LshEnv V S M} (hc : env.hashSize ≤ env.numProj)
    (ht : 0 < env.numTables) {h : List (SCall V M S)} (ho : LshOk env h) :
    let a := slotsAfter env h
    let f := lshAfter env h
    (a.count = 0 → statMaxBucket f = 0 ∧ statAvgBucket f = 0) ∧
    (a.count ≠ 0 →
      (∃ n : Nat, statMaxBucket f = n ∧ (a.at? n).isSome = true ∧
        ∀ k, (a.at? k).isSome = true → k ≤ n) ∧
      statAvgBucket f = ((liveIds a).sum : ℚ) / a.count) := by
  intro a f
  have hI : Inv env a f := lsh_inv hc ho
  have hp : (bucketList f).Perm (List.replicate env.numTables (liveIds a)).flatten := by
    have := flatten_perms (liveIds a) (f.tables.map fun d => (d.map Prod.snd).flatten) (by
      intro x hx
      obtain ⟨d, hd, rfl⟩ := List.mem_map.1 hx
      obtain ⟨t, htl, rfl⟩ := List.getElem_of_mem hd
      exact table_perm (hI.tab.ok t _ (List.getElem?_eq_getElem htl)))
    rw [List.length_map, hI.len] at this
    exact this
  have hmem : ∀ i, i ∈ bucketList f ↔ i ∈ liveIds a := by
    intro i
    rw [hp.mem_iff, List.mem_flatten]
    constructor
    · rintro ⟨l, hl, hi⟩
      rw [(List.mem_replicate.1 hl).2] at hi
      exact hi
    · intro hi
      exact ⟨_, List.mem_replicate.2 ⟨by omega, rfl⟩, hi⟩
  have hlen : (bucketList f).length = env.numTables * a.count := by
    rw [hp.length_eq]
    simp [liveIds_length]
  have hsum : (bucketList f).sum = env.numTables * (liveIds a).sum := by
    rw [hp.sum_eq]
    simp
  have hlive : ∀ i, i ∈ liveIds a ↔ ∃ n : Nat, i = n ∧ (a.at? n).isSome = true := by
    intro i
    simp only [liveIds, List.mem_map, List.mem_filter, List.mem_range]
    constructor
    · rintro ⟨n, ⟨-, hn⟩, rfl⟩; exact ⟨n, rfl, hn⟩
    · rintro ⟨n, rfl, hn⟩
      obtain ⟨x, hx⟩ := Option.isSome_iff_exists.1 hn
      exact ⟨n, ⟨at?_lt hx, hn⟩, rfl⟩
  constructor
  · intro h0
    have : bucketList f = [] := List.length_eq_zero_iff.1 (by rw [hlen, h0]; simp)
    simp [statMaxBucket, statAvgBucket, this]
  · intro h0
    cases hb : bucketList f with
    | nil =>
      rw [hb] at hlen
      simp at hlen
      omega
    | cons i l =>
      constructor
      · have hmx : statMaxBucket f ∈ bucketList f := by
          simp only [statMaxBucket, hb]
          rcases foldl_max_member l i with e | e
          · rw [e]; simp
          · exact List.mem_cons_of_mem _ e
        obtain ⟨n, hn, hn'⟩ := (hlive _).1 ((hmem _).1 hmx)
        refine ⟨n, hn, hn', ?_⟩
        intro k hk
        have hk' := (hmem _).2 ((hlive _).2 ⟨k, rfl, hk⟩)
        have hle := (foldl_max_le_iff l i (statMaxBucket f)).1 (by simp [statMaxBucket, hb])
        have : (k : Int) ≤ statMaxBucket f := by
          rw [hb] at hk'
          rcases List.mem_cons.1 hk' with e | e
          · rw [e]; exact hle.1
          · exact hle.2 _ e
        omega
      · have h1 : ((i :: l).sum : ℤ) = env.numTables * (liveIds a).sum := by rw [← hb]; exact hsum
        have h2 : l.length + 1 = env.numTables * a.count := by rw [← hlen, hb]; rfl
        simp only [statAvgBucket, hb]
        have h2' : ((l.length : ℚ) + 1) = env.numTables * a.count := by exact_mod_cast h2
        rw [h2', h1]
        have : (env.numTables : ℚ) ≠ 0 := by exact_mod_cast ht.ne'
        have : (a.count : ℚ) ≠ 0 := by exact_mod_cast h0
        push_cast
        field_simp

example : (slotsAfter (exLshEnv 1 2) exLshHist).count = 3 ∧ 0 < (exLshEnv 1 2).numTables ∧
    statMaxBucket (lshAfter (exLshEnv 1 2) exLshHist) = 3 := by decide

omit [LinearOrder S] in
/-- **C85**, table sizes: one entry per table, each at least the number of different codes of the live
vectors.  Missing: equality, since buckets emptied by deletes and updates stay in the table and are
counted (`C85_lsh_table_sizes_refuted`). -/
theorem C85_lsh_table_sizes_partial {env : LshEnv V S M} (hc : env.hashSize ≤ env.numProj)
    {h : List (SCall V M S)} (ho : LshOk env h) :
    (statTables (lshAfter env h)).length = env.numTables ∧
    ∀ (t size : Nat), (statTables (lshAfter env h))[t]? = some size →
      ∀ cs : List Code, cs.Nodup →
        (∀ c ∈ cs, ∃ n v m, ∃ codes : List Code, (slotsAfter env h).at? n = some (v, m) ∧
          hashVector env (lshAfter env h) v = .ok codes ∧ codes[t]? = some c) →
        cs.length ≤ size := by
  have hI := lsh_inv hc ho
  refine ⟨by simp [statTables, hI.len], ?_⟩
  intro t size hs cs hnd hcs
  simp only [statTables, List.getElem?_map, Option.map_eq_some_iff] at hs
  obtain ⟨d, hd, rfl⟩ := hs
  have htl := (List.getElem?_eq_some_iff.1 hd).1
  have hsub : cs ⊆ Dict.keys d := by
    intro c hcm
    obtain ⟨n, v, m, codes, h1, h2, h3⟩ := hcs c hcm
    rw [hI.hash hc (hI.dims n v m h1)] at h2
    obtain rfl := Except.ok.inj h2
    rw [List.getElem?_map, List.getElem?_range htl] at h3
    obtain rfl := Option.some.inj h3
    have hm := ((hI.tab.ok t d hd).mem (codeOf env ((slotsAfter env h).dim.getD 0) t v) n).2
      ⟨n, v, rfl, by simp [cur, h1], rfl⟩
    simp only [bucket] at hm
    cases hg : Dict.get? d (codeOf env ((slotsAfter env h).dim.getD 0) t v) with
    | none => simp [hg] at hm
    | some l => exact List.mem_map.2 ⟨_, Dict.mem_of_get? hg, rfl⟩
  have := (List.subperm_of_subset hnd hsub).length_le
  simpa [Dict.keys] using this

/-- **C85** (refuted) The sizes of the tables after inserting one vector and deleting it: no vector is
left, each table still reports one bucket. -/
theorem C85_lsh_table_sizes_refuted :
    let h : List (SCall (List Int) Nat Int) := [.insert 2 2 [[1, 1]] none, .delete ["0"]]
    (slotsAfter (exLshEnv 1 2) h).count = 0 ∧ statTables (lshAfter (exLshEnv 1 2) h) = [1, 1] := by
  decide

/-! ## C33 -/

/-- Hits come from the candidates. -/
theorem score_among (env : LshEnv V S M) (f : Lsh V M) (q : V) (thr : S) (cands : List Int) :
    ∀ {l : List (NHit S M)}, score env f q thr cands = .ok l → ∀ x ∈ l, x.id ∈ cands := by
  induction cands with
  | nil =>
    intro l h
    obtain rfl := Except.ok.inj h
    simp
  | cons i cands ih =>
    intro l h x hx
    unfold score at h
    split_ifs at h with h0
    · exact List.mem_cons_of_mem _ (ih h x hx)
    · split at h
      · cases h
      · exact List.mem_cons_of_mem _ (ih h x hx)
      · split at h
        · cases h
        · split_ifs at h
          · split at h
            · cases h
            · split at h
              · cases h
              next l' hl' =>
                obtain rfl := Except.ok.inj h
                rcases List.mem_cons.1 hx with rfl | hx
                · exact List.mem_cons_self
                · exact List.mem_cons_of_mem _ (ih hl' x hx)
          · exact List.mem_cons_of_mem _ (ih h x hx)

omit [LinearOrder S] in
/-- Hashing a vector of another dimension raises. -/
theorem hash_raises {env : LshEnv V S M} (hc : env.hashSize ≤ env.numProj) (ht : 0 < env.numTables)
    {f : Lsh V M} {d : Nat} {v : V} (hd : f.dimension = some d) (hv : env.dim v ≠ d) :
    hashVector env f v = .error .value := by
  obtain ⟨n, hn⟩ : ∃ n, env.numTables = n + 1 := ⟨env.numTables - 1, by omega⟩
  have h0 : hashOne env d 0 v = .error .value := by
    unfold hashOne
    simp only
    rw [if_neg, if_pos hv]
    simp only [List.any_eq_true, decide_eq_true_eq, not_exists, not_and, not_le]
    exact fun p hp => projIndices_lt hc 0 p hp
  simp only [hashVector, hd, hn, List.range_succ_eq_map, hashTables, h0]

/-- **C33** (refuted) for every history and every live id: an update with a vector of another length
returns `False`, and from then on the id is in no answer, cannot be updated and cannot be deleted,
although it still counts. -/
theorem C33_lsh_update_all_refuted {env : LshEnv V S M} (hc : env.hashSize ≤ env.numProj)
    (ht : 0 < env.numTables) (hset : SetLike env.setOrder) {h : List (SCall V M S)}
    (ho : LshOk env h) (id : String) (n : Nat) (hid : env.parse id = some (n : Int))
    (hlive : ((slotsAfter env h).at? n).isSome = true) (v : V) (m : Option M)
    (hv : (slotsAfter env h).dim ≠ some (env.dim v)) :
    let f := lshAfter env h
    let r := Lsh.update env id v m f
    r.1 = .ok false ∧ statCount r.2 = statCount f ∧
    (∀ q k thr hits, Lsh.search env q k thr r.2 = .ok hits → ∀ x ∈ hits, x.id ≠ n) ∧
    (∀ w m', Lsh.update env id w m' r.2 = (.ok false, r.2)) ∧
    Lsh.delete env [id] r.2 = (false, r.2) := by
  intro f r
  have hI : Inv env (slotsAfter env h) f := lsh_inv hc ho
  obtain ⟨⟨old, om⟩, hx⟩ := Option.isSome_iff_exists.1 hlive
  have hlen : f.vectors.length = (slotsAfter env h).slots.length := by rw [hI.vec]; simp
  have hn' : n < (slotsAfter env h).slots.length := at?_lt hx
  have ho' := at?_eq_some.1 hx
  have hdo := hI.dims n old om hx
  have hdim : f.dimension = some (env.dim old) := hI.dim.trans hdo
  have hvd : env.dim v ≠ env.dim old := by
    intro e; rw [e] at hv; exact hv hdo
  have hget : pyGet f.vectors (n : Int) = some (some old) := by
    rw [pyGet_nat, hI.vec, List.getElem?_map, ho']; rfl
  have hmd : pyGet f.metadata (n : Int) = some (some om) := by
    rw [pyGet_nat, hI.md, List.getElem?_map, ho']; rfl
  obtain ⟨md', hr⟩ : ∃ md', r = (.ok false, { f with
      tables := dropCodes n f.tables ((List.range f.tables.length).map fun t =>
        codeOf env ((slotsAfter env h).dim.getD 0) t old)
      vectors := f.vectors.set n (some v)
      metadata := md' }) := by
    have hh : ∀ tb vs md nid ini, hashVector env ⟨tb, f.dimension, vs, md, nid, ini⟩ v =
        .error .value := fun tb vs md nid ini => hash_raises hc ht hdim hvd
    show ∃ md', Lsh.update env id v m f = _
    simp only [Lsh.update, hid, hget]
    rw [if_neg (by simp [hI.inited]), if_neg (by rw [hlen]; omega), hI.hash hc hdo]
    cases m with
    | none => exact ⟨f.metadata, by simp only; rw [hh]; simp only [pySet_nat]⟩
    | some md => exact ⟨f.metadata.set n (some md), by simp only [hmd]; rw [hh]; simp only [pySet_nat]⟩
  have hin : r.2.inited = true := by rw [hr]; exact hI.inited
  have hdim' : r.2.dimension = some (env.dim old) := by rw [hr]; exact hdim
  have hlen' : r.2.vectors.length = (slotsAfter env h).slots.length := by rw [hr]; simp [hlen]
  have hget' : pyGet r.2.vectors (n : Int) = some (some v) := by
    rw [hr, pyGet_nat]
    simp only
    rw [List.getElem?_set_self (by omega)]
  have hraise : hashVector env r.2 v = .error .value := hash_raises hc ht hdim' hvd
  have htab : TablesOk (codeOf env ((slotsAfter env h).dim.getD 0))
      (upd (cur (slotsAfter env h)) n none) r.2.tables := by
    rw [hr]
    exact hI.tab.drop (n := n) (v := old) (by simp [cur, hx])
  have hnot : ∀ (t : Nat) d c, r.2.tables[t]? = some d → (n : Int) ∉ bucket d c := by
    intro t d c hd hmem
    obtain ⟨k, w, e1, e2, -⟩ := ((htab.ok t d hd).mem c n).1 hmem
    have : k = n := by omega
    subst this
    simp [upd] at e2
  refine ⟨by rw [hr], ?_, ?_, ?_, ?_⟩
  · rw [hr]
    simp only [statCount]
    rw [hI.vec]
    have hsplit := List.set_eq_take_append_cons_drop
      (l := (slotsAfter env h).slots.map (Option.map Prod.fst)) (i := n) (a := some v)
    rw [hsplit, if_pos (by simpa using hn')]
    have hl2 : (slotsAfter env h).slots.map (Option.map Prod.fst) =
        ((slotsAfter env h).slots.map (Option.map Prod.fst)).take n ++
          some old :: ((slotsAfter env h).slots.map (Option.map Prod.fst)).drop (n + 1) := by
      conv_lhs => rw [← List.take_append_drop n ((slotsAfter env h).slots.map (Option.map Prod.fst))]
      congr 1
      rw [List.drop_eq_getElem_cons (by simpa using hn')]
      congr 1
      have := (List.getElem?_eq_some_iff.1 ho').2
      simp [this]
    conv_rhs => rw [hl2]
    simp [List.filter_append]
  · intro q k thr hits he x hxm hxe
    simp only [Lsh.search, hin, hdim'] at he
    rw [if_neg (by simp)] at he
    split at he
    · cases he
    split at he
    · cases he
    next codes hcodes =>
      split at he
      · cases he
      next l hl =>
        obtain rfl := Except.ok.inj he
        have hxl : x ∈ l := by
          have : x ∈ sortDesc l := by
            unfold sliceTo at hxm
            split_ifs at hxm <;> exact List.mem_of_mem_take hxm
          exact (sortDesc_perm l).mem_iff.1 this
        have hc1 := score_among env _ _ _ _ hl x hxl
        rw [(hset _).2, hxe] at hc1
        split_ifs at hc1
        · obtain ⟨t, d, c, c', h1, -, -, h4⟩ := (relaxedCands_mem _ _
            (fun t d' h' => (htab.ok t d' h').keys) _).1 hc1
          exact hnot t d c' h1 h4
        · obtain ⟨t, d, c, h1, -, h3⟩ := (exactCands_mem _ _ _).1 hc1
          exact hnot t d c h1 h3
  · intro w m'
    simp only [Lsh.update, hid, hget', hraise]
    rw [if_neg (by simp [hin]), if_neg (by rw [hlen']; omega)]
  · simp only [Lsh.delete, Lsh.remove, List.filterMap_cons, hid, List.filterMap_nil, removeLoop, hget',
      hraise]
    rw [if_neg (by simp [hin]), if_neg (by rw [hlen']; omega)]

/-- The hypotheses hold for id 0 of the example history and a vector with three coordinates. -/
example : (exLshEnv 1 2).parse "0" = some ((0 : Nat) : Int) ∧
    ((slotsAfter (exLshEnv 1 2) exLshHist).at? 0).isSome = true ∧
    (slotsAfter (exLshEnv 1 2) exLshHist).dim ≠ some ((exLshEnv 1 2).dim [1, 2, 3]) := by decide

end Valori.Props
