import Verif.Lemmas.Lsh
import Mathlib.Data.List.Dedup
import Mathlib.Data.List.Induction
import Std.Data.String.ToNat

/-! Properties of the LSH index. -/

namespace Valori.Props
open Spec (NHit SCall Slots)
open Lsh

variable {V S M : Type} [LinearOrder S]

/-- Number of positions in which two codes differ. -/
def diffBits : Code → Code → Nat
  | a :: as, b :: bs => (if a = b then 0 else 1) + diffBits as bs
  | _, _ => 0

theorem hamming_eq (a b : Code) : hamming a b = diffBits a b := by
  induction a generalizing b with
  | nil => simp [hamming, diffBits]
  | cons x a ih =>
    cases b with
    | nil => simp [hamming, diffBits]
    | cons y b =>
      have := ih b
      simp only [hamming] at this
      simp only [hamming, diffBits, List.zip_cons_cons, List.filter_cons]
      by_cases e : x = y
      · simp [e, this]
      · simp [e, this]; omega

/-- A fresh, initialized index after a history. -/
def lshAfter (env : LshEnv V S M) (h : List (SCall V M S)) : Lsh V M :=
  Lsh.run env (Lsh.init env ⟨[], none, [], [], 0, false⟩) h

/-- A vector may be stored at dimension `d`: not empty, of that dimension, finite. -/
def storable (env : LshEnv V S M) (d : Nat) (v : V) : Bool :=
  decide (0 < env.dim v) && decide (env.dim v = d) && env.finite v

/-- What the history should have left. -/
def slotsAfter (env : LshEnv V S M) (h : List (SCall V M S)) : Slots V M :=
  Slots.after env.parse (storable env) env.emptyMd ⟨none, []⟩ h

/-- Assumptions on a history from a fresh index. -/
def LshOk (env : LshEnv V S M) (h : List (SCall V M S)) : Prop :=
  Slots.HistOk env.parse (storable env) env.emptyMd env.dim ⟨none, []⟩ h

omit [LinearOrder S] in
theorem lsh_inv {env : LshEnv V S M} (hc : env.hashSize ≤ env.numProj) {h : List (SCall V M S)}
    (ho : LshOk env h) : Inv env (slotsAfter env h) (lshAfter env h) :=
  Inv.run hc h (new_inv env) ho

/-- The query and the vector have equal codes in some table. -/
def SameBucket (env : LshEnv V S M) (f : Lsh V M) (q v : V) : Prop :=
  ∃ cq cv, hashVector env f q = .ok cq ∧ hashVector env f v = .ok cv ∧
    ∃ (t : Nat) (c : Code), cq[t]? = some c ∧ cv[t]? = some c

/-- Their codes differ in at most two bits in some table. -/
def NearBucket (env : LshEnv V S M) (f : Lsh V M) (q v : V) : Prop :=
  ∃ cq cv, hashVector env f q = .ok cq ∧ hashVector env f v = .ok cv ∧
    ∃ (t : Nat) (c c' : Code), cq[t]? = some c ∧ cv[t]? = some c' ∧ diffBits c c' ≤ 2

/-- The vectors that a search must consider. -/
def Considered (env : LshEnv V S M) (f : Lsh V M) (a : Slots V M) (q v : V) : Prop :=
  SameBucket env f q v ∨
    ((¬ ∃ n w m, a.at? n = some (w, m) ∧ SameBucket env f q w) ∧ NearBucket env f q v)

/-- Iteration over a Python set: every element once, in some order. -/
def SetLike (o : List Int → List Int) : Prop := ∀ l, (o l).Nodup ∧ ∀ x, x ∈ o l ↔ x ∈ l

/-! ### A concrete index used in the examples -/

/-- Two tables of one bit each; vectors are lists of integers, similarity is the dot product. -/
def exLshEnv (hs np : Nat) : LshEnv (List Int) Int Nat where
  numTables := 2
  hashSize := hs
  numProj := np
  threshold := 1
  dim v := v.length
  finite _ := true
  bit _ p _ v := decide (0 ≤ v.getD p 0)
  sim a b := .ok (((a.zip b).map fun p => p.1 * p.2).sum)
  setOrder l := l.dedup
  parse s := if s = "0" then some 0 else if s = "1" then some 1 else if s = "2" then some 2
    else if s = "-1" then some (-1) else none
  emptyMd := 0

/-- Two inserts, an update, a delete and another insert. -/
def exLshHist : List (SCall (List Int) Nat Int) :=
  [.insert 2 2 [[1, 2], [-3, 1]] (some [some 7, some 8]), .update "0" [2, 2] none,
   .delete ["1", "x"], .insert 2 2 [[5, 5], [1, -1]] none]

theorem exLshEnv_setLike (hs np : Nat) : SetLike (exLshEnv hs np).setOrder := fun l =>
  ⟨List.nodup_dedup l, fun _ => List.mem_dedup⟩

theorem exLshHist_ok : LshOk (exLshEnv 1 2) exLshHist := by
  refine ⟨?_, ⟨?_, ?_⟩, ?_, ?_, trivial⟩
  · intro l hl; cases hl; decide
  · intro i hi; simp [exLshEnv] at hi; omega
  · intro d hd; revert hd; simp [Slots.next, Slots.offer, Slots.aligned, Slots.accepts, exLshEnv]
    split <;> simp <;> omega
  · intro s hs i hi
    simp at hs
    rcases hs with rfl | rfl <;> simp [exLshEnv] at hi; omega
  · intro l hl; cases hl

theorem exLshHist_slots : slotsAfter (exLshEnv 1 2) exLshHist =
    ⟨some 2, [some ([2, 2], 7), none, some ([5, 5], 0), some ([1, -1], 0)]⟩ := by decide

/-! ### C28 -/

omit [LinearOrder S] in
/-- C28: after any history, the bucket of code `c` in table `t` lists, each once, exactly the ids of
the live vectors whose `t`-th hash is `c`. -/
theorem C28_lsh_tables {env : LshEnv V S M} (hc : env.hashSize ≤ env.numProj)
    {h : List (SCall V M S)} (ho : LshOk env h) :
    (lshAfter env h).tables.length = env.numTables ∧
    ∀ (t : Nat) (tb : Dict Code (List Int)), (lshAfter env h).tables[t]? = some tb → ∀ c,
      ((tb.get? c).getD []).Nodup ∧
      ∀ i, i ∈ (tb.get? c).getD [] ↔ ∃ (n : Nat) (v : V) (m : M) (cs : List Code), i = n ∧
        (slotsAfter env h).at? n = some (v, m) ∧
        hashVector env (lshAfter env h) v = .ok cs ∧ cs[t]? = some c := by
  have hI := lsh_inv hc ho
  refine ⟨hI.len, ?_⟩
  intro t tb ht c
  have hT := hI.tab.ok t tb ht
  refine ⟨hT.nd c, ?_⟩
  intro i
  have htl : t < (lshAfter env h).tables.length := (List.getElem?_eq_some_iff.1 ht).1
  rw [show i ∈ (tb.get? c).getD [] ↔ _ from hT.mem c i]
  constructor
  · rintro ⟨n, v, e1, e2, e3⟩
    simp only [cur, Option.map_eq_some_iff] at e2
    obtain ⟨⟨v', m⟩, e2, rfl⟩ := e2
    refine ⟨n, v', m, _, e1, e2, hI.hash hc (hI.dims _ _ _ e2), ?_⟩
    rw [List.getElem?_map, List.getElem?_range htl, ← e3]; rfl
  · rintro ⟨n, v, m, cs, e1, e2, e3, e4⟩
    rw [hI.hash hc (hI.dims _ _ _ e2), Except.ok.injEq] at e3
    subst e3
    rw [List.getElem?_map, List.getElem?_range htl] at e4
    exact ⟨n, v, e1, by simp [cur, e2], by simpa using e4⟩

example : (exLshEnv 1 2).hashSize ≤ (exLshEnv 1 2).numProj ∧ LshOk (exLshEnv 1 2) exLshHist ∧
    (lshAfter (exLshEnv 1 2) exLshHist).tables =
      [[([true], [0, 2, 3]), ([false], [])], [([true], [0, 2]), ([false], [3])]] :=
  ⟨by decide, exLshHist_ok, by decide⟩

/-! ### C30 -/

omit [LinearOrder S] in
theorem sameBucket_iff {env : LshEnv V S M} (hc : env.hashSize ≤ env.numProj) {a : Slots V M}
    {f : Lsh V M} (hI : Inv env a f) {d : Nat} (hd : a.dim = some d) {q v : V} (hq : env.dim q = d)
    (hv : env.dim v = d) : SameBucket env f q v ↔
      ∃ t < env.numTables, codeOf env d t v = codeOf env d t q := by
  have e1 : a.dim = some (env.dim q) := by rw [hd, hq]
  have e2 : a.dim = some (env.dim v) := by rw [hd, hv]
  simp only [SameBucket, hI.hash hc e1, hI.hash hc e2, Except.ok.injEq, hd,
    Option.getD_some, hI.len]
  constructor
  · rintro ⟨_, _, rfl, rfl, t, c, h1, h2⟩
    have ht : t < env.numTables := by
      have := (List.getElem?_eq_some_iff.1 h1).1; simpa using this
    rw [List.getElem?_map, List.getElem?_range ht] at h1 h2
    simp only [Option.map_some, Option.some.injEq] at h1 h2
    exact ⟨t, ht, h2.trans h1.symm⟩
  · rintro ⟨t, ht, h⟩
    refine ⟨_, _, rfl, rfl, t, codeOf env d t q, ?_, ?_⟩
    · rw [List.getElem?_map, List.getElem?_range ht]; rfl
    · rw [List.getElem?_map, List.getElem?_range ht, ← h]; rfl

omit [LinearOrder S] in
theorem nearBucket_iff {env : LshEnv V S M} (hc : env.hashSize ≤ env.numProj) {a : Slots V M}
    {f : Lsh V M} (hI : Inv env a f) {d : Nat} (hd : a.dim = some d) {q v : V} (hq : env.dim q = d)
    (hv : env.dim v = d) : NearBucket env f q v ↔
      ∃ t < env.numTables, hamming (codeOf env d t q) (codeOf env d t v) ≤ 2 := by
  have e1 : a.dim = some (env.dim q) := by rw [hd, hq]
  have e2 : a.dim = some (env.dim v) := by rw [hd, hv]
  simp only [NearBucket, hI.hash hc e1, hI.hash hc e2, Except.ok.injEq, hd,
    Option.getD_some, hI.len, ← hamming_eq]
  constructor
  · rintro ⟨_, _, rfl, rfl, t, c, c', h1, h2, h3⟩
    have ht : t < env.numTables := by
      have := (List.getElem?_eq_some_iff.1 h1).1; simpa using this
    rw [List.getElem?_map, List.getElem?_range ht] at h1 h2
    simp only [Option.map_some, Option.some.injEq] at h1 h2
    subst h1 h2
    exact ⟨t, ht, h3⟩
  · rintro ⟨t, ht, h⟩
    refine ⟨_, _, rfl, rfl, t, codeOf env d t q, codeOf env d t v, ?_, ?_, h⟩
    · rw [List.getElem?_map, List.getElem?_range ht]; rfl
    · rw [List.getElem?_map, List.getElem?_range ht]; rfl

/-- A search answer in any represented state. -/
theorem lsh_search {env : LshEnv V S M} (hc : env.hashSize ≤ env.numProj)
    (hset : SetLike env.setOrder) {a : Slots V M} {f : Lsh V M} (hI : Inv env a f) (q : V) (k : Nat)
    (thr : Option S) {hits : List (NHit S M)} (he : Lsh.search env q k thr f = .ok hits) :
    Slots.IsAnswer (env.sim q) (Considered env f a q) (thr.getD env.threshold) k a hits := by
  simp only [Lsh.search, hI.inited] at he
  rw [if_neg (by simp), hI.dim] at he
  cases hd : a.dim with
  | none =>
    rw [hd] at he
    simp only [Except.ok.injEq] at he
    subst he
    refine ⟨by simp, by simp, by simp, by simp, ?_⟩
    intro n v m s h1
    have := hI.dims n v m h1
    rw [hd] at this; simp at this
  | some d =>
    rw [hd] at he
    simp only at he
    by_cases hv : valid env d q = true
    · rw [if_neg (by simp [hv])] at he
      have hqd := valid_dim hv
      have hq : a.dim = some (env.dim q) := by rw [hd, hqd]
      rw [hI.hash hc hq, hd] at he
      simp only [Option.getD_some] at he
      generalize hcs : ((List.range f.tables.length).map fun t => codeOf env d t q) = codes at he
      have hex := hI.exact hd q
      have hre := hI.relaxed hd q
      rw [hcs] at hex hre
      have hdv : ∀ {n v m}, a.at? n = some (v, m) → env.dim v = d := by
        intro n v m h1
        have := hI.dims n v m h1
        rw [hd] at this
        simpa using this.symm
      generalize hC : (if (exactCands f.tables codes).isEmpty = true then
        relaxedCands f.tables codes else exactCands f.tables codes) = cands at he
      have hlive : ∀ i ∈ cands, ∃ (n : Nat) (v : V) (m : M), i = n ∧ a.at? n = some (v, m) := by
        intro i hi
        rw [← hC] at hi
        split at hi
        · obtain ⟨n, v, m, e1, e2, -⟩ := (hre i).1 hi; exact ⟨n, v, m, e1, e2⟩
        · obtain ⟨n, v, m, e1, e2, -⟩ := (hex i).1 hi; exact ⟨n, v, m, e1, e2⟩
      have hnear : ∀ (n : Nat) (v : V) (m : M), a.at? n = some (v, m) → Considered env f a q v →
          (n : Int) ∈ cands := by
        intro n v m h1 h2
        rw [← hC]
        rcases h2 with h2 | ⟨h2, h3⟩
        · have := (hex n).2 ⟨n, v, m, rfl, h1, (sameBucket_iff hc hI hd hqd (hdv h1)).1 h2⟩
          have hne : ¬ (exactCands f.tables codes).isEmpty = true := by
            intro hemp
            rw [List.isEmpty_iff.1 hemp] at this
            simp at this
          rw [if_neg hne]; exact this
        · have hemp : (exactCands f.tables codes).isEmpty = true := by
            rw [List.isEmpty_iff, List.eq_nil_iff_forall_not_mem]
            intro i hi
            obtain ⟨n', w, m', e1, e2, e3⟩ := (hex i).1 hi
            exact h2 ⟨n', w, m', e2, (sameBucket_iff hc hI hd hqd (hdv e2)).2 e3⟩
          rw [if_pos hemp]
          exact (hre n).2 ⟨n, v, m, rfl, h1, (nearBucket_iff hc hI hd hqd (hdv h1)).1 h3⟩
      obtain ⟨hnd, hmem⟩ := hset cands
      cases hsc : Lsh.score env f q (thr.getD env.threshold) (env.setOrder cands) with
      | error e => rw [hsc] at he; simp at he
      | ok l =>
        rw [hsc] at he
        simp only [Except.ok.injEq] at he
        have : sliceTo (sortDesc l) (k : Int) = (sortDesc l).take k := by simp [sliceTo]
        rw [this] at he
        subst he
        obtain ⟨h1, h2, h3⟩ := hI.score q _ _ (fun i hi => hlive i ((hmem i).1 hi)) hsc
        refine answer_of_scores (hnd.sublist h1) h2 ?_
        intro n v m s e1 e2 e3 e4
        exact h3 n v m s ((hmem _).2 (hnear n v m e1 e2)) e1 e3 e4
    · rw [if_pos (by simpa using hv)] at he
      simp at he

/-- C30: after any history, a search answer holds at most `k` distinct live ids with true
similarities at or above the threshold, in non-increasing order, with current metadata; and no vector
that had to be considered is left out for a less similar one. -/
theorem C30_lsh_sound {env : LshEnv V S M} (hc : env.hashSize ≤ env.numProj)
    (hset : SetLike env.setOrder) {h : List (SCall V M S)} (ho : LshOk env h) (q : V) (k : Nat)
    (thr : Option S) {hits : List (NHit S M)}
    (he : Lsh.search env q k thr (lshAfter env h) = .ok hits) :
    Slots.IsAnswer (env.sim q) (Considered env (lshAfter env h) (slotsAfter env h) q)
      (thr.getD env.threshold) k (slotsAfter env h) hits :=
  lsh_search hc hset (lsh_inv hc ho) q k thr he

theorem lsh_answers {env : LshEnv V S M} (hc : env.hashSize ≤ env.numProj) (hset : SetLike env.setOrder)
    {a : Slots V M} {f : Lsh V M} (hI : Inv env a f) (q : V) (k : Int) (thr : Option S)
    (hq : ∀ d, a.dim = some d → storable env d q = true) (hsim : ∀ v, ∃ s, env.sim q v = .ok s) :
    ∃ hits, Lsh.search env q k thr f = .ok hits := by
  simp only [Lsh.search, hI.inited]
  rw [if_neg (by simp), hI.dim]
  cases hd : a.dim with
  | none => exact ⟨_, rfl⟩
  | some d =>
    have hv : valid env d q = true := hq d hd
    simp only
    rw [if_neg (by simp [hv]), hI.hash hc (by rw [hd, valid_dim hv]), hd]
    simp only [Option.getD_some]
    obtain ⟨l, hl⟩ := hI.score_total q (thr.getD env.threshold) (env.setOrder
      (if (exactCands f.tables
        ((List.range f.tables.length).map fun t => codeOf env d t q)).isEmpty = true
        then relaxedCands f.tables
          ((List.range f.tables.length).map fun t => codeOf env d t q)
        else exactCands f.tables
          ((List.range f.tables.length).map fun t => codeOf env d t q))) (by
      intro i hi
      rw [(hset _).2] at hi
      split at hi
      · obtain ⟨n, v, m, e1, e2, -⟩ := (hI.relaxed hd q i).1 hi
        exact ⟨n, v, m, e1, e2, hsim v⟩
      · obtain ⟨n, v, m, e1, e2, -⟩ := (hI.exact hd q i).1 hi
        exact ⟨n, v, m, e1, e2, hsim v⟩)
    rw [hl]
    exact ⟨_, rfl⟩

/-- C30, totality: a finite query of the right dimension is answered. -/
theorem C30_lsh_answers {env : LshEnv V S M} (hc : env.hashSize ≤ env.numProj)
    (hset : SetLike env.setOrder) {h : List (SCall V M S)} (ho : LshOk env h) (q : V) (k : Int)
    (thr : Option S) (hq : ∀ d, (slotsAfter env h).dim = some d → storable env d q = true)
    (hsim : ∀ v, ∃ s, env.sim q v = .ok s) :
    ∃ hits, Lsh.search env q k thr (lshAfter env h) = .ok hits :=
  lsh_answers hc hset (lsh_inv hc ho) q k thr hq hsim

example : SetLike (exLshEnv 1 2).setOrder ∧ LshOk (exLshEnv 1 2) exLshHist ∧
    Lsh.search (exLshEnv 1 2) [3, 1] 2 none (lshAfter (exLshEnv 1 2) exLshHist) =
      .ok [⟨2, 20, some 0⟩, ⟨0, 8, some 7⟩] :=
  ⟨exLshEnv_setLike 1 2, exLshHist_ok, by decide⟩

/-! ### C29 -/

/-- The live ids. -/
def liveIds (a : Slots V M) : List Int :=
  ((List.range a.slots.length).filter fun n => (a.at? n).isSome).map fun n : Nat => Int.ofNat n

theorem liveIds_length (a : Slots V M) : (liveIds a).length = a.count := by
  obtain ⟨d, l⟩ := a
  simp only [liveIds, Slots.count, Slots.at?, List.length_map]
  induction l using List.reverseRecOn with
  | nil => rfl
  | append_singleton l x ih =>
    rw [List.length_append, List.length_singleton, List.range_succ, List.filter_append,
      List.filter_append, List.length_append, List.length_append, ← ih]
    congr 1
    · congr 1
      apply List.filter_congr
      intro n hn
      rw [List.getElem?_append_left (by simpa using hn)]
    · cases x <;> simp [List.filter_cons]

theorem live_length_le (a : Slots V M) {l : List Int} (hnd : l.Nodup)
    (hl : ∀ i ∈ l, ∃ (n : Nat) (x : V × M), i = n ∧ a.at? n = some x) : l.length ≤ a.count := by
  rw [← liveIds_length]
  refine (List.subperm_of_subset hnd ?_).length_le
  intro i hi
  obtain ⟨n, x, rfl, hx⟩ := hl i hi
  simp only [liveIds, List.mem_map, List.mem_filter, List.mem_range]
  exact ⟨n, ⟨at?_lt hx, by simp [hx]⟩, rfl⟩

/-- C29: searching for a stored vector finds it, when its similarity to itself passes the threshold
and `k` is at least the number of live vectors. -/
theorem C29_lsh_self {env : LshEnv V S M} (hc : env.hashSize ≤ env.numProj) (ht : 0 < env.numTables)
    (hset : SetLike env.setOrder) {h : List (SCall V M S)} (ho : LshOk env h) (k : Nat)
    (thr : Option S) {n : Nat} {v : V} {m : M} (hv : (slotsAfter env h).at? n = some (v, m))
    {s : S} (hs : env.sim v v = .ok s) (hthr : thr.getD env.threshold ≤ s)
    (hk : (slotsAfter env h).count ≤ k) {hits : List (NHit S M)}
    (he : Lsh.search env v k thr (lshAfter env h) = .ok hits) :
    ⟨n, s, some m⟩ ∈ hits := by
  have hI := lsh_inv hc ho
  have hA := C30_lsh_sound hc hset ho v k thr he
  have hcon : Considered env (lshAfter env h) (slotsAfter env h) v v := by
    left
    have hd := hI.dims n v m hv
    exact (sameBucket_iff hc hI hd rfl rfl).2 ⟨0, ht, rfl⟩
  rcases hA.best n v m s hv hcon hs hthr with h1 | ⟨h1, -⟩
  · exact h1
  · by_cases hin : (n : Int) ∈ hits.map NHit.id
    · obtain ⟨x, hx, hxi⟩ := List.mem_map.1 hin
      obtain ⟨n', v', m', e1, e2, e3, -, e4⟩ := hA.sound x hx
      have : n' = n := by rw [hxi] at e1; omega
      subst this
      rw [hv] at e2
      simp only [Option.some.injEq, Prod.mk.injEq] at e2
      obtain ⟨rfl, rfl⟩ := e2
      rw [hs] at e3
      cases e3
      have : x = ⟨n', x.score, some m⟩ := by cases x; simp_all
      rw [← this]; exact hx
    · exfalso
      have := live_length_le (slotsAfter env h) (l := (n : Int) :: hits.map NHit.id)
        (List.nodup_cons.2 ⟨hin, hA.nodup⟩) (by
          intro i hi
          simp only [List.mem_cons, List.mem_map] at hi
          rcases hi with rfl | ⟨x, hx, rfl⟩
          · exact ⟨n, _, rfl, hv⟩
          · obtain ⟨n', v', m', e1, e2, -⟩ := hA.sound x hx
            exact ⟨n', _, e1, e2⟩)
      simp at this
      omega

example : (slotsAfter (exLshEnv 1 2) exLshHist).at? 3 = some ([1, -1], 0) ∧
    (exLshEnv 1 2).sim [1, -1] [1, -1] = .ok 2 ∧ (slotsAfter (exLshEnv 1 2) exLshHist).count = 3 ∧
    Lsh.search (exLshEnv 1 2) [1, -1] 3 none (lshAfter (exLshEnv 1 2) exLshHist) =
      .ok [⟨3, 2, some 0⟩] := by decide

/-! ### C31 -/

/-- All ids returned by the inserts of a history, in order. -/
def handed (env : LshEnv V S M) (f : Lsh V M) : List (SCall V M S) → List String
  | [] => []
  | .insert nd cols rows mds :: cs =>
    (match (Lsh.insert env nd cols rows mds f).1 with
      | .ok ids => ids
      | .error _ => []) ++ handed env (Lsh.call env f (.insert nd cols rows mds)) cs
  | c :: cs => handed env (Lsh.call env f c) cs

/-- The call is `clear`. -/
def isClear : SCall V M S → Prop
  | .clear => True
  | _ => False

/-- The call is `clear`, or a delete or update that names id `n`. -/
def lshTouches (env : LshEnv V S M) (n : Nat) : SCall V M S → Prop
  | .clear => True
  | .delete ids => ∃ s ∈ ids, env.parse s = some (n : Int)
  | .update id _ _ => env.parse id = some (n : Int)
  | _ => False

theorem fill_length {empty : M} {rows : List V} {mds : Option (List (Option M))}
    (h : Slots.aligned rows mds = true) : (Slots.fill empty rows mds).length = rows.length := by
  cases mds with
  | none => simp [Slots.fill]
  | some l => simp [Slots.fill, Slots.aligned] at h ⊢; omega

theorem eraseAll_length (parse : String → Option Int) (ids : List String) (a : Slots V M) :
    (a.eraseAll parse ids).slots.length = a.slots.length := by
  induction ids generalizing a with
  | nil => rfl
  | cons s ids ih =>
    simp only [Slots.eraseAll]
    split
    · rw [ih]; simp only [Slots.erase]; split <;> simp
    · exact ih a

omit [LinearOrder S] in
theorem insert_nil {env : LshEnv V S M} {nd cols : Nat} {mds : Option (List (Option M))}
    {f : Lsh V M} {ids : List String} (h : (Lsh.insert env nd cols [] mds f).1 = .ok ids) :
    ids = [] := by
  have key : ∀ l ids, (Lsh.add env nd cols [] l f).1 = .ok ids → ids = [] := by
    intro l ids h
    simp only [Lsh.add, List.all_nil, List.zip_nil_left, addLoop] at h
    split at h
    · simp at h
    split at h
    · simp at h
    split at h
    · simp at h
    cases hd : f.dimension <;> simp only [hd] at h <;> split at h <;> simp at h <;> exact h
  simp only [Lsh.insert] at h
  split at h
  · rename_i ids' f' he
    have := key _ ids' (by rw [he])
    simp only [Except.ok.injEq] at h
    rw [← h, this]; rfl
  · simp at h

omit [LinearOrder S] in
theorem handed_eq {env : LshEnv V S M} (hc : env.hashSize ≤ env.numProj) (h : List (SCall V M S)) :
    ∀ {a : Slots V M} {f : Lsh V M}, Inv env a f →
    Slots.HistOk env.parse (storable env) env.emptyMd env.dim a h → (∀ c ∈ h, ¬ isClear c) →
    (Slots.after env.parse (storable env) env.emptyMd a h).slots.length =
      a.slots.length + (handed env f h).length ∧
    handed env f h = (List.range' a.slots.length (handed env f h).length).map toString := by
  induction h with
  | nil => intro a f _ _ _; simp [handed, Slots.after]
  | cons c cs ih =>
    intro a f hI ho hcl
    have hI' := hI.call hc c ho.1
    have hcl' : ∀ c ∈ cs, ¬ isClear c := fun c hc => hcl c (by simp [hc])
    obtain ⟨i1, i2⟩ := ih hI' ho.2 hcl'
    have haft : ∀ x, Slots.after env.parse (storable env) env.emptyMd x (c :: cs) =
      Slots.after env.parse (storable env) env.emptyMd
        (Slots.next env.parse (storable env) env.emptyMd x c) cs := fun _ => rfl
    rw [haft]
    have same : (Slots.next env.parse (storable env) env.emptyMd a c).slots.length =
        a.slots.length → handed env f (c :: cs) = handed env (Lsh.call env f c) cs →
        (Slots.after env.parse (storable env) env.emptyMd
          (Slots.next env.parse (storable env) env.emptyMd a c) cs).slots.length =
          a.slots.length + (handed env f (c :: cs)).length ∧
        handed env f (c :: cs) =
          (List.range' a.slots.length (handed env f (c :: cs)).length).map toString := by
      intro e1 e2
      have hv : Slots.next env.parse (valid env) env.emptyMd a c =
        Slots.next env.parse (storable env) env.emptyMd a c := rfl
      rw [e2]
      rw [hv, e1] at i1 i2
      exact ⟨i1, i2⟩
    cases c with
    | insert nd cols rows mds =>
      obtain ⟨-, h1, h2⟩ := hI.insert hc nd cols rows mds ho.1
      cases hacc : a.accepts (valid env) nd cols rows mds with
      | true =>
        have e1 := h1 hacc
        have hal : Slots.aligned rows mds = true := by
          simp only [Slots.accepts, Bool.and_eq_true] at hacc; exact hacc.1.1.1
        have hn : Slots.next (S := S) env.parse (valid env) env.emptyMd a
            (.insert nd cols rows mds) = ⟨a.offer nd cols rows mds,
              a.slots ++ Slots.fill env.emptyMd rows mds⟩ := by
          simp only [Slots.next, hacc, if_true]
        have hn' : Slots.next (S := S) env.parse (storable env) env.emptyMd a
            (.insert nd cols rows mds) = _ := hn
        rw [hn] at i1 i2
        rw [hn']
        simp only [List.length_append, fill_length hal] at i1 i2
        have hh : handed env f (.insert nd cols rows mds :: cs) =
            (List.range' a.slots.length rows.length).map toString ++
              handed env (Lsh.call env f (.insert nd cols rows mds)) cs := by
          simp only [handed, e1]
        rw [hh]
        constructor
        · simp only [List.length_append, List.length_map, List.length_range'] at i1 ⊢
          refine i1.trans ?_
          omega
        · simp only [List.length_append, List.length_map, List.length_range']
          rw [i2, ← List.map_append]
          simp only [List.length_map, List.length_range']
          rw [List.range'_append_1]
      | false =>
        have hn : Slots.next (S := S) env.parse (storable env) env.emptyMd a
            (.insert nd cols rows mds) = ⟨a.offer nd cols rows mds, a.slots⟩ := by
          have : a.accepts (storable env) nd cols rows mds = false := hacc
          simp [Slots.next, this]
        refine same (by rw [hn]) ?_
        have hz : (match (Lsh.insert env nd cols rows mds f).1 with
            | .ok ids => ids | .error _ => []) = [] := by
          by_cases hr : rows = [] ∧ 2 < nd
          · obtain ⟨rfl, -⟩ := hr
            cases hx : (Lsh.insert env nd cols [] mds f).1 with
            | error e => rfl
            | ok ids => exact insert_nil hx
          · obtain ⟨e, he⟩ := h2 hacc hr
            rw [he]
        show _ ++ _ = _
        rw [hz]; rfl
    | delete ids => exact same (eraseAll_length _ _ _) rfl
    | update id v m =>
      refine same ?_ rfl
      simp only [Slots.next]
      split
      · split <;> simp
      · rfl
    | search q k thr => exact same rfl rfl
    | clear => exact absurd trivial (hcl .clear (by simp))

omit [LinearOrder S] in
/-- C31: in a history without `clear`, the ids handed out are "0", "1", ... in order, none twice. -/
theorem C31_lsh_ids {env : LshEnv V S M} (hc : env.hashSize ≤ env.numProj)
    {h : List (SCall V M S)} (ho : LshOk env h) (hcl : ∀ c ∈ h, ¬ isClear c) :
    ∃ n, handed env (Lsh.init env ⟨[], none, [], [], 0, false⟩) h = (List.range n).map toString ∧
      (handed env (Lsh.init env ⟨[], none, [], [], 0, false⟩) h).Nodup := by
  obtain ⟨-, h2⟩ := handed_eq hc h (new_inv env) ho hcl
  refine ⟨_, by rw [List.range_eq_range']; exact h2, ?_⟩
  rw [h2]
  refine List.Nodup.map ?_ (List.nodup_range')
  intro x y hxy
  exact Nat.repr_injective hxy

theorem erase_at? (a : Slots V M) (k n : Nat) :
    (a.erase k).at? n = if n = k then none else a.at? n := by
  simp only [Slots.erase]
  split
  · exact at?_set a a.dim none (by assumption) n
  · by_cases e : n = k
    · subst e
      rw [if_pos rfl]
      simp only [Slots.at?]
      rw [List.getElem?_eq_none (by omega)]; rfl
    · rw [if_neg e]

theorem eraseAll_at? (parse : String → Option Int) (ids : List String) (a : Slots V M) (n : Nat) :
    (a.eraseAll parse ids).at? n =
      if ∃ s ∈ ids, parse s = some (n : Int) then none else a.at? n := by
  induction ids generalizing a with
  | nil => simp [Slots.eraseAll]
  | cons s ids ih =>
    simp only [Slots.eraseAll]
    split
    · rename_i k hk
      rw [ih, erase_at?]
      by_cases e : n = k
      · subst e
        simp [hk]
      · have : parse s ≠ some (n : Int) := by
          rw [hk]; simp; omega
        simp [this, e]
    · rename_i hk
      rw [ih]
      have : parse s ≠ some (n : Int) := fun e => hk n e
      simp [this]

omit [LinearOrder S] in
/-- One call that does not touch id `n` keeps what it denotes. -/
theorem next_keeps {env : LshEnv V S M} {a : Slots V M} {c : SCall V M S} {n : Nat}
    (ht : ¬ lshTouches env n c) (hn : n < a.slots.length) :
    (Slots.next env.parse (storable env) env.emptyMd a c).at? n = a.at? n ∧
      a.slots.length ≤ (Slots.next env.parse (storable env) env.emptyMd a c).slots.length := by
  cases c with
  | insert nd cols rows mds =>
    simp only [Slots.next]
    split
    · simp only [Slots.at?, List.length_append]
      rw [List.getElem?_append_left hn]
      exact ⟨rfl, by omega⟩
    · exact ⟨rfl, Nat.le_refl _⟩
  | delete ids =>
    simp only [Slots.next, eraseAll_length, eraseAll_at?]
    rw [if_neg (show ¬ ∃ s ∈ ids, env.parse s = some (n : Int) from ht)]
    exact ⟨rfl, Nat.le_refl _⟩
  | update id v m =>
    simp only [Slots.next]
    split
    · rename_i k hk
      split
      · exact ⟨rfl, Nat.le_refl _⟩
      · rename_i x old hat
        have hne : n ≠ k := by
          rintro rfl
          exact ht hk
        rw [at?_set a a.dim _ (at?_lt hat), if_neg hne]
        exact ⟨rfl, by simp⟩
    · exact ⟨rfl, Nat.le_refl _⟩
  | search q k thr => exact ⟨rfl, Nat.le_refl _⟩
  | clear => exact absurd trivial ht

omit [LinearOrder S] in
theorem after_keeps {env : LshEnv V S M} (h : List (SCall V M S)) : ∀ {a : Slots V M} {n : Nat},
    (∀ c ∈ h, ¬ lshTouches env n c) → n < a.slots.length →
    (Slots.after env.parse (storable env) env.emptyMd a h).at? n = a.at? n := by
  induction h with
  | nil => intro a n _ _; rfl
  | cons c cs ih =>
    intro a n ht hn
    obtain ⟨h1, h2⟩ := next_keeps (ht c (by simp)) hn
    have := ih (a := Slots.next env.parse (storable env) env.emptyMd a c)
      (fun c hc => ht c (by simp [hc])) (by omega)
    exact this.trans h1

omit [LinearOrder S] in
/-- C31: an id keeps denoting its vector and metadata in the index as long as no call names it and
the index is not cleared. -/
theorem C31_lsh_stable {env : LshEnv V S M} (hc : env.hashSize ≤ env.numProj)
    {h h' : List (SCall V M S)} (ho : LshOk env (h ++ h')) (ho1 : LshOk env h) {n : Nat}
    {v : V} {m : M} (hv : (lshAfter env h).vectors[n]? = some (some v))
    (hm : (lshAfter env h).metadata[n]? = some (some m)) (ht : ∀ c ∈ h', ¬ lshTouches env n c) :
    (lshAfter env (h ++ h')).vectors[n]? = some (some v) ∧
    (lshAfter env (h ++ h')).metadata[n]? = some (some m) := by
  have h1 := lsh_inv hc ho1
  have h2 := lsh_inv hc ho
  have hs : slotsAfter env (h ++ h') =
      Slots.after env.parse (storable env) env.emptyMd (slotsAfter env h) h' := by
    simp [slotsAfter, Slots.after]
  have hat : (slotsAfter env h).at? n = some (v, m) := by
    rw [h1.vec, List.getElem?_map] at hv
    rw [h1.md, List.getElem?_map] at hm
    rw [at?_eq_some]
    cases hx : (slotsAfter env h).slots[n]? with
    | none => rw [hx] at hv; simp at hv
    | some o =>
      cases o with
      | none => rw [hx] at hv; simp at hv
      | some x => obtain ⟨x1, x2⟩ := x; rw [hx] at hv hm; simp_all
  have := after_keeps (env := env) h' ht (at?_lt hat)
  rw [← hs, hat, at?_eq_some] at this
  rw [h2.vec, h2.md, List.getElem?_map, List.getElem?_map, this]
  exact ⟨rfl, rfl⟩

example : handed (exLshEnv 1 2) (Lsh.init (exLshEnv 1 2) ⟨[], none, [], [], 0, false⟩) exLshHist =
    ["0", "1", "2", "3"] ∧ (∀ c ∈ exLshHist, ¬ isClear c) ∧
    (lshAfter (exLshEnv 1 2) exLshHist).vectors[2]? = some (some [5, 5]) ∧
    (∀ c ∈ [SCall.delete ["0"], .insert 2 2 [[4, 4]] none], ¬ lshTouches (S := Int) (exLshEnv 1 2) 2 c) := by
  refine ⟨by decide, ?_, by decide, ?_⟩
  · intro c hc
    simp only [exLshHist, List.mem_cons, List.not_mem_nil, or_false] at hc
    rcases hc with rfl | rfl | rfl | rfl <;> simp [isClear]
  · intro c hc
    simp only [List.mem_cons, List.not_mem_nil, or_false] at hc
    rcases hc with rfl | rfl <;> simp [lshTouches, exLshEnv]

/-! ### C15 -/

/-- C15 (LSH): a deleted id is in no later answer, until the index is cleared. -/
theorem C15_lsh_deleted_gone {env : LshEnv V S M} (hc : env.hashSize ≤ env.numProj)
    (hset : SetLike env.setOrder) {h h' : List (SCall V M S)} {ids : List String} {s : String}
    {n : Nat} (ho : LshOk env (h ++ .delete ids :: h')) (hs : s ∈ ids)
    (hp : env.parse s = some (n : Int)) (hn : n < (slotsAfter env h).slots.length)
    (hcl : ∀ c ∈ h', ¬ isClear c) (q : V) (k : Nat) (thr : Option S) {hits : List (NHit S M)}
    (he : Lsh.search env q k thr (lshAfter env (h ++ .delete ids :: h')) = .ok hits) :
    ∀ x ∈ hits, x.id ≠ n := by
  have key : ∀ (l : List (SCall V M S)) (a : Slots V M), (∀ c ∈ l, ¬ isClear c) →
      n < a.slots.length → a.at? n = none →
      (Slots.after env.parse (storable env) env.emptyMd a l).at? n = none := by
    intro l
    induction l with
    | nil => intro a _ _ h; exact h
    | cons c cs ih =>
      intro a hc1 hlt hnone
      have hc2 := hc1 c (by simp)
      have hstep : (Slots.next env.parse (storable env) env.emptyMd a c).at? n = none ∧
          n < (Slots.next env.parse (storable env) env.emptyMd a c).slots.length := by
        by_cases ht : lshTouches env n c
        · cases c with
          | insert => exact absurd ht id
          | search => exact absurd ht id
          | clear => exact absurd trivial hc2
          | delete ids =>
            simp only [Slots.next, eraseAll_length, eraseAll_at?]
            exact ⟨if_pos ht, hlt⟩
          | update id v m =>
            have hh : env.parse id = some (Int.ofNat n) := ht
            simp only [Slots.next, hh, hnone]
            exact ⟨trivial, hlt⟩
        · have := next_keeps ht hlt
          exact ⟨this.1.trans hnone, by omega⟩
      exact ih _ (fun c hc => hc1 c (by simp [hc])) hstep.2 hstep.1
  have hsl : slotsAfter env (h ++ .delete ids :: h') =
      Slots.after env.parse (storable env) env.emptyMd
        ((slotsAfter env h).eraseAll env.parse ids) h' := by
    simp [slotsAfter, Slots.after, Slots.next]
  have hA := C30_lsh_sound hc hset ho q k thr he
  have hnone := key h' ((slotsAfter env h).eraseAll env.parse ids) hcl
    (by rw [eraseAll_length]; exact hn) (by rw [eraseAll_at?]; exact if_pos ⟨s, hs, hp⟩)
  rw [← hsl] at hnone
  intro x hx hxe
  obtain ⟨n', v, m, e1, e2, -⟩ := hA.sound x hx
  have : n' = n := by rw [hxe] at e1; omega
  subst this
  rw [hnone] at e2; simp at e2

example : (exLshEnv 1 2).parse "1" = some ((1 : Nat) : Int) ∧
    Lsh.search (exLshEnv 1 2) [-3, 1] 5 (some (-100))
      (lshAfter (exLshEnv 1 2) (exLshHist.take 2)) = .ok [⟨1, 10, some 8⟩, ⟨0, -4, some 7⟩] ∧
    Lsh.search (exLshEnv 1 2) [-3, 1] 5 (some (-100))
      (lshAfter (exLshEnv 1 2) exLshHist) = .ok [⟨0, -4, some 7⟩, ⟨2, -10, some 0⟩] := by decide

/-! ### C32 -/

omit [LinearOrder S] in
theorem addLoop_total {env : LshEnv V S M} (hc : env.hashSize ≤ env.numProj)
    (rows : List (V × Option M)) : ∀ (f : Lsh V M),
    (∀ r ∈ rows, f.dimension = some (env.dim r.1) ∧ r.2 ≠ none) →
    ∃ ids f', addLoop env rows f = (.ok ids, f') := by
  induction rows with
  | nil => intro f _; exact ⟨[], f, rfl⟩
  | cons r rows ih =>
    obtain ⟨v, m⟩ := r
    intro f hr
    obtain ⟨h1, h2⟩ := hr (v, m) (by simp)
    cases m with
    | none => simp at h2
    | some md =>
      simp only [addLoop]
      rw [hashVector_ok hc (by exact h1)]
      simp only
      obtain ⟨ids, f', e⟩ := ih { f with
        nextId := f.nextId + 1, vectors := f.vectors ++ [some v], metadata := f.metadata ++ [some md]
        tables := addCodes f.nextId f.tables
          ((List.range env.numTables).map fun t => codeOf env (env.dim v) t v) }
        (fun r hr' => hr r (by simp [hr']))
      rw [e]
      exact ⟨_, _, rfl⟩

omit [LinearOrder S] in
/-- C32: an insert that raises leaves every vector, metadata entry, bucket and the id counter as they
were; only the dimension may become fixed, and then all later batches must have it.  For metadata
entries that are dictionaries and `hash_size ≤ num_projections`. -/
theorem C32_lsh_rejected {env : LshEnv V S M} (hc : env.hashSize ≤ env.numProj) (f : Lsh V M)
    (nd cols : Nat) (rows : List V) (mds : Option (List (Option M)))
    (hm : ∀ l, mds = some l → none ∉ l) {e : Err} {f' : Lsh V M}
    (he : Lsh.insert env nd cols rows mds f = (.error e, f')) :
    f' = f ∨ (f.dimension = none ∧ f' = { f with dimension := some cols }) := by
  have hno : ∀ o ∈ mdList env rows mds, o ≠ none := by
    intro o ho
    cases mds with
    | none => simp only [mdList, List.mem_map] at ho; obtain ⟨_, _, rfl⟩ := ho; simp
    | some l => rintro rfl; exact hm l rfl ho
  have hins : Lsh.insert env nd cols rows mds f =
      (match Lsh.add env nd cols rows (mdList env rows mds) f with
      | (.ok ids, f') => (.ok (ids.map toString), f')
      | (.error e, f') => (.error e, f')) := by
    cases mds <;> rfl
  rw [hins] at he
  have hadd : Lsh.add env nd cols rows (mdList env rows mds) f = (.error e, f') := by
    cases hx : Lsh.add env nd cols rows (mdList env rows mds) f with
    | mk r g => cases r <;> rw [hx] at he <;> simp_all
  simp only [Lsh.add] at hadd
  split at hadd
  · simp_all
  split at hadd
  · simp_all
  split at hadd
  · simp_all
  have key : ∀ g : Lsh V M, (if g.dimension ≠ some cols then (.error .index, g)
      else if (!rows.all fun v => decide (nd = 2) && valid env cols v) = true then (.error .validation, g)
      else addLoop env (rows.zip (mdList env rows mds)) g) = (Except.error e, f') → f' = g := by
    intro g hg
    split at hg
    · exact (Prod.mk.inj hg).2.symm
    split at hg
    · exact (Prod.mk.inj hg).2.symm
    · rename_i hdim hall
      obtain ⟨ids, g', hg'⟩ := addLoop_total hc (rows.zip (mdList env rows mds)) g (by
        intro r hr
        obtain ⟨r1, r2⟩ := r
        have hz := List.of_mem_zip hr
        refine ⟨?_, hno _ hz.2⟩
        have hv : (rows.all fun v => decide (nd = 2) && valid env cols v) = true := by
          simpa using hall
        have := List.all_eq_true.1 hv r1 hz.1
        simp only [Bool.and_eq_true] at this
        rw [valid_dim this.2]
        exact not_not.1 hdim)
      rw [hg'] at hg
      simp at hg
  cases hd : f.dimension with
  | none =>
    simp only [hd] at hadd
    exact Or.inr ⟨rfl, key _ hadd⟩
  | some d =>
    simp only [hd] at hadd
    refine Or.inl (key _ ?_)
    simp only [hd]
    exact hadd

example : (Lsh.insert (exLshEnv 1 2) 2 3 [[1, 2, 3]] none (lshAfter (exLshEnv 1 2) exLshHist)).1 =
    .error .index ∧ (Lsh.insert (exLshEnv 1 2) 2 2 [[1, 2], [3]] none
      (lshAfter (exLshEnv 1 2) exLshHist)).1 = .error .validation := by decide

/-! ### C33 -/

omit [LinearOrder S] in
/-- C33, for ids that do not denote negative numbers and vectors of the index's dimension: an update
that returns `False` changes nothing.  Missing: vectors of another dimension, see
`C33_lsh_update_refuted`. -/
theorem C33_lsh_update_partial {env : LshEnv V S M} (hc : env.hashSize ≤ env.numProj)
    {h : List (SCall V M S)} (ho : LshOk env h) (id : String) (v : V) (m : Option M)
    (hp : ∀ i, env.parse id = some i → 0 ≤ i)
    (hd : ∀ d, (slotsAfter env h).dim = some d → env.dim v = d) :
    ((∃ n : Nat, env.parse id = some (n : Int) ∧ ((slotsAfter env h).at? n).isSome = true) →
      (Lsh.update env id v m (lshAfter env h)).1 = .ok true) ∧
    ((Lsh.update env id v m (lshAfter env h)).1 = .ok false →
      (Lsh.update env id v m (lshAfter env h)).2 = lshAfter env h) := by
  obtain ⟨-, h1, h2⟩ := (lsh_inv hc ho).update hc id v m hp hd
  refine ⟨h1, ?_⟩
  intro hf
  by_cases hex : ∃ n : Nat, env.parse id = some (n : Int) ∧
      ((slotsAfter env h).at? n).isSome = true
  · rw [h1 hex] at hf; simp at hf
  · rw [h2 (by
      intro n hn
      by_contra hne
      exact hex ⟨n, hn, by simpa [Option.isSome_iff_ne_none] using hne⟩)]

example : (Lsh.update (exLshEnv 1 2) "1" [3, 3] none (lshAfter (exLshEnv 1 2) exLshHist)).1 = .ok false ∧
    (Lsh.update (exLshEnv 1 2) "0" [3, 3] none (lshAfter (exLshEnv 1 2) exLshHist)).1 = .ok true := by
  decide

/-- C33 is false: an update with a vector of another dimension returns `False`, yet the vector is
gone from the answers. -/
theorem C33_lsh_update_refuted :
    let f := lshAfter (exLshEnv 1 2) exLshHist
    let r := Lsh.update (exLshEnv 1 2) "0" [1, 2, 3] none f
    r.1 = .ok false ∧
    Lsh.search (exLshEnv 1 2) [2, 2] 5 none f = .ok [⟨2, 20, some 0⟩, ⟨0, 8, some 7⟩] ∧
    Lsh.search (exLshEnv 1 2) [2, 2] 5 none r.2 = .ok [⟨2, 20, some 0⟩] := by decide

/-! ### C34 -/

omit [LinearOrder S] in
/-- C34, for strings that denote no number or a number never assigned from above: the delete changes
nothing, in any state.  Missing: negative numbers, see `C34_lsh_delete_refuted`. -/
theorem C34_lsh_delete_partial (env : LshEnv V S M) (f : Lsh V M) (ids : List String)
    (hp : ∀ s ∈ ids, ∀ i, env.parse s = some i → (f.vectors.length : Int) ≤ i) :
    (Lsh.delete env ids f).2 = f := by
  have key : ∀ l : List Int, (∀ i ∈ l, (f.vectors.length : Int) ≤ i) →
      removeLoop env l f = (.ok (), f) := by
    intro l
    induction l with
    | nil => intro _; rfl
    | cons i l ih =>
      intro h
      simp only [removeLoop]
      rw [if_pos (h i (by simp))]
      exact ih fun j hj => h j (by simp [hj])
  have := key (ids.filterMap env.parse) (by
    intro i hi
    obtain ⟨s, hs, he⟩ := List.mem_filterMap.1 hi
    exact hp s hs i he)
  simp only [Lsh.delete, Lsh.remove, this]
  cases f.inited <;> rfl

example : (∀ s ∈ ["x", "2"], ∀ i, (exLshEnv 1 2).parse s = some i →
    ((lshAfter (exLshEnv 1 2) (exLshHist.take 1)).vectors.length : Int) ≤ i) := by
  intro s hs i hi
  simp only [List.mem_cons, List.not_mem_nil, or_false] at hs
  have hl : (lshAfter (exLshEnv 1 2) (exLshHist.take 1)).vectors.length = 2 := by decide
  rw [hl]
  rcases hs with rfl | rfl <;> simp [exLshEnv] at hi
  omega

/-- C34 is false: deleting the id "-1", never assigned, removes the last vector. -/
theorem C34_lsh_delete_refuted :
    let f := lshAfter (exLshEnv 1 2) exLshHist
    let r := Lsh.delete (exLshEnv 1 2) ["-1"] f
    r.1 = true ∧
    Lsh.search (exLshEnv 1 2) [1, -1] 5 none f = .ok [⟨3, 2, some 0⟩] ∧
    Lsh.search (exLshEnv 1 2) [1, -1] 5 none r.2 = .ok [] := by decide

/-! ### C35 -/

omit [LinearOrder S] in
/-- C35: with `hash_size ≤ num_projections` hashing reads only existing projection rows and yields
one code of `hash_size` bits per table. -/
theorem C35_lsh_hash {env : LshEnv V S M} (hc : env.hashSize ≤ env.numProj) (f : Lsh V M) (v : V)
    (hd : f.dimension = some (env.dim v)) :
    (∀ t, ∀ p ∈ projIndices env.hashSize env.numProj t, p < env.numProj) ∧
    ∃ cs, hashVector env f v = .ok cs ∧ cs.length = env.numTables ∧
      ∀ c ∈ cs, c.length = env.hashSize := by
  refine ⟨projIndices_lt hc, _, hashVector_ok hc hd, by simp, ?_⟩
  intro c hcm
  obtain ⟨t, -, rfl⟩ := List.mem_map.1 hcm
  simp [codeOf, projIndices_length hc]

example : hashVector (exLshEnv 2 3) ⟨[], some 3, [], [], 0, true⟩ [1, -1, 2] =
    .ok [[true, false], [true, true]] := by decide

omit [LinearOrder S] in
/-- C35: with more bits than (at least two) projections, the constructor's checks pass, but every
hash raises (`IndexError` above twice as many, else `ValueError`); the first insert raises after it
has already added the first vector. -/
theorem C35_lsh_oversize {env : LshEnv V S M} (h2 : 2 ≤ env.numProj)
    (hc : env.numProj < env.hashSize) (ht : 0 < env.numTables) (v : V) (vs : List V) (m : M)
    (ms : List (Option M)) (hl : vs.length = ms.length)
    (hv : ∀ w ∈ v :: vs, storable env (env.dim v) w = true) :
    Lsh.new (V := V) (M := M) env.numTables env.hashSize env.numProj =
      .ok ⟨[], none, [], [], 0, false⟩ ∧
    ∃ f', Lsh.insert env 2 (env.dim v) (v :: vs) (some (some m :: ms))
      (Lsh.init env ⟨[], none, [], [], 0, false⟩) =
        (.error (if 2 * env.numProj < env.hashSize then .indexRange else .value), f') ∧
      f'.vectors = [some v] ∧ f'.metadata = [some m] ∧ f'.tables = List.replicate env.numTables [] := by
  constructor
  · simp only [Lsh.new]
    rw [if_neg (by omega), if_neg (by omega), if_neg (by omega)]
  · have hone : hashOne env (env.dim v) 0 v =
        .error (if 2 * env.numProj < env.hashSize then .indexRange else .value) := by
      simp only [hashOne]
      have hidx : projIndices env.hashSize env.numProj 0 =
          List.range' 0 env.numProj ++ List.range (env.hashSize - env.numProj) := by
        simp only [projIndices, Nat.zero_mul, Nat.zero_mod, Nat.zero_add]
        rw [if_pos hc]; simp
      by_cases hbig : 2 * env.numProj < env.hashSize
      · rw [if_pos hbig, if_pos]
        rw [hidx, List.any_eq_true]
        exact ⟨env.numProj, by simp; omega, by simp⟩
      · rw [if_neg hbig, if_neg, if_neg (by simp), if_pos (by rw [hidx]; simp; omega),
          if_neg (by omega)]
        rw [hidx, List.any_eq_true]
        rintro ⟨p, hp, hp'⟩
        simp at hp hp'
        omega
    generalize (if 2 * env.numProj < env.hashSize then Err.indexRange else .value) = e at *
    have he := hone
    have hh : ∀ f : Lsh V M, f.dimension = some (env.dim v) → hashVector env f v = .error e := by
      intro f hf
      simp only [hashVector, hf]
      obtain ⟨n, hn⟩ : ∃ n, env.numTables = n + 1 := ⟨env.numTables - 1, by omega⟩
      rw [hn, List.range_succ_eq_map]
      simp only [hashTables, he]
    have hall : ((v :: vs).all fun w => decide (2 = 2) && valid env (env.dim v) w) = true := by
      rw [List.all_eq_true]
      intro w hw
      simp only [decide_true, Bool.true_and]; exact hv w hw
    have hins : Lsh.insert env 2 (env.dim v) (v :: vs) (some (some m :: ms))
        (Lsh.init env ⟨[], none, [], [], 0, false⟩) = (.error e,
          ⟨List.replicate env.numTables [], some (env.dim v), [some v], [some m], 1, true⟩) := by
      simp only [Lsh.insert, Lsh.add, Lsh.init]
      rw [if_neg (by simp), if_neg (by simp [hl]), if_neg (by omega), if_neg (by simp),
        if_neg (by have := hall; simp only [decide_true] at this ⊢; rw [this]; simp)]
      simp only [List.zip_cons_cons, addLoop]
      rw [hh _ rfl]
      rfl
    exact ⟨_, hins, rfl, rfl, rfl⟩

example : 2 ≤ (exLshEnv 3 2).numProj ∧ (exLshEnv 3 2).numProj < (exLshEnv 3 2).hashSize ∧
    (∀ w ∈ [[1, 2], [3, 4]], storable (exLshEnv 3 2) 2 w = true) := by decide

/-! ### C84 -/

/-- C84, under the assumption that no metadata entry is `None`: after any history the metadata
reported for an id is the entry given for it (or the later update). -/
theorem C84_lsh_metadata_partial {env : LshEnv V S M} (hc : env.hashSize ≤ env.numProj)
    (hset : SetLike env.setOrder) {h : List (SCall V M S)} (ho : LshOk env h) (q : V) (k : Nat)
    (thr : Option S) {hits : List (NHit S M)}
    (he : Lsh.search env q k thr (lshAfter env h) = .ok hits) :
    ∀ x ∈ hits, ∃ (n : Nat) (v : V), x.id = n ∧
      (slotsAfter env h).at? n = some (v, x.md.getD env.emptyMd) := by
  intro x hx
  obtain ⟨n, v, m, e1, e2, -, -, e5⟩ := (C30_lsh_sound hc hset ho q k thr he).sound x hx
  exact ⟨n, v, e1, by rw [e5]; exact e2⟩

/-- C84 is false with a `None` entry: the insert raises, but its vector stays, and the metadata of
every later vector is reported for the id before it. -/
theorem C84_lsh_metadata_refuted :
    let f := lshAfter (exLshEnv 1 2) [.insert 2 2 [[-1, -1]] (some [none])]
    (Lsh.insert (exLshEnv 1 2) 2 2 [[-1, -1]] (some [none])
      (Lsh.init (exLshEnv 1 2) ⟨[], none, [], [], 0, false⟩)).1 = .error .attribute ∧
    Lsh.search (exLshEnv 1 2) [1, 1] 5 none
      (lshAfter (exLshEnv 1 2) [.insert 2 2 [[-1, -1]] (some [none]),
        .insert 2 2 [[2, 2], [1, 1]] (some [some 7, some 8])]) = .error .indexRange ∧
    Lsh.search (exLshEnv 1 2) [1, 1] 5 (some 3)
      (lshAfter (exLshEnv 1 2) [.insert 2 2 [[-1, -1]] (some [none]),
        .insert 2 2 [[2, 2], [1, 1]] (some [some 7, some 8])]) = .ok [⟨1, 4, some 8⟩] ∧
    f.vectors = [some [-1, -1]] ∧ f.metadata = [] := by decide

/-! ### C85 -/

/-- The size of the largest bucket. -/
def largest (f : Lsh V M) : Nat :=
  ((f.tables.map fun d => d.map fun e => e.2.length).flatten).foldl max 0

omit [LinearOrder S] in
/-- C85, vector count only: the reported number of vectors is the number of live ids.  The bucket
statistics are wrong, see `C85_lsh_stats_refuted`. -/
theorem C85_lsh_stats_partial {env : LshEnv V S M} (hc : env.hashSize ≤ env.numProj)
    {h : List (SCall V M S)} (ho : LshOk env h) :
    Lsh.statCount (lshAfter env h) = (slotsAfter env h).count := by
  have hI := lsh_inv hc ho
  simp only [Lsh.statCount, Slots.count, hI.vec, List.filter_map, List.length_map]
  congr 1
  apply List.filter_congr
  intro o _
  cases o <;> rfl

example : Lsh.statCount (lshAfter (exLshEnv 1 2) exLshHist) = 3 := by decide

/-- C85 is false: with three vectors in one bucket the reported maximal bucket size is 2, the largest
id; with a single vector it is 0. -/
theorem C85_lsh_stats_refuted :
    (largest (lshAfter (exLshEnv 1 2) [.insert 2 2 [[1, 1], [2, 2], [3, 3]] none]) = 3 ∧
      Lsh.statMaxBucket (lshAfter (exLshEnv 1 2) [.insert 2 2 [[1, 1], [2, 2], [3, 3]] none]) = 2) ∧
    (largest (lshAfter (exLshEnv 1 2) [.insert 2 2 [[1, 1]] none]) = 1 ∧
      Lsh.statMaxBucket (lshAfter (exLshEnv 1 2) [.insert 2 2 [[1, 1]] none]) = 0) := by decide

end Valori.Props
