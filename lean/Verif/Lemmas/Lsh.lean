import Verif.Model.Lsh
import Verif.Lemmas.Dict
import Verif.Lemmas.Index

/-! Invariant of the LSH index. -/

namespace Valori
open Spec (NHit SCall Slots)

namespace Lsh
variable {V S M : Type} [LinearOrder S]

/-! ## One table -/

/-- Content of a bucket. -/
def bucket (d : Dict Code (List Int)) (c : Code) : List Int := (d.get? c).getD []

/-- The table lists exactly the current vectors under their codes, once. -/
structure TableOk (code : V → Code) (cur : Nat → Option V) (d : Dict Code (List Int)) : Prop where
  keys : d.keys.Nodup
  nd : ∀ c, (bucket d c).Nodup
  mem : ∀ c i, i ∈ bucket d c ↔ ∃ n : Nat, ∃ v, i = (n : Int) ∧ cur n = some v ∧ code v = c

theorem bucket_set (d : Dict Code (List Int)) (c : Code) (l : List Int) (c' : Code) :
    bucket (d.set c l) c' = if c' = c then l else bucket d c' := by
  simp only [bucket, Dict.get?_set]; split <;> rfl

/-- Replace the value at one position. -/
def upd (cur : Nat → Option V) (n : Nat) (o : Option V) : Nat → Option V :=
  fun k => if k = n then o else cur k

theorem TableOk.add {code : V → Code} {cur : Nat → Option V} {d : Dict Code (List Int)}
    (h : TableOk code cur d) {n : Nat} (hn : cur n = none) (v : V) :
    TableOk code (upd cur n (some v)) (d.set (code v) ((d.get? (code v)).getD [] ++ [(n : Int)])) := by
  have hnot : ∀ c, (n : Int) ∉ bucket d c := by
    intro c hc
    obtain ⟨k, w, h1, h2, -⟩ := (h.mem c n).1 hc
    have : k = n := by omega
    subst this
    rw [hn] at h2; simp at h2
  refine ⟨Dict.nodup_set h.keys _ _, ?_, ?_⟩
  · intro c
    rw [bucket_set]
    split
    · rw [List.nodup_append]
      refine ⟨h.nd (code v), by simp, ?_⟩
      intro a ha b hb
      simp only [List.mem_singleton] at hb
      subst hb
      rintro rfl
      exact hnot _ ha
    · exact h.nd c
  · intro c i
    rw [bucket_set]
    have key : i ∈ bucket d c ↔ ∃ k : Nat, ∃ w, i = (k : Int) ∧ k ≠ n ∧ cur k = some w ∧
        code w = c := by
      rw [h.mem]
      constructor
      · rintro ⟨k, w, h1, h2, h3⟩
        refine ⟨k, w, h1, ?_, h2, h3⟩
        rintro rfl; rw [hn] at h2; simp at h2
      · rintro ⟨k, w, h1, -, h2, h3⟩; exact ⟨k, w, h1, h2, h3⟩
    have hs : i ∈ (if c = code v then (d.get? (code v)).getD [] ++ [(n : Int)] else bucket d c) ↔
        i ∈ bucket d c ∨ (c = code v ∧ i = n) := by
      by_cases e : c = code v
      · subst e; simp [bucket]
      · simp [e]
    rw [hs, key]
    constructor
    · rintro (⟨k, w, h1, h2, h3, h4⟩ | ⟨rfl, rfl⟩)
      · exact ⟨k, w, h1, by simp [upd, h2, h3], h4⟩
      · exact ⟨n, v, rfl, by simp [upd], rfl⟩
    · rintro ⟨k, w, h1, h2, h3⟩
      by_cases e : k = n
      · subst e
        simp only [upd, if_true, Option.some.injEq] at h2
        subst h2
        exact Or.inr ⟨h3.symm, h1⟩
      · simp only [upd, e, if_false] at h2
        exact Or.inl ⟨k, w, h1, e, h2, h3⟩

theorem TableOk.drop {code : V → Code} {cur : Nat → Option V} {d : Dict Code (List Int)}
    (h : TableOk code cur d) {n : Nat} {v : V} (hn : cur n = some v) :
    TableOk code (upd cur n none) (match d.get? (code v) with
      | none => d
      | some l => d.set (code v) (removeFirst l n)) := by
  have hin : (n : Int) ∈ bucket d (code v) := (h.mem _ _).2 ⟨n, v, rfl, hn, rfl⟩
  cases hg : d.get? (code v) with
  | none => simp [bucket, hg] at hin
  | some l =>
    have hb : bucket d (code v) = l := by simp [bucket, hg]
    simp only [removeFirst]
    refine ⟨Dict.nodup_set h.keys _ _, ?_, ?_⟩
    · intro c
      rw [bucket_set]
      split
      · rw [← hb]; exact (h.nd _).erase _
      · exact h.nd c
    · intro c i
      rw [bucket_set]
      have hs : i ∈ (if c = code v then l.erase (n : Int) else bucket d c) ↔
          i ∈ bucket d c ∧ ¬ (i = (n : Int) ∧ c = code v) := by
        by_cases e : c = code v
        · subst e
          rw [if_pos rfl, ← hb, (h.nd _).mem_erase_iff]
          simp only [ne_eq, and_true]
          exact And.comm
        · simp [e]
      rw [hs, h.mem]
      constructor
      · rintro ⟨⟨k, w, h1, h2, h3⟩, h4⟩
        have e : k ≠ n := by
          rintro rfl
          rw [hn] at h2
          cases h2
          exact h4 ⟨h1, h3.symm⟩
        exact ⟨k, w, h1, by simp [upd, e, h2], h3⟩
      · rintro ⟨k, w, h1, h2, h3⟩
        by_cases e : k = n
        · simp [upd, e] at h2
        · simp only [upd, e, if_false] at h2
          refine ⟨⟨k, w, h1, h2, h3⟩, ?_⟩
          rintro ⟨h4, -⟩
          omega

theorem TableOk.congr {code : V → Code} {cur cur' : Nat → Option V} {d : Dict Code (List Int)}
    (h : TableOk code cur d) (e : cur = cur') : TableOk code cur' d := e ▸ h

theorem TableOk.empty (code : V → Code) : TableOk code (fun _ => none) [] :=
  ⟨by simp [Dict.keys], by simp [bucket], by simp [bucket]⟩

/-! ## All tables -/

theorem addCodes_get (id : Int) (ds : List (Dict Code (List Int))) (cs : List Code)
    (hl : cs.length = ds.length) (t : Nat) :
    (addCodes id ds cs)[t]? = (ds[t]?).bind fun d => (cs[t]?).map fun c =>
      d.set c ((d.get? c).getD [] ++ [id]) := by
  induction ds generalizing cs t with
  | nil => cases cs <;> simp [addCodes]
  | cons d ds ih =>
    cases cs with
    | nil => simp at hl
    | cons c cs =>
      simp only [addCodes]
      cases t with
      | zero => simp
      | succ t => simpa using ih cs (by simpa using hl) t

theorem dropCodes_get (id : Int) (ds : List (Dict Code (List Int))) (cs : List Code)
    (hl : cs.length = ds.length) (t : Nat) :
    (dropCodes id ds cs)[t]? = (ds[t]?).bind fun d => (cs[t]?).map fun c =>
      (match d.get? c with
      | none => d
      | some l => d.set c (removeFirst l id)) := by
  induction ds generalizing cs t with
  | nil => cases cs <;> simp [dropCodes]
  | cons d ds ih =>
    cases cs with
    | nil => simp at hl
    | cons c cs =>
      simp only [dropCodes]
      cases t with
      | zero => simp; cases d.get? c <;> rfl
      | succ t => simpa using ih cs (by simpa using hl) t

theorem addCodes_length (id : Int) (ds : List (Dict Code (List Int))) (cs : List Code) :
    (addCodes id ds cs).length = ds.length := by
  induction ds generalizing cs with
  | nil => cases cs <;> rfl
  | cons d ds ih => cases cs <;> simp [addCodes, ih]

theorem dropCodes_length (id : Int) (ds : List (Dict Code (List Int))) (cs : List Code) :
    (dropCodes id ds cs).length = ds.length := by
  induction ds generalizing cs with
  | nil => cases cs <;> rfl
  | cons d ds ih => cases cs <;> simp [dropCodes, ih]

/-- All tables. -/
structure TablesOk (code : Nat → V → Code) (cur : Nat → Option V)
    (ds : List (Dict Code (List Int))) : Prop where
  ok : ∀ t d, ds[t]? = some d → TableOk (code t) cur d

theorem TablesOk.add {code : Nat → V → Code} {cur : Nat → Option V}
    {ds : List (Dict Code (List Int))} (h : TablesOk code cur ds) {n : Nat} (hn : cur n = none)
    (v : V) : TablesOk code (upd cur n (some v))
      (addCodes n ds ((List.range ds.length).map fun t => code t v)) := by
  refine ⟨?_⟩
  intro t d' hd'
  rw [addCodes_get _ _ _ (by simp)] at hd'
  simp only [Option.bind_eq_some_iff, Option.map_eq_some_iff] at hd'
  obtain ⟨d, hd, c, hc, rfl⟩ := hd'
  have ht : t < ds.length := (List.getElem?_eq_some_iff.1 hd).1
  have : c = code t v := by
    rw [List.getElem?_map, List.getElem?_range ht] at hc; simpa using hc.symm
  subst this
  exact (h.ok t d hd).add hn v

theorem TablesOk.drop {code : Nat → V → Code} {cur : Nat → Option V}
    {ds : List (Dict Code (List Int))} (h : TablesOk code cur ds) {n : Nat} {v : V}
    (hn : cur n = some v) : TablesOk code (upd cur n none)
      (dropCodes n ds ((List.range ds.length).map fun t => code t v)) := by
  refine ⟨?_⟩
  intro t d' hd'
  rw [dropCodes_get _ _ _ (by simp)] at hd'
  simp only [Option.bind_eq_some_iff, Option.map_eq_some_iff] at hd'
  obtain ⟨d, hd, c, hc, rfl⟩ := hd'
  have ht : t < ds.length := (List.getElem?_eq_some_iff.1 hd).1
  have : c = code t v := by
    rw [List.getElem?_map, List.getElem?_range ht] at hc; simpa using hc.symm
  subst this
  exact (h.ok t d hd).drop hn

theorem TablesOk.empty (code : Nat → V → Code) (n : Nat) :
    TablesOk code (fun _ => none) (List.replicate n []) := by
  refine ⟨?_⟩
  intro t d hd
  have := List.mem_of_getElem? hd
  rw [List.mem_replicate] at this
  rw [this.2]
  exact TableOk.empty _

/-! ## Hashing -/

/-- The code of table `t`. -/
def codeOf (env : LshEnv V S M) (d t : Nat) (v : V) : Code :=
  (projIndices env.hashSize env.numProj t).zipIdx.map fun p => env.bit d p.1 p.2 v

theorem projIndices_length {hs np : Nat} (h : hs ≤ np) (t : Nat) :
    (projIndices hs np t).length = hs := by
  simp only [projIndices]
  by_cases h0 : np = 0
  · subst h0
    have : hs = 0 := by omega
    subst this
    simp
  · have := Nat.mod_lt (t * hs) (Nat.pos_of_ne_zero h0)
    split
    · simp; omega
    · simp

theorem projIndices_lt {hs np : Nat} (h : hs ≤ np) (t : Nat) :
    ∀ p ∈ projIndices hs np t, p < np := by
  intro p hp
  simp only [projIndices] at hp
  by_cases h0 : np = 0
  · subst h0
    have : hs = 0 := by omega
    subst this
    simp at hp
  · have := Nat.mod_lt (t * hs) (Nat.pos_of_ne_zero h0)
    split at hp
    · simp only [List.mem_append, List.mem_range'_1, List.mem_range] at hp
      omega
    · simp only [List.mem_range'_1] at hp
      omega

omit [LinearOrder S] in
theorem hashOne_ok {env : LshEnv V S M} (hc : env.hashSize ≤ env.numProj) {d : Nat} {v : V}
    (hd : env.dim v = d) (t : Nat) : hashOne env d t v = .ok (codeOf env d t v) := by
  simp only [hashOne]
  rw [if_neg, if_neg (by simp [hd]), if_neg]
  · rfl
  · rw [projIndices_length hc]; omega
  · simp only [List.any_eq_true, decide_eq_true_eq, not_exists, not_and]
    intro p hp
    have := projIndices_lt hc t p hp
    omega

omit [LinearOrder S] in
theorem hashTables_ok {env : LshEnv V S M} (hc : env.hashSize ≤ env.numProj) {d : Nat} {v : V}
    (hd : env.dim v = d) (ts : List Nat) :
    hashTables env d v ts = .ok (ts.map fun t => codeOf env d t v) := by
  induction ts with
  | nil => rfl
  | cons t ts ih => simp only [hashTables, hashOne_ok hc hd, ih, List.map_cons]

omit [LinearOrder S] in
theorem hashVector_ok {env : LshEnv V S M} (hc : env.hashSize ≤ env.numProj) {f : Lsh V M} {v : V}
    (hd : f.dimension = some (env.dim v)) :
    hashVector env f v =
      .ok ((List.range env.numTables).map fun t => codeOf env (env.dim v) t v) := by
  simp only [hashVector, hd, hashTables_ok hc rfl]

/-! ## Slots -/

/-- Current vectors by id. -/
def cur (a : Slots V M) : Nat → Option V := fun n => (a.at? n).map Prod.fst

theorem at?_eq_some {a : Slots V M} {n : Nat} {x : V × M} :
    a.at? n = some x ↔ a.slots[n]? = some (some x) := by
  simp only [Slots.at?]
  cases a.slots[n]? with
  | none => simp
  | some o => cases o <;> simp

theorem at?_append (a : Slots V M) (d : Option Nat) (x : Option (V × M)) (n : Nat) :
    (⟨d, a.slots ++ [x]⟩ : Slots V M).at? n = if n = a.slots.length then x else a.at? n := by
  simp only [Slots.at?]
  by_cases h : n < a.slots.length
  · rw [List.getElem?_append_left h, if_neg (by omega)]
  · by_cases e : n = a.slots.length
    · subst e; simp
    · rw [if_neg e, List.getElem?_append_right (by omega), List.getElem?_eq_none (by simp; omega),
        List.getElem?_eq_none (by omega)]

theorem at?_set (a : Slots V M) (d : Option Nat) (x : Option (V × M)) {n : Nat}
    (hn : n < a.slots.length) (k : Nat) :
    (⟨d, a.slots.set n x⟩ : Slots V M).at? k = if k = n then x else a.at? k := by
  simp only [Slots.at?]
  rw [List.getElem?_set]
  by_cases e : n = k
  · subst e; simp [hn]
  · rw [if_neg e, if_neg (Ne.symm e)]

theorem at?_lt {a : Slots V M} {n : Nat} {x : V × M} (h : a.at? n = some x) :
    n < a.slots.length := (List.getElem?_eq_some_iff.1 (at?_eq_some.1 h)).1

/-! ## The invariant -/

/-- Index state represents the slots. -/
structure Inv (env : LshEnv V S M) (a : Slots V M) (f : Lsh V M) : Prop where
  inited : f.inited = true
  dim : f.dimension = a.dim
  vec : f.vectors = a.slots.map (Option.map Prod.fst)
  md : f.metadata = a.slots.map (Option.map Prod.snd)
  next : f.nextId = a.slots.length
  len : f.tables.length = env.numTables
  dims : ∀ n v m, a.at? n = some (v, m) → a.dim = some (env.dim v)
  tab : TablesOk (codeOf env (a.dim.getD 0)) (cur a) f.tables

omit [LinearOrder S] in
theorem Inv.hash {env : LshEnv V S M} (hc : env.hashSize ≤ env.numProj) {a : Slots V M}
    {f : Lsh V M} (h : Inv env a f) {v : V} (hd : a.dim = some (env.dim v)) :
    hashVector env f v =
      .ok ((List.range f.tables.length).map fun t => codeOf env (a.dim.getD 0) t v) := by
  rw [hashVector_ok hc (h.dim.trans hd), h.len, hd]; rfl

omit [LinearOrder S] in
theorem new_inv (env : LshEnv V S M) : Inv env ⟨none, []⟩ (init env ⟨[], none, [], [], 0, false⟩) :=
  ⟨rfl, rfl, rfl, rfl, rfl, by simp [init], by simp [Slots.at?], by
    have := TablesOk.empty (codeOf env 0) env.numTables
    have e : cur (⟨none, []⟩ : Slots V M) = fun _ => none := by funext n; simp [cur, Slots.at?]
    rw [e]; exact this⟩

omit [LinearOrder S] in
theorem Inv.addOne {env : LshEnv V S M} (hc : env.hashSize ≤ env.numProj) {a : Slots V M}
    {f : Lsh V M} (h : Inv env a f) {v : V} (m : M) (hd : a.dim = some (env.dim v)) :
    let f2 := { f with nextId := f.nextId + 1, vectors := f.vectors ++ [some v],
                       metadata := f.metadata ++ [some m] }
    ∃ codes, hashVector env f2 v = .ok codes ∧
      Inv env ⟨a.dim, a.slots ++ [some (v, m)]⟩
        { f2 with tables := addCodes f.nextId f.tables codes } := by
  intro f2
  have hh : hashVector env f2 v = hashVector env f v := rfl
  rw [hh, h.hash hc hd]
  refine ⟨_, rfl, h.inited, h.dim, ?_, ?_, ?_, ?_, ?_, ?_⟩
  · simp [f2, h.vec]
  · simp [f2, h.md]
  · simp [f2, h.next]
  · simp only [addCodes_length]; exact h.len
  · intro n w m' hw
    rw [at?_append] at hw
    split at hw
    · cases hw; exact hd
    · exact h.dims n w m' hw
  · have hn : cur a a.slots.length = none := by
      simp [cur, Slots.at?]
    have := h.tab.add hn v
    rw [← h.next] at this
    refine ⟨fun t d hd' => (this.ok t d hd').congr ?_⟩
    funext n
    simp only [cur, upd, at?_append, h.next]
    split <;> rfl

omit [LinearOrder S] in
theorem addLoop_spec {env : LshEnv V S M} (hc : env.hashSize ≤ env.numProj)
    (rows : List (V × Option M)) : ∀ {a : Slots V M} {f : Lsh V M}, Inv env a f →
    (∀ r ∈ rows, a.dim = some (env.dim r.1) ∧ r.2 ≠ none) →
    ∃ f', addLoop env rows f = (.ok (List.range' a.slots.length rows.length), f') ∧
      Inv env ⟨a.dim, a.slots ++ rows.map fun p => p.2.map fun m => (p.1, m)⟩ f' := by
  induction rows with
  | nil => intro a f h _; exact ⟨f, rfl, by simpa using h⟩
  | cons r rows ih =>
    obtain ⟨v, m⟩ := r
    intro a f h hr
    obtain ⟨h1, h2⟩ := hr (v, m) (by simp)
    cases m with
    | none => simp at h2
    | some md =>
      obtain ⟨codes, e, hI⟩ := h.addOne hc md h1
      obtain ⟨f', e', hI'⟩ := ih hI (fun r hr' => hr r (by simp [hr']))
      refine ⟨f', ?_, by simpa using hI'⟩
      simp only [addLoop]
      simp only at e
      rw [e]
      simp only
      rw [show addLoop env rows _ = _ from e']
      simp only [h.next, List.length_append, List.length_cons, List.length_nil]
      rfl

/-- `accepts` with the validity test of the code. -/
def okVec (env : LshEnv V S M) : Nat → V → Bool := valid env

omit [LinearOrder S] in
theorem valid_dim {env : LshEnv V S M} {d : Nat} {v : V} (h : valid env d v = true) :
    env.dim v = d := by
  simp only [valid, Bool.and_eq_true, decide_eq_true_eq] at h; exact h.1.2

/-- The metadata list that `insert` passes on. -/
def mdList (env : LshEnv V S M) (rows : List V) (mds : Option (List (Option M))) :
    List (Option M) :=
  match mds with
  | none => rows.map fun _ => some env.emptyMd
  | some l => l

omit [LinearOrder S] in
theorem mdList_length (env : LshEnv V S M) (rows : List V) (mds : Option (List (Option M))) :
    (Slots.aligned rows mds = true) ↔
      rows.length = (mdList env rows mds).length := by
  cases mds <;> simp [mdList, Slots.aligned]

omit [LinearOrder S] in
theorem fill_eq (env : LshEnv V S M) (rows : List V) (mds : Option (List (Option M))) :
    Slots.fill env.emptyMd rows mds =
      (rows.zip (mdList env rows mds)).map fun p => p.2.map fun m => (p.1, m) := by
  cases mds with
  | some l => rfl
  | none =>
    simp only [Slots.fill, mdList, List.zip_map_right, List.map_map]
    induction rows with
    | nil => rfl
    | cons r rows ih => simp only [List.map_cons, List.zip_cons_cons]; rw [ih]; rfl

omit [LinearOrder S] in
/-- A batch: accepted ones are appended, others change at most the dimension. -/
theorem Inv.insert {env : LshEnv V S M} (hc : env.hashSize ≤ env.numProj) {a : Slots V M}
    {f : Lsh V M} (h : Inv env a f) (nd cols : Nat) (rows : List V) (mds : Option (List (Option M)))
    (hm : ∀ l, mds = some l → none ∉ l) :
    Inv env (Slots.next (S := S) env.parse (valid env) env.emptyMd a (.insert nd cols rows mds))
      (Lsh.insert env nd cols rows mds f).2 ∧
    (a.accepts (valid env) nd cols rows mds = true → (Lsh.insert env nd cols rows mds f).1 =
      .ok ((List.range' a.slots.length rows.length).map toString)) ∧
    (a.accepts (valid env) nd cols rows mds = false → ¬ (rows = [] ∧ 2 < nd) →
      ∃ e, (Lsh.insert env nd cols rows mds f).1 = .error e) := by
  have hml := mdList_length env rows mds
  have hno : ∀ o ∈ mdList env rows mds, o ≠ none := by
    intro o ho
    cases mds with
    | none => simp only [mdList, List.mem_map] at ho; obtain ⟨_, _, rfl⟩ := ho; simp
    | some l => rintro rfl; exact hm l rfl ho
  have hins : Lsh.insert env nd cols rows mds f =
      (match add env nd cols rows (mdList env rows mds) f with
      | (.ok ids, f') => (.ok (ids.map toString), f')
      | (.error e, f') => (.error e, f')) := by
    cases mds <;> rfl
  simp only [Slots.next]
  by_cases hlen : rows.length = (mdList env rows mds).length
  · have hb := hml.2 hlen
    by_cases hnd : nd < 2
    · have e : add env nd cols rows (mdList env rows mds) f = (.error .indexRange, f) := by
        simp [add, h.inited, hlen, hnd]
      have hacc : a.accepts (valid env) nd cols rows mds = false := by
        have : (nd == 2) = false := by simp; omega
        simp [Slots.accepts, this]
      have hoff : a.offer nd cols rows mds = a.dim := by
        have : decide (2 ≤ nd) = false := by simp; omega
        simp [Slots.offer, this]
      rw [hins, e, hacc, hoff]
      exact ⟨h, by simp, fun _ _ => ⟨_, rfl⟩⟩
    · have hnd' : 2 ≤ nd := by omega
      have hoff : a.offer nd cols rows mds = some (a.dim.getD cols) := by
        simp only [Slots.offer, hb, hnd', decide_true, Bool.and_self, if_true]
      -- the state after fixing the dimension
      let f1 : Lsh V M := match f.dimension with
        | none => { f with dimension := some cols }
        | some _ => f
      have hf1 : Inv env ⟨some (a.dim.getD cols), a.slots⟩ f1 := by
        have hdim := h.dim
        cases hd : a.dim with
        | some d =>
          rw [hd] at hdim
          have : f1 = f := by simp only [f1, hdim]
          rw [this]
          have ha : (⟨some ((some d).getD cols), a.slots⟩ : Slots V M) = a := by
            cases a; simp_all
          rw [ha]; exact h
        | none =>
          rw [hd] at hdim
          have : f1 = { f with dimension := some cols } := by simp only [f1, hdim]
          rw [this]
          have hno : ∀ n, a.at? n = none := by
            intro n
            cases hn : a.at? n with
            | none => rfl
            | some x => obtain ⟨v, m⟩ := x; have := h.dims n v m hn; rw [hd] at this; simp at this
          have hcur : cur (⟨some ((none : Option Nat).getD cols), a.slots⟩ : Slots V M) = fun _ => none := by
            funext n
            show ((a.at? n).map Prod.fst) = none
            rw [hno]; rfl
          refine ⟨h.inited, rfl, h.vec, h.md, h.next, h.len, ?_, ?_⟩
          · intro n v m hn
            have : a.at? n = some (v, m) := hn
            rw [hno] at this; simp at this
          · have hcur' : cur a = fun _ => none := by funext n; simp [cur, hno]
            refine ⟨fun t d hd => ?_⟩
            have ht := h.tab.ok t d hd
            rw [hcur'] at ht
            rw [hcur]
            exact ⟨ht.keys, ht.nd, fun c i => by rw [ht.mem]; simp⟩
      have hadd : add env nd cols rows (mdList env rows mds) f =
          if f1.dimension ≠ some cols then (.error .index, f1)
          else if !(rows.all fun v => decide (nd = 2) && valid env cols v) then (.error .validation, f1)
          else addLoop env (rows.zip (mdList env rows mds)) f1 := by
        simp only [add, h.inited]
        rw [if_neg (by simp), if_neg (by simp [hlen]), if_neg hnd]
        simp only [f1]
        cases hfd : f.dimension <;> simp only [h.inited]
      rw [hoff]
      by_cases hcd : a.dim.getD cols = cols
      · have hfd : f1.dimension = some cols := by rw [hf1.dim, hcd]
        rw [if_neg (by simp [hfd])] at hadd
        by_cases hall : (rows.all fun v => decide (nd = 2) && valid env cols v) = true
        · rw [if_neg (by simp [hall])] at hadd
          obtain ⟨f', e', hI⟩ := addLoop_spec hc (rows.zip (mdList env rows mds)) hf1 (by
            intro r hr
            obtain ⟨r1, r2⟩ := r
            have := List.of_mem_zip hr
            refine ⟨?_, hno _ this.2⟩
            have hv := List.all_eq_true.1 hall r1 this.1
            simp only [Bool.and_eq_true] at hv
            simp only [hcd]
            rw [valid_dim hv.2])
          have hzl : (rows.zip (mdList env rows mds)).length = rows.length := by
            rw [List.length_zip, ← hlen]; simp
          rw [hins, hadd, e', hzl]
          simp only
          by_cases hr : rows = []
          · -- empty batch
            subst hr
            simp only [List.zip_nil_left, List.map_nil, List.append_nil] at hI
            have hnil : Slots.fill env.emptyMd ([] : List V) mds = [] := by
              rw [fill_eq]; simp
            rw [hnil]
            refine ⟨?_, by simp, ?_⟩
            · split <;> simpa using hI
            · intro ha hneg
              exfalso
              apply hneg
              refine ⟨rfl, ?_⟩
              by_contra h2
              have : nd = 2 := by omega
              subst this
              simp only [Slots.accepts, hb, hcd] at ha
              simp at ha
          · have hnd2 : nd = 2 := by
              cases rows with
              | nil => exact absurd rfl hr
              | cons v vs =>
                have hv := List.all_eq_true.1 hall v (by simp)
                simp only [Bool.and_eq_true, decide_eq_true_eq] at hv
                exact hv.1
            have hacc : a.accepts (valid env) nd cols rows mds = true := by
              simp only [Slots.accepts, hb, hcd, hnd2]
              simp only [beq_self_eq_true, Bool.and_true, Bool.true_and, List.all_eq_true]
              intro v hv
              have := List.all_eq_true.1 hall v hv
              simp only [Bool.and_eq_true] at this
              exact this.2
            rw [hacc]
            refine ⟨?_, by simp, by simp⟩
            rw [if_pos rfl, fill_eq]
            exact hI
        · rw [if_pos (by simpa using hall)] at hadd
          have hacc : a.accepts (valid env) nd cols rows mds = false := by
            cases hacc : a.accepts (valid env) nd cols rows mds with
            | false => rfl
            | true =>
              exfalso
              apply hall
              simp only [Slots.accepts, Bool.and_eq_true, beq_iff_eq] at hacc
              rw [List.all_eq_true]
              intro v hv
              simp only [Bool.and_eq_true, decide_eq_true_eq]
              exact ⟨hacc.1.1.2, List.all_eq_true.1 hacc.2 v hv⟩
          rw [hins, hadd, hacc]
          exact ⟨by simpa using hf1, by simp, fun _ _ => ⟨_, rfl⟩⟩
      · have hfd : f1.dimension ≠ some cols := by rw [hf1.dim]; simpa using hcd
        rw [if_pos hfd] at hadd
        have hacc : a.accepts (valid env) nd cols rows mds = false := by
          have : (a.dim.getD cols == cols) = false := by simpa using hcd
          simp [Slots.accepts, this]
        rw [hins, hadd, hacc]
        exact ⟨by simpa using hf1, by simp, fun _ _ => ⟨_, rfl⟩⟩
  · have hb : Slots.aligned rows mds = false := by
      rw [← Bool.not_eq_true]; exact fun e => hlen (hml.1 e)
    have e : add env nd cols rows (mdList env rows mds) f = (.error .index, f) := by
      simp [add, h.inited, hlen]
    have hacc : a.accepts (valid env) nd cols rows mds = false := by
      simp only [Slots.accepts, hb, Bool.false_and]
    have hoff : a.offer nd cols rows mds = a.dim := by
      simp only [Slots.offer, hb, Bool.false_and]; simp
    rw [hins, e, hacc, hoff]
    exact ⟨h, by simp, fun _ _ => ⟨_, rfl⟩⟩

/-! ## Delete and update -/

theorem pyGet_nat {α : Type} (l : List α) (n : Nat) : pyGet l (n : Int) = l[n]? := by
  simp [pyGet]

theorem pySet_nat {α : Type} (l : List α) (n : Nat) (x : α) : pySet l (n : Int) x = l.set n x := by
  simp [pySet]

omit [LinearOrder S] in
theorem Inv.erase {env : LshEnv V S M} (hc : env.hashSize ≤ env.numProj) {a : Slots V M}
    {f : Lsh V M} (h : Inv env a f) (n : Nat) (rest : List Int) :
    ∃ f', removeLoop env ((n : Int) :: rest) f = removeLoop env rest f' ∧ Inv env (a.erase n) f' := by
  simp only [removeLoop]
  have hlen : f.vectors.length = a.slots.length := by rw [h.vec]; simp
  by_cases hn : a.slots.length ≤ n
  · rw [if_pos (by rw [hlen]; omega)]
    refine ⟨f, rfl, ?_⟩
    have : a.erase n = a := by simp [Slots.erase]; omega
    rw [this]; exact h
  · have hn' : n < a.slots.length := by omega
    rw [if_neg (by rw [hlen]; omega)]
    have her : a.erase n = ⟨a.dim, a.slots.set n none⟩ := by simp [Slots.erase, hn']
    rw [pyGet_nat, h.vec, List.getElem?_map]
    obtain ⟨o, ho⟩ : ∃ o, a.slots[n]? = some o := ⟨_, List.getElem?_eq_getElem hn'⟩
    rw [ho]
    cases o with
    | none =>
      simp only [Option.map_some, Option.map_none]
      refine ⟨f, rfl, ?_⟩
      have : a.slots.set n none = a.slots := by
        apply List.ext_getElem?
        intro k
        rw [List.getElem?_set]
        by_cases e : n = k
        · subst e; rw [if_pos rfl, if_pos hn', ho]
        · simp [e]
      rw [her, this]; exact h
    | some x =>
      obtain ⟨v, m⟩ := x
      have hat : a.at? n = some (v, m) := at?_eq_some.2 ho
      simp only [Option.map_some]
      rw [h.hash hc (h.dims n v m hat)]
      simp only
      have hmd : pyGet f.metadata (n : Int) = some (some m) := by
        rw [pyGet_nat, h.md, List.getElem?_map, ho]; rfl
      rw [hmd]
      refine ⟨_, rfl, ?_⟩
      rw [her]
      refine ⟨h.inited, h.dim, ?_, ?_, ?_, ?_, ?_, ?_⟩
      · simp only [pySet_nat, List.map_set, Option.map_none]
      · simp only [pySet_nat, h.md, List.map_set, Option.map_none]
      · simp [h.next]
      · simp only [dropCodes_length]; exact h.len
      · intro k w m' hk
        rw [at?_set a _ _ hn'] at hk
        split at hk
        · cases hk
        · exact h.dims k w m' hk
      · have := h.tab.drop (n := n) (v := v) (by simp [cur, hat])
        refine ⟨fun t d hd' => (this.ok t d hd').congr ?_⟩
        funext k
        simp only [cur, upd, at?_set a _ _ hn']
        split <;> rfl

omit [LinearOrder S] in
theorem Inv.eraseAll {env : LshEnv V S M} (hc : env.hashSize ≤ env.numProj) (ids : List String) :
    ∀ {a : Slots V M} {f : Lsh V M}, Inv env a f →
    (∀ s ∈ ids, ∀ i, env.parse s = some i → 0 ≤ i) →
    ∃ f', removeLoop env (ids.filterMap env.parse) f = (.ok (), f') ∧
      Inv env (a.eraseAll env.parse ids) f' := by
  induction ids with
  | nil => intro a f h _; exact ⟨f, rfl, h⟩
  | cons s ids ih =>
    intro a f h hp
    have hp' : ∀ s ∈ ids, ∀ i, env.parse s = some i → 0 ≤ i := fun x hx => hp x (by simp [hx])
    cases he : env.parse s with
    | none =>
      rw [List.filterMap_cons_none he]
      simp only [Slots.eraseAll, he]
      exact ih h hp'
    | some i =>
      have := hp s (by simp) i he
      obtain ⟨n, rfl⟩ : ∃ n : Nat, i = n := ⟨i.toNat, by omega⟩
      rw [List.filterMap_cons_some he]
      obtain ⟨f1, e1, h1⟩ := h.erase hc n (ids.filterMap env.parse)
      rw [e1]
      simp only [Slots.eraseAll, he]
      exact ih h1 hp'

omit [LinearOrder S] in
theorem Inv.delete {env : LshEnv V S M} (hc : env.hashSize ≤ env.numProj) {a : Slots V M}
    {f : Lsh V M} (h : Inv env a f) (ids : List String)
    (hp : ∀ s ∈ ids, ∀ i, env.parse s = some i → 0 ≤ i) :
    (Lsh.delete env ids f).1 = true ∧ Inv env (a.eraseAll env.parse ids) (Lsh.delete env ids f).2 := by
  obtain ⟨f', e, h'⟩ := Inv.eraseAll hc ids h hp
  simp only [Lsh.delete, Lsh.remove, h.inited, e]
  exact ⟨rfl, h'⟩

omit [LinearOrder S] in
theorem Inv.update {env : LshEnv V S M} (hc : env.hashSize ≤ env.numProj) {a : Slots V M}
    {f : Lsh V M} (h : Inv env a f) (id : String) (v : V) (m : Option M)
    (hp : ∀ i, env.parse id = some i → 0 ≤ i) (hd : ∀ d, a.dim = some d → env.dim v = d) :
    Inv env (Slots.next (S := S) env.parse (valid env) env.emptyMd a (.update id v m))
      (Lsh.update env id v m f).2 ∧
    (((∃ n : Nat, env.parse id = some (n : Int) ∧ (a.at? n).isSome = true) →
        (Lsh.update env id v m f).1 = .ok true) ∧
     ((∀ n : Nat, env.parse id = some (n : Int) → a.at? n = none) →
        Lsh.update env id v m f = (.ok false, f))) := by
  have hfalse : (∀ n : Nat, env.parse id = some (n : Int) → a.at? n = none) →
      Lsh.update env id v m f = (.ok false, f) := by
    intro hno
    cases he : env.parse id with
    | none => simp [Lsh.update, h.inited, he]
    | some i =>
      have := hp i he
      obtain ⟨n, rfl⟩ : ∃ n : Nat, i = n := ⟨i.toNat, by omega⟩
      have hat := hno n he
      have hlen : f.vectors.length = a.slots.length := by rw [h.vec]; simp
      simp only [Lsh.update, h.inited, he]
      rw [if_neg (by simp)]
      by_cases hn : a.slots.length ≤ n
      · rw [if_pos (by rw [hlen]; omega)]
      · rw [if_neg (by rw [hlen]; omega), pyGet_nat, h.vec, List.getElem?_map]
        obtain ⟨o, ho⟩ : ∃ o, a.slots[n]? = some o :=
          ⟨_, List.getElem?_eq_getElem (by omega)⟩
        cases o with
        | none => rw [ho]; rfl
        | some x => rw [at?_eq_some.2 ho] at hat; simp at hat
  by_cases hno : ∀ n : Nat, env.parse id = some (n : Int) → a.at? n = none
  · refine ⟨?_, ?_, hfalse⟩
    · rw [hfalse hno]
      have : Slots.next (S := S) env.parse (valid env) env.emptyMd a (.update id v m) = a := by
        simp only [Slots.next]
        cases he : env.parse id with
        | none => rfl
        | some i =>
          cases i with
          | ofNat n => simp only [hno n he]
          | negSucc n => rfl
      rw [this]; exact h
    · rintro ⟨n, h1, h2⟩
      rw [hno n h1] at h2; simp at h2
  · simp only [not_forall] at hno
    obtain ⟨n, he, hat⟩ := hno
    obtain ⟨⟨old, om⟩, hx⟩ := Option.ne_none_iff_exists'.1 hat
    have hlen : f.vectors.length = a.slots.length := by rw [h.vec]; simp
    have hn' : n < a.slots.length := at?_lt hx
    have ho := at?_eq_some.1 hx
    have hdv : a.dim = some (env.dim v) := by
      have h1 := h.dims n old om hx
      have h2 := hd _ h1
      rw [h2]; exact h1
    have hnext : Slots.next (S := S) env.parse (valid env) env.emptyMd a (.update id v m) =
        ⟨a.dim, a.slots.set n (some (v, m.getD om))⟩ := by
      simp only [Slots.next, he]
      simp only [hx]
    have hget : pyGet f.vectors (n : Int) = some (some old) := by
      rw [pyGet_nat, h.vec, List.getElem?_map, ho]; rfl
    have hmd : pyGet f.metadata (n : Int) = some (some om) := by
      rw [pyGet_nat, h.md, List.getElem?_map, ho]; rfl
    have hhash : ∀ tb vs md nid ini, hashVector env ⟨tb, f.dimension, vs, md, nid, ini⟩ v =
        .ok ((List.range f.tables.length).map fun t => codeOf env (a.dim.getD 0) t v) := by
      intro tb vs md nid ini
      exact h.hash hc hdv
    have e : Lsh.update env id v m f = (.ok true, { f with
        vectors := f.vectors.set n (some v)
        metadata := (match m with | none => f.metadata | some md => f.metadata.set n (some md))
        tables := addCodes n (dropCodes n f.tables
          ((List.range f.tables.length).map fun t => codeOf env (a.dim.getD 0) t old))
          ((List.range f.tables.length).map fun t => codeOf env (a.dim.getD 0) t v) }) := by
      simp only [Lsh.update, he, hget]
      rw [if_neg (by simp [h.inited]), if_neg (by rw [hlen]; omega), h.hash hc (h.dims n old om hx)]
      cases m with
      | none => simp only; rw [hhash]; simp only [pySet_nat]
      | some md => simp only [hmd]; rw [hhash]; simp only [pySet_nat]
    rw [hnext, e]
    refine ⟨?_, fun _ => rfl, fun hh => absurd hh (by
      intro hh; exact hat (hh n he))⟩
    have hdrop := h.tab.drop (n := n) (v := old) (by simp [cur, hx])
    have hadd := hdrop.add (n := n) (by simp [upd]) v
    rw [dropCodes_length] at hadd
    have htab : TablesOk (codeOf env (a.dim.getD 0))
        (cur (⟨a.dim, a.slots.set n (some (v, m.getD om))⟩ : Slots V M))
        (addCodes n (dropCodes n f.tables
          ((List.range f.tables.length).map fun t => codeOf env (a.dim.getD 0) t old))
          ((List.range f.tables.length).map fun t => codeOf env (a.dim.getD 0) t v)) := by
      refine ⟨fun t d hd' => (hadd.ok t d hd').congr ?_⟩
      funext k
      simp only [cur, upd, at?_set a _ _ hn']
      by_cases e : k = n <;> simp [e]
    have hdims : ∀ k w m', (⟨a.dim, a.slots.set n (some (v, m.getD om))⟩ : Slots V M).at? k =
        some (w, m') → a.dim = some (env.dim w) := by
      intro k w m' hk
      rw [at?_set a _ _ hn'] at hk
      split at hk
      · cases hk; exact hdv
      · exact h.dims k w m' hk
    have hvec : f.vectors.set n (some v) =
        (a.slots.set n (some (v, m.getD om))).map (Option.map Prod.fst) := by
      rw [h.vec, List.map_set]; rfl
    have hlen2 : (addCodes n (dropCodes n f.tables
          ((List.range f.tables.length).map fun t => codeOf env (a.dim.getD 0) t old))
          ((List.range f.tables.length).map fun t => codeOf env (a.dim.getD 0) t v)).length =
          env.numTables := by rw [addCodes_length, dropCodes_length]; exact h.len
    refine ⟨h.inited, h.dim, hvec, ?_, by simp [h.next], hlen2, hdims, htab⟩
    cases m with
    | none =>
      simp only [Option.getD_none]
      rw [h.md, List.map_set]
      simp only [Option.map_some]
      symm
      apply List.ext_getElem?
      intro k
      rw [List.getElem?_set]
      by_cases e : n = k
      · subst e; rw [if_pos rfl, List.getElem?_map, ho]; simp [hn']
      · simp [e]
    | some md =>
      simp only [Option.getD_some]
      rw [h.md, List.map_set]
      simp

/-! ## Histories -/

omit [LinearOrder S] in
theorem Inv.clear {env : LshEnv V S M} {a : Slots V M} {f : Lsh V M} (h : Inv env a f) :
    Inv env ⟨a.dim, []⟩ (Lsh.clear env f) :=
  ⟨h.inited, h.dim, rfl, rfl, rfl, by simp [Lsh.clear], by simp [Slots.at?], by
    have e : cur (⟨a.dim, []⟩ : Slots V M) = fun _ => none := by funext n; simp [cur, Slots.at?]
    rw [e]; exact TablesOk.empty _ _⟩

omit [LinearOrder S] in
theorem Inv.call {env : LshEnv V S M} (hc : env.hashSize ≤ env.numProj) {a : Slots V M}
    {f : Lsh V M} (h : Inv env a f) (c : SCall V M S) (ho : Slots.CallOk env.parse env.dim a c) :
    Inv env (Slots.next env.parse (valid env) env.emptyMd a c) (Lsh.call env f c) := by
  cases c with
  | insert nd cols rows mds => exact (h.insert hc nd cols rows mds ho).1
  | delete ids => exact (h.delete hc ids ho).2
  | update id v m => exact (h.update hc id v m ho.1 ho.2).1
  | search q k thr => exact h
  | clear => exact h.clear

omit [LinearOrder S] in
theorem Inv.run {env : LshEnv V S M} (hc : env.hashSize ≤ env.numProj) (h : List (SCall V M S)) :
    ∀ {a : Slots V M} {f : Lsh V M}, Inv env a f →
    Slots.HistOk env.parse (valid env) env.emptyMd env.dim a h →
    Inv env (Slots.after env.parse (valid env) env.emptyMd a h) (Lsh.run env f h) := by
  induction h with
  | nil => intro a f hI _; exact hI
  | cons c cs ih => intro a f hI ho; exact ih (hI.call hc c ho.1) ho.2

/-! ## Search -/

theorem exactCands_mem (ds : List (Dict Code (List Int))) (cs : List Code) (i : Int) :
    i ∈ exactCands ds cs ↔ ∃ (t : Nat) (d : Dict Code (List Int)) (c : Code),
      ds[t]? = some d ∧ cs[t]? = some c ∧ i ∈ bucket d c := by
  induction ds generalizing cs with
  | nil => cases cs <;> simp [exactCands]
  | cons d ds ih =>
    cases cs with
    | nil => simp [exactCands]
    | cons c cs =>
      simp only [exactCands, List.mem_append, ih]
      constructor
      · rintro (h | ⟨t, d', c', h1, h2, h3⟩)
        · exact ⟨0, d, c, rfl, rfl, h⟩
        · exact ⟨t + 1, d', c', by simpa using h1, by simpa using h2, h3⟩
      · rintro ⟨t, d', c', h1, h2, h3⟩
        cases t with
        | zero => simp at h1 h2; subst h1 h2; exact Or.inl h3
        | succ t => exact Or.inr ⟨t, d', c', by simpa using h1, by simpa using h2, h3⟩

theorem relaxedCands_mem (ds : List (Dict Code (List Int))) (cs : List Code)
    (hk : ∀ (t : Nat) (d : Dict Code (List Int)), ds[t]? = some d → d.keys.Nodup) (i : Int) :
    i ∈ relaxedCands ds cs ↔ ∃ (t : Nat) (d : Dict Code (List Int)) (c c' : Code),
      ds[t]? = some d ∧ cs[t]? = some c ∧ hamming c c' ≤ 2 ∧ i ∈ bucket d c' := by
  induction ds generalizing cs with
  | nil => cases cs <;> simp [relaxedCands]
  | cons d ds ih =>
    cases cs with
    | nil => simp [relaxedCands]
    | cons c cs =>
      have hd : i ∈ ((d.filter fun e => decide (hamming c e.1 ≤ 2)).map Prod.snd).flatten ↔
          ∃ c', hamming c c' ≤ 2 ∧ i ∈ bucket d c' := by
        simp only [List.mem_flatten, List.mem_map, List.mem_filter, decide_eq_true_eq]
        constructor
        · rintro ⟨l, ⟨⟨c', l'⟩, ⟨h1, h2⟩, rfl⟩, h3⟩
          refine ⟨c', h2, ?_⟩
          have := Dict.get?_of_mem (hk 0 d rfl) h1
          simpa [bucket, this] using h3
        · rintro ⟨c', h2, h3⟩
          simp only [bucket] at h3
          cases hg : d.get? c' with
          | none => simp [hg] at h3
          | some l =>
            rw [hg] at h3
            exact ⟨l, ⟨(c', l), ⟨Dict.mem_of_get? hg, h2⟩, rfl⟩, h3⟩
      simp only [relaxedCands, List.mem_append, hd,
        ih cs (fun t d' h => hk (t + 1) d' (by simpa using h))]
      constructor
      · rintro (⟨c', h1, h2⟩ | ⟨t, d', c1, c', h1, h2, h3⟩)
        · exact ⟨0, d, c, c', rfl, rfl, h1, h2⟩
        · exact ⟨t + 1, d', c1, c', by simpa using h1, by simpa using h2, h3⟩
      · rintro ⟨t, d', c1, c', h1, h2, h3, h4⟩
        cases t with
        | zero => simp at h1 h2; subst h1 h2; exact Or.inl ⟨c', h3, h4⟩
        | succ t => exact Or.inr ⟨t, d', c1, c', by simpa using h1, by simpa using h2, h3, h4⟩

omit [LinearOrder S] in
/-- Codes of a query against a stored vector. -/
theorem Inv.exact {env : LshEnv V S M} {a : Slots V M} {f : Lsh V M} (h : Inv env a f) {d : Nat}
    (hd : a.dim = some d) (q : V) (i : Int) :
    i ∈ exactCands f.tables ((List.range f.tables.length).map fun t => codeOf env d t q) ↔
    ∃ (n : Nat) (v : V) (m : M), i = n ∧ a.at? n = some (v, m) ∧
      ∃ t < env.numTables, codeOf env d t v = codeOf env d t q := by
  rw [exactCands_mem]
  constructor
  · rintro ⟨t, tb, c, h1, h2, h3⟩
    have ht : t < f.tables.length := (List.getElem?_eq_some_iff.1 h1).1
    rw [List.getElem?_map, List.getElem?_range ht] at h2
    obtain ⟨n, v, e1, e2, e3⟩ := ((h.tab.ok t tb h1).mem c i).1 h3
    simp only [cur, Option.map_eq_some_iff] at e2
    obtain ⟨⟨v', m⟩, e2, rfl⟩ := e2
    refine ⟨n, v', m, e1, e2, t, h.len ▸ ht, ?_⟩
    rw [hd] at e3
    simp only [Option.map_some, Option.some.injEq] at h2
    exact e3.trans h2.symm
  · rintro ⟨n, v, m, e1, e2, t, ht, e3⟩
    rw [← h.len] at ht
    refine ⟨t, _, codeOf env d t q, List.getElem?_eq_getElem ht, ?_, ?_⟩
    · rw [List.getElem?_map, List.getElem?_range ht]; rfl
    · refine ((h.tab.ok t _ (List.getElem?_eq_getElem ht)).mem _ i).2
        ⟨n, v, e1, by simp [cur, e2], ?_⟩
      rw [hd]; exact e3

omit [LinearOrder S] in
theorem Inv.relaxed {env : LshEnv V S M} {a : Slots V M} {f : Lsh V M} (h : Inv env a f) {d : Nat}
    (hd : a.dim = some d) (q : V) (i : Int) :
    i ∈ relaxedCands f.tables ((List.range f.tables.length).map fun t => codeOf env d t q) ↔
    ∃ (n : Nat) (v : V) (m : M), i = n ∧ a.at? n = some (v, m) ∧
      ∃ t < env.numTables, hamming (codeOf env d t q) (codeOf env d t v) ≤ 2 := by
  rw [relaxedCands_mem _ _ (fun t d' h' => (h.tab.ok t d' h').keys)]
  constructor
  · rintro ⟨t, tb, c, c', h1, h2, h3, h4⟩
    have ht : t < f.tables.length := (List.getElem?_eq_some_iff.1 h1).1
    rw [List.getElem?_map, List.getElem?_range ht] at h2
    obtain ⟨n, v, e1, e2, e3⟩ := ((h.tab.ok t tb h1).mem c' i).1 h4
    simp only [cur, Option.map_eq_some_iff] at e2
    obtain ⟨⟨v', m⟩, e2, rfl⟩ := e2
    refine ⟨n, v', m, e1, e2, t, h.len ▸ ht, ?_⟩
    rw [hd] at e3
    simp only [Option.map_some, Option.some.injEq] at h2
    subst h2
    subst e3
    exact h3
  · rintro ⟨n, v, m, e1, e2, t, ht, e3⟩
    rw [← h.len] at ht
    refine ⟨t, _, codeOf env d t q, codeOf env d t v, List.getElem?_eq_getElem ht, ?_, e3, ?_⟩
    · rw [List.getElem?_map, List.getElem?_range ht]; rfl
    · refine ((h.tab.ok t _ (List.getElem?_eq_getElem ht)).mem _ i).2
        ⟨n, v, e1, by simp [cur, e2], ?_⟩
      rw [hd]; rfl

/-- The scoring loop over live candidates. -/
theorem Inv.score {env : LshEnv V S M} {a : Slots V M} {f : Lsh V M} (h : Inv env a f) (q : V)
    (thr : S) (cands : List Int) : ∀ {l : List (NHit S M)},
    (∀ i ∈ cands, ∃ (n : Nat) (v : V) (m : M), i = n ∧ a.at? n = some (v, m)) →
    Lsh.score env f q thr cands = .ok l →
    (l.map NHit.id).Sublist cands ∧
    (∀ x ∈ l, ∃ (n : Nat) (v : V) (m : M), x.id = n ∧ a.at? n = some (v, m) ∧
      env.sim q v = .ok x.score ∧ thr ≤ x.score ∧ x.md = some m) ∧
    (∀ (n : Nat) v m s, (n : Int) ∈ cands → a.at? n = some (v, m) → env.sim q v = .ok s → thr ≤ s →
      ⟨n, s, some m⟩ ∈ l) := by
  induction cands with
  | nil =>
    intro l _ e
    simp only [Lsh.score, Except.ok.injEq] at e
    subst e; simp
  | cons i rest ih =>
    intro l hc e
    obtain ⟨n, v, m, rfl, hat⟩ := hc i (by simp)
    have hc' : ∀ i ∈ rest, ∃ (n : Nat) (v : V) (m : M), i = n ∧ a.at? n = some (v, m) :=
      fun i hi => hc i (by simp [hi])
    have ho := at?_eq_some.1 hat
    have hlen : f.vectors.length = a.slots.length := by rw [h.vec]; simp
    have hn := at?_lt hat
    have hget : pyGet f.vectors (n : Int) = some (some v) := by
      rw [pyGet_nat, h.vec, List.getElem?_map, ho]; rfl
    have hmd : pyGet f.metadata (n : Int) = some (some m) := by
      rw [pyGet_nat, h.md, List.getElem?_map, ho]; rfl
    simp only [Lsh.score] at e
    rw [if_neg (by rw [hlen]; omega), hget] at e
    simp only at e
    cases hs : env.sim q v with
    | error er => rw [hs] at e; simp at e
    | ok s =>
      rw [hs] at e
      simp only at e
      by_cases ht : thr ≤ s
      · rw [if_pos ht, hmd] at e
        simp only at e
        cases hr : Lsh.score env f q thr rest with
        | error er => rw [hr] at e; simp at e
        | ok l' =>
          rw [hr] at e
          simp only [Except.ok.injEq] at e
          subst e
          obtain ⟨h1, h2, h3⟩ := ih hc' hr
          refine ⟨by simpa using h1, ?_, ?_⟩
          · intro x hx
            simp only [List.mem_cons] at hx
            rcases hx with rfl | hx
            · exact ⟨n, v, m, rfl, hat, hs, ht, rfl⟩
            · exact h2 x hx
          · intro n' v' m' s' hn' hat' hs' ht'
            by_cases en : n' = n
            · subst en
              rw [hat] at hat'
              simp only [Option.some.injEq, Prod.mk.injEq] at hat'
              obtain ⟨rfl, rfl⟩ := hat'
              rw [hs] at hs'
              cases hs'
              simp
            · refine List.mem_cons_of_mem _ (h3 n' v' m' s' ?_ hat' hs' ht')
              simp only [List.mem_cons, Int.natCast_inj] at hn'
              exact hn'.resolve_left en
      · rw [if_neg ht] at e
        obtain ⟨h1, h2, h3⟩ := ih hc' e
        refine ⟨h1.trans (List.sublist_cons_self _ _), h2, ?_⟩
        intro n' v' m' s' hn' hat' hs' ht'
        by_cases en : n' = n
        · subst en
          rw [hat] at hat'
          simp only [Option.some.injEq, Prod.mk.injEq] at hat'
          obtain ⟨rfl, rfl⟩ := hat'
          rw [hs] at hs'
          cases hs'
          exact absurd ht' ht
        · refine h3 n' v' m' s' ?_ hat' hs' ht'
          simp only [List.mem_cons, Int.natCast_inj] at hn'
          exact hn'.resolve_left en

theorem Inv.score_total {env : LshEnv V S M} {a : Slots V M} {f : Lsh V M} (h : Inv env a f) (q : V)
    (thr : S) (cands : List Int)
    (hc : ∀ i ∈ cands, ∃ (n : Nat) (v : V) (m : M), i = n ∧ a.at? n = some (v, m) ∧
      ∃ s, env.sim q v = .ok s) : ∃ l, Lsh.score env f q thr cands = .ok l := by
  induction cands with
  | nil => exact ⟨[], rfl⟩
  | cons i rest ih =>
    obtain ⟨n, v, m, rfl, hat, s, hs⟩ := hc i (by simp)
    obtain ⟨l, hl⟩ := ih fun i hi => hc i (by simp [hi])
    have ho := at?_eq_some.1 hat
    have hlen : f.vectors.length = a.slots.length := by rw [h.vec]; simp
    have hn := at?_lt hat
    have hget : pyGet f.vectors (n : Int) = some (some v) := by
      rw [pyGet_nat, h.vec, List.getElem?_map, ho]; rfl
    have hmd : pyGet f.metadata (n : Int) = some (some m) := by
      rw [pyGet_nat, h.md, List.getElem?_map, ho]; rfl
    simp only [Lsh.score]
    rw [if_neg (by rw [hlen]; omega), hget]
    simp only [hs, hmd, hl]
    split <;> exact ⟨_, rfl⟩

theorem sortDesc_perm (l : List (NHit S M)) : (sortDesc l).Perm l :=
  List.perm_insertionSort _ _

theorem sortDesc_sorted (l : List (NHit S M)) :
    (sortDesc l).Pairwise fun x y => y.score ≤ x.score := by
  have : Std.Total (fun a b : NHit S M => b.score ≤ a.score) := ⟨fun a b => le_total _ _⟩
  have : IsTrans (NHit S M) (fun a b => b.score ≤ a.score) := ⟨fun a b c h1 h2 => le_trans h2 h1⟩
  exact List.pairwise_insertionSort _ l

/-- The first `k` of the sorted scores. -/
theorem answer_of_scores {E : Type} {sim : V → Except E S} {near : V → Prop} {thr : S} {k : Nat}
    {a : Slots V M} {l : List (NHit S M)} (hnd : (l.map NHit.id).Nodup)
    (hs : ∀ x ∈ l, ∃ (n : Nat) (v : V) (m : M), x.id = n ∧ a.at? n = some (v, m) ∧
      sim v = .ok x.score ∧ thr ≤ x.score ∧ x.md = some m)
    (hb : ∀ (n : Nat) v m s, a.at? n = some (v, m) → near v → sim v = .ok s → thr ≤ s →
      ⟨n, s, some m⟩ ∈ l) :
    Slots.IsAnswer sim near thr k a ((sortDesc l).take k) := by
  have hp := sortDesc_perm l
  have hso := sortDesc_sorted l
  refine ⟨by simp, ?_, hso.sublist (List.take_sublist _ _), ?_, ?_⟩
  · exact ((hp.map _).nodup_iff.2 hnd).sublist ((List.take_sublist k _).map _)
  · intro h hh; exact hs h (hp.mem_iff.1 (List.mem_of_mem_take hh))
  · intro n v m s h1 h2 h3 h4
    have hin := hp.mem_iff.2 (hb n v m s h1 h2 h3 h4)
    rw [← List.take_append_drop k (sortDesc l), List.mem_append] at hin
    rcases hin with hin | hin
    · exact Or.inl hin
    · refine Or.inr ⟨?_, ?_⟩
      · have : 0 < ((sortDesc l).drop k).length := List.length_pos_of_mem hin
        simp at this ⊢; omega
      · intro x hx
        have := hso
        rw [← List.take_append_drop k (sortDesc l), List.pairwise_append] at this
        exact this.2.2 x hx _ hin

end Lsh
end Valori
