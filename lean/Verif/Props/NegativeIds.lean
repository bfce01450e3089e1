import Verif.Props.Lsh
import Verif.Props.Annoy

/-!
# C222: an id that was never handed out touches nothing

LSH and Annoy indices hand out "0", "1", …; what they do with a string that denotes a negative
number is another matter, since Python counts negative list positions from the end.
-/

namespace Valori.Props
open Valori.Spec
open Lsh

section Lsh
variable {V S M : Type}

/-- C222, LSH, in every state: an update whose id denotes no number, or a number not reached yet,
returns `False` and changes nothing.  Missing: negative numbers, see `C222_lsh_update_refuted`. -/
theorem C222_lsh_update_partial (env : LshEnv V S M) (f : Lsh V M) (hi : f.inited = true)
    (id : String) (v : V) (m : Option M)
    (hp : ∀ i, env.parse id = some i → (f.vectors.length : Int) ≤ i) :
    Lsh.update env id v m f = (.ok false, f) := by
  simp only [Lsh.update, hi, Bool.not_true, Bool.false_eq_true, if_false]
  cases he : env.parse id with
  | none => rfl
  | some i => simp only [if_pos (hp i he)]

example : Lsh.update (exLshEnv 1 2) "2" [3, 3] none (lshAfter (exLshEnv 1 2) (exLshHist.take 1)) =
    (.ok false, lshAfter (exLshEnv 1 2) (exLshHist.take 1)) := by decide

theorem pyGet_neg {α : Type} (l : List α) {n p : Nat} (h : n + (p + 1) = l.length) :
    pyGet l (-((p : Int) + 1)) = l[n]? := by
  simp only [pyGet]
  rw [if_neg (by omega), if_pos (by omega)]
  congr 1
  omega

theorem pySet_neg {α : Type} (l : List α) {n p : Nat} (h : n + (p + 1) = l.length) (x : α) :
    pySet l (-((p : Int) + 1)) x = l.set n x := by
  simp only [pySet]
  rw [if_neg (by omega)]
  congr 1
  omega

/-- The scoring loop answers when every candidate is a position of the lists (from either end), and
reports every candidate that passes the threshold. -/
theorem score_all [LinearOrder S] (env : LshEnv V S M) (f : Lsh V M) (q : V) (thr : S)
    (l : List Int)
    (hl : ∀ i ∈ l, ∃ o md, pyGet f.vectors i = some o ∧ pyGet f.metadata i = some md ∧
      ∀ w, o = some w → ∃ s, env.sim q w = .ok s) :
    ∃ hits, Lsh.score env f q thr l = .ok hits ∧ hits.length ≤ l.length ∧
      ∀ i ∈ l, ∀ w md s, i < (f.vectors.length : Int) → pyGet f.vectors i = some (some w) →
        pyGet f.metadata i = some md → env.sim q w = .ok s → thr ≤ s → ⟨i, s, md⟩ ∈ hits := by
  induction l with
  | nil => exact ⟨[], rfl, Nat.le_refl _, by simp⟩
  | cons j l ih =>
    obtain ⟨hits, h1, h2, h3⟩ := ih fun i hi => hl i (List.mem_cons_of_mem _ hi)
    obtain ⟨o, md, ho, hm, hw⟩ := hl j (List.mem_cons_self ..)
    simp only [Lsh.score]
    by_cases hj : (f.vectors.length : Int) ≤ j
    · rw [if_pos hj]
      refine ⟨hits, h1, Nat.le_succ_of_le h2, ?_⟩
      intro i hi w md s hlt
      rcases List.mem_cons.1 hi with rfl | hi
      · omega
      · exact h3 i hi w md s hlt
    · rw [if_neg hj, ho]
      cases o with
      | none =>
        refine ⟨hits, h1, Nat.le_succ_of_le h2, ?_⟩
        intro i hi w md s hlt hv
        rcases List.mem_cons.1 hi with rfl | hi
        · rw [ho] at hv; cases hv
        · exact h3 i hi w md s hlt hv
      | some u =>
        obtain ⟨s', hs'⟩ := hw u rfl
        simp only [hs']
        by_cases ht : thr ≤ s'
        · rw [if_pos ht, hm]
          simp only [h1]
          refine ⟨_, rfl, by simpa using h2, ?_⟩
          intro i hi w md' s hlt hv hmd hs hts
          rcases List.mem_cons.1 hi with rfl | hi
          · rw [ho] at hv; cases hv
            rw [hs'] at hs; cases hs
            rw [hm] at hmd; cases hmd
            exact List.mem_cons_self ..
          · exact List.mem_cons_of_mem _ (h3 i hi w md' s hlt hv hmd hs hts)
        · rw [if_neg ht]
          refine ⟨hits, h1, Nat.le_succ_of_le h2, ?_⟩
          intro i hi w md' s hlt hv hmd hs hts
          rcases List.mem_cons.1 hi with rfl | hi
          · rw [ho] at hv; cases hv
            rw [hs'] at hs; cases hs
            exact absurd hts ht
          · exact h3 i hi w md' s hlt hv hmd hs hts

/-- Dropping an id that is in no bucket adds nothing to any bucket. -/
theorem bucket_drop_mem (d : Dict Code (List Int)) (c c' : Code) (i j : Int)
    (h : j ∈ bucket (match d.get? c with
      | none => d
      | some l => d.set c (removeFirst l i)) c') : j ∈ bucket d c' := by
  cases hg : d.get? c with
  | none => simpa only [hg] using h
  | some l =>
    simp only [hg, bucket_set] at h
    split at h
    · rename_i e
      subst e
      simp only [bucket, hg, Option.getD_some]
      exact List.mem_of_mem_erase h
    · exact h

/-- The state after such an update. -/
theorem neg_update [LinearOrder S] {env : LshEnv V S M}
    (hc : env.hashSize ≤ env.numProj) (ht : 0 < env.numTables) (hset : SetLike env.setOrder)
    {a : Slots V M} {f : Lsh V M} (hI : Inv env a f) {n p : Nat} {x : V} {m0 : M}
    (hx : a.at? n = some (x, m0)) (hp : n + (p + 1) = a.slots.length) {i : Int}
    (hidef : i = -((p : Int) + 1)) {id : String}
    (hid : env.parse id = some i) {v : V} (m : Option M)
    (hv : storable env (env.dim x) v = true) (hsim : ∀ w, ∃ s, env.sim v w = .ok s)
    {s : S} (hs : env.sim v v = .ok s) (thr : Option S) (hthr : thr.getD env.threshold ≤ s)
    {k : Nat} (hk : a.slots.length < k) {r : Res (Lsh V M) Bool}
    (hrdef : r = Lsh.update env id v m f) :
    r.1 = .ok true ∧
    (∀ j, r.2.vectors[j]? = if j = n then some (some v) else f.vectors[j]?) ∧
    ∃ hits, Lsh.search env v k thr r.2 = .ok hits ∧ ⟨i, s, some (m.getD m0)⟩ ∈ hits := by
  have hpg : ∀ {α : Type} (l : List α), l.length = a.slots.length → pyGet l i = l[n]? := by
    intro α l hl; rw [hidef]; exact pyGet_neg l (by omega)
  have hps : ∀ {α : Type} (l : List α), l.length = a.slots.length → ∀ x, pySet l i x = l.set n x := by
    intro α l hl x; rw [hidef]; exact pySet_neg l (by omega) x
  have hlen : f.vectors.length = a.slots.length := by rw [hI.vec]; simp
  have hlenm : f.metadata.length = a.slots.length := by rw [hI.md]; simp
  have hslot : a.slots[n]? = some (some (x, m0)) := at?_eq_some.1 hx
  have hvec : f.vectors[n]? = some (some x) := by rw [hI.vec]; simp [hslot]
  have hmd : f.metadata[n]? = some (some m0) := by rw [hI.md]; simp [hslot]
  have hdx : a.dim = some (env.dim x) := hI.dims n x m0 hx
  have hvd : env.dim v = env.dim x := by
    simp only [storable, Bool.and_eq_true, decide_eq_true_eq] at hv; omega
  have hdv : a.dim = some (env.dim v) := by rw [hvd]; exact hdx
  let cs := (List.range f.tables.length).map fun t => codeOf env (a.dim.getD 0) t x
  let cs' := (List.range f.tables.length).map fun t => codeOf env (a.dim.getD 0) t v
  have hcx : hashVector env f x = .ok cs := hI.hash hc hdx
  have hcv : hashVector env f v = .ok cs' := hI.hash hc hdv
  have hcong : ∀ g : Lsh V M, g.dimension = f.dimension → hashVector env g v = .ok cs' := by
    intro g hg
    rw [← hcv]
    simp only [hashVector, hg]
  have hdec : ∀ t vs ms nx ini, hashVector env ⟨t, f.dimension, vs, ms, nx, ini⟩ v = .ok cs' :=
    fun t vs ms nx ini => hcong ⟨t, f.dimension, vs, ms, nx, ini⟩ rfl
  let g : Lsh V M := { f with
    vectors := f.vectors.set n (some v)
    metadata := match m with
      | none => f.metadata
      | some md => f.metadata.set n (some md)
    tables := addCodes i (dropCodes i f.tables cs) cs' }
  have hr : r = (.ok true, g) := by
    simp only [hrdef, Lsh.update, hI.inited, Bool.not_true, Bool.false_eq_true, if_false, hid]
    rw [if_neg (by omega), hpg f.vectors (by omega), hvec]
    simp only [hcx]
    cases m with
    | none =>
      simp only [hdec]
      simp only [hps f.vectors (by omega), g, hI.inited]
    | some md =>
      simp only
      rw [hpg f.metadata (by omega), hmd]
      simp only [hdec]
      simp only [hps f.vectors (by omega),
        hps f.metadata (by omega), g, hI.inited]
  rw [hr]
  have hglen : g.vectors.length = a.slots.length := by simp [g, hlen]
  have hgm : g.metadata.length = a.slots.length := by
    simp only [g]; cases m <;> simp [hlenm]
  have hgv : g.vectors[n]? = some (some v) := by
    simp only [g]; rw [List.getElem?_set_self (by omega)]
  have hgmd : g.metadata[n]? = some (some (m.getD m0)) := by
    simp only [g]
    cases m with
    | none => exact hmd
    | some md => simp only; rw [List.getElem?_set_self (by omega)]; rfl
  refine ⟨rfl, ?_, ?_⟩
  · intro j
    simp only [g, List.getElem?_set]
    by_cases hj : j = n
    · subst hj; simp; omega
    · rw [if_neg (Ne.symm hj), if_neg hj]
  -- the candidates
  have hdl : cs.length = f.tables.length := by simp [cs]
  have hdl' : cs'.length = (dropCodes i f.tables cs).length := by
    simp [cs', dropCodes_length]
  have hcand : ∀ j ∈ exactCands g.tables cs', j = i ∨ ∃ q : Nat, j = q ∧ q < a.slots.length := by
    intro j hj
    obtain ⟨t, d, c, h1, h2, h3⟩ := (exactCands_mem _ _ _).1 hj
    simp only [g, addCodes_get i _ _ hdl', dropCodes_get i _ _ hdl] at h1
    cases hd0 : f.tables[t]? with
    | none => simp [hd0] at h1
    | some d0 =>
      simp only [hd0, Option.bind_some, h2] at h1
      cases hc0 : cs[t]? with
      | none => simp [hc0] at h1
      | some c0 =>
        simp only [hc0, Option.map_some, Option.bind_some, Option.some.injEq] at h1
        subst h1
        rw [bucket_set, if_pos rfl] at h3
        rcases List.mem_append.1 h3 with h4 | h4
        · right
          have := bucket_drop_mem d0 c0 c i j (by exact h4)
          obtain ⟨q, w, e1, e2, -⟩ := ((hI.tab.ok t d0 hd0).mem c j).1 this
          refine ⟨q, e1, ?_⟩
          simp only [cur, Option.map_eq_some_iff] at e2
          obtain ⟨y, e2, -⟩ := e2
          exact at?_lt e2
        · left; simpa using h4
  have hin : i ∈ exactCands g.tables cs' := by
    rw [exactCands_mem]
    have h0 : 0 < f.tables.length := by rw [hI.len]; exact ht
    have hcs0 : cs[0]? = some (codeOf env (a.dim.getD 0) 0 x) := by
      simp [cs, List.getElem?_range h0]
    have hcs0' : cs'[0]? = some (codeOf env (a.dim.getD 0) 0 v) := by
      simp [cs', List.getElem?_range h0]
    have hd0 := List.getElem?_eq_getElem h0
    have hg0 : ∃ d : Dict Code (List Int), g.tables[0]? =
        some (d.set (codeOf env (a.dim.getD 0) 0 v)
          ((d.get? (codeOf env (a.dim.getD 0) 0 v)).getD [] ++ [i])) := by
      have hdr : ∃ d, (dropCodes i f.tables cs)[0]? = some d := by
        rw [dropCodes_get i _ _ hdl, hd0, hcs0]; exact ⟨_, rfl⟩
      obtain ⟨d, hdr⟩ := hdr
      refine ⟨d, ?_⟩
      simp only [g, addCodes_get i _ _ hdl', hdr, Option.bind_some, Option.map_some, hcs0']
    obtain ⟨d, hg0⟩ := hg0
    exact ⟨0, _, _, hg0, hcs0', by rw [bucket_set, if_pos rfl]; simp⟩
  have hord : ∀ j ∈ env.setOrder (exactCands g.tables cs'),
      j = i ∨ ∃ q : Nat, j = q ∧ q < a.slots.length :=
    fun j hj => hcand j (((hset _).2 j).1 hj)
  obtain ⟨hits, e1, e2, e3⟩ := score_all env g v (thr.getD env.threshold)
    (env.setOrder (exactCands g.tables cs')) (by
      intro j hj
      rcases hord j hj with hji | ⟨q, rfl, hq⟩
      · subst hji
        refine ⟨some v, some (m.getD m0), ?_, ?_, fun w _ => hsim w⟩
        · rw [hpg g.vectors (by omega)]; exact hgv
        · rw [hpg g.metadata (by omega)]; exact hgmd
      · have hq1 : q < g.vectors.length := by omega
        have hq2 : q < g.metadata.length := by omega
        refine ⟨g.vectors[q], g.metadata[q], ?_, ?_, fun w _ => hsim w⟩
        · rw [pyGet_nat]; exact List.getElem?_eq_getElem hq1
        · rw [pyGet_nat]; exact List.getElem?_eq_getElem hq2)
  have hbound : (env.setOrder (exactCands g.tables cs')).length ≤ a.slots.length + 1 := by
    have : (env.setOrder (exactCands g.tables cs')) ⊆
        i :: (List.range a.slots.length).map (fun q : Nat => (q : Int)) := by
      intro j hj
      rcases hord j hj with hji | ⟨q, rfl, hq⟩
      · rw [hji]; exact List.mem_cons_self ..
      · exact List.mem_cons_of_mem _ (List.mem_map.2 ⟨q, List.mem_range.2 hq, rfl⟩)
    have := (List.subperm_of_subset (hset _).1 this).length_le
    simpa using this
  have hne : (exactCands g.tables cs').isEmpty = false := by
    cases hE : exactCands g.tables cs' with
    | nil => rw [hE] at hin; simp at hin
    | cons _ _ => rfl
  refine ⟨sliceTo (sortDesc hits) k, ?_, ?_⟩
  · have hval : valid env (env.dim v) v = true := by
      simp only [storable, hvd, Lsh.valid] at hv ⊢; exact hv
    have hgd : g.dimension = some (env.dim v) := hI.dim.trans hdv
    simp only [Lsh.search, show g.inited = true from hI.inited, Bool.not_true, Bool.false_eq_true,
      if_false, hgd, hval, hcong g rfl, hne, e1]
  · have hmem := e3 i (((hset _).2 i).2 hin) v _ s (by omega)
      (by rw [hpg g.vectors (by omega)]; exact hgv)
      (by rw [hpg g.metadata (by omega)]; exact hgmd) hs hthr
    simp only [sliceTo]
    rw [if_pos (by omega), List.take_of_length_le]
    · exact (sortDesc_perm hits).mem_iff.2 hmem
    · rw [(sortDesc_perm hits).length_eq]; simp; omega

/-- C222 is false: on every LSH index whose slot `n` is live, `update(str(n - len), v)` with a vector
of the right dimension returns `True` and replaces the vector of id `n`; a search for `v` that asks
for enough results (comparisons not raising) then reports the negative id. -/
theorem C222_lsh_update_refuted [LinearOrder S] {env : LshEnv V S M}
    (hc : env.hashSize ≤ env.numProj) (ht : 0 < env.numTables) (hset : SetLike env.setOrder)
    {h : List (SCall V M S)} (ho : LshOk env h) {n p : Nat} {x : V} {m0 : M}
    (hx : (slotsAfter env h).at? n = some (x, m0))
    (hp : n + (p + 1) = (slotsAfter env h).slots.length) {id : String}
    (hid : env.parse id = some (-((p : Int) + 1))) {v : V} (m : Option M)
    (hv : storable env (env.dim x) v = true) (hsim : ∀ w, ∃ s, env.sim v w = .ok s)
    {s : S} (hs : env.sim v v = .ok s) (thr : Option S) (hthr : thr.getD env.threshold ≤ s)
    {k : Nat} (hk : (slotsAfter env h).slots.length < k) :
    let r := Lsh.update env id v m (lshAfter env h)
    r.1 = .ok true ∧
    (∀ j, r.2.vectors[j]? = if j = n then some (some v) else (lshAfter env h).vectors[j]?) ∧
    ∃ hits, Lsh.search env v k thr r.2 = .ok hits ∧
      ⟨-((p : Int) + 1), s, some (m.getD m0)⟩ ∈ hits := by
  exact neg_update hc ht hset (lsh_inv hc ho) hx hp rfl hid m hv hsim hs thr hthr hk rfl

example : (slotsAfter (exLshEnv 1 2) exLshHist).at? 3 = some ([1, -1], 0) ∧
    (slotsAfter (exLshEnv 1 2) exLshHist).slots.length = 3 + (0 + 1) ∧
    (exLshEnv 1 2).parse "-1" = some (-((0 : Int) + 1)) ∧
    storable (exLshEnv 1 2) 2 [4, 3] = true ∧
    Lsh.search (exLshEnv 1 2) [4, 3] 5 none
      (Lsh.update (exLshEnv 1 2) "-1" [4, 3] none (lshAfter (exLshEnv 1 2) exLshHist)).2 =
      .ok [⟨2, 35, some 0⟩, ⟨3, 25, some 0⟩, ⟨-1, 25, some 0⟩, ⟨0, 14, some 7⟩] := by decide

/-- C222 is false of deletes too: on every LSH index whose slot `n` is live, deleting the string
that denotes `n - len` returns `True` and takes the vector and metadata of id `n`, one vector fewer
being counted. -/
theorem C222_lsh_delete_refuted {env : LshEnv V S M}
    (hc : env.hashSize ≤ env.numProj)
    {h : List (SCall V M S)} (ho : LshOk env h) {n p : Nat} {x : V} {m0 : M}
    (hx : (slotsAfter env h).at? n = some (x, m0))
    (hp : n + (p + 1) = (slotsAfter env h).slots.length) {id : String}
    (hid : env.parse id = some (-((p : Int) + 1))) :
    let r := Lsh.delete env [id] (lshAfter env h)
    r.1 = true ∧
    (∀ j, r.2.vectors[j]? = if j = n then some none else (lshAfter env h).vectors[j]?) ∧
    (∀ j, r.2.metadata[j]? = if j = n then some none else (lshAfter env h).metadata[j]?) := by
  have hI := lsh_inv hc ho
  intro r
  have hlen : (lshAfter env h).vectors.length = (slotsAfter env h).slots.length := by
    rw [hI.vec]; simp
  have hlenm : (lshAfter env h).metadata.length = (slotsAfter env h).slots.length := by
    rw [hI.md]; simp
  have hslot : (slotsAfter env h).slots[n]? = some (some (x, m0)) := at?_eq_some.1 hx
  have hvec : (lshAfter env h).vectors[n]? = some (some x) := by rw [hI.vec]; simp [hslot]
  have hmd : (lshAfter env h).metadata[n]? = some (some m0) := by rw [hI.md]; simp [hslot]
  have hr : r.1 = true ∧ r.2.vectors = (lshAfter env h).vectors.set n none ∧
      r.2.metadata = (lshAfter env h).metadata.set n none := by
    simp only [r, Lsh.delete, Lsh.remove, hI.inited, Bool.not_true, Bool.false_eq_true, if_false,
      List.filterMap_cons, List.filterMap_nil, hid, Lsh.removeLoop]
    rw [if_neg (by omega), pyGet_neg _ (n := n) (by omega), hvec]
    simp only [hI.hash hc (hI.dims n x m0 hx)]
    rw [pyGet_neg _ (n := n) (by omega), hmd]
    exact ⟨rfl, pySet_neg _ (by omega) _, pySet_neg _ (by omega) _⟩
  refine ⟨hr.1, ?_, ?_⟩
  · intro j
    rw [hr.2.1, List.getElem?_set]
    by_cases hj : j = n
    · subst hj; simp; omega
    · rw [if_neg (Ne.symm hj), if_neg hj]
  · intro j
    rw [hr.2.2, List.getElem?_set]
    by_cases hj : j = n
    · subst hj; simp; omega
    · rw [if_neg (Ne.symm hj), if_neg hj]

end Lsh

section Annoy
variable {L V F M : Type}

/-- C222, Annoy, in every state: an update whose id denotes no number, or a number not reached yet,
raises and changes nothing; a delete of such numbers changes nothing.  Missing: negative numbers,
see the refutations below. -/
theorem C222_annoy_partial (env : AnEnv L V F M) (f : Annoy L V M) (hi : f.inited = true) :
    (∀ id v m, (∀ i, env.parse id = some i → (f.vectors.length : Int) ≤ i) →
      Annoy.update env id v m f = (.error .index, f)) ∧
    (∀ ids, (∀ s ∈ ids, ∀ i, env.parse s = some i → (f.vectors.length : Int) ≤ i) →
      (Annoy.delete env ids f).2 = f) := by
  refine ⟨?_, ?_⟩
  · intro id v m h
    simp only [Annoy.update]
    cases he : env.parse id with
    | none => rfl
    | some i => simp only [if_pos (h i he)]
  · intro ids h
    have key : ∀ l : List Int, (∀ i ∈ l, (f.vectors.length : Int) ≤ i) →
        Annoy.removeLoop l f = (.ok (), f) := by
      intro l
      induction l with
      | nil => intro _; rfl
      | cons i l ih =>
        intro h
        simp only [Annoy.removeLoop]
        have := h i (by simp)
        rw [if_neg (by omega)]
        exact ih fun j hj => h j (by simp [hj])
    have hall : ∀ l : List String, (∀ s ∈ l, ∀ i, env.parse s = some i →
        (f.vectors.length : Int) ≤ i) → ∀ is, Annoy.parseAll env.parse l = some is →
        ∀ i ∈ is, (f.vectors.length : Int) ≤ i := by
      intro l
      induction l with
      | nil => intro _ is he; cases he; simp
      | cons s l ih =>
        intro h is he
        simp only [Annoy.parseAll] at he
        split at he
        · rename_i i is' h1 h2
          cases he
          intro j hj
          rcases List.mem_cons.1 hj with rfl | hj
          · exact h s (by simp) _ h1
          · exact ih (fun s' hs' => h s' (by simp [hs'])) _ h2 j hj
        · cases he
    simp only [Annoy.delete]
    cases he : Annoy.parseAll env.parse ids with
    | none => rfl
    | some is =>
      simp only [Annoy.remove, hi, Bool.not_true, Bool.false_eq_true, if_false,
        key is (hall ids h is he)]

example : Annoy.update exAn "1" 3 none (anAfter exAn .euclidean [.insert 2 1 [10] none]) =
    (.error .index, anAfter exAn .euclidean [.insert 2 1 [10] none]) := by decide

/-- C222 is false: in every state whose slot `n` is filled, deleting the string that denotes
`n - len` returns `True` and takes the vector and metadata of id `n`. -/
theorem C222_annoy_delete_refuted (env : AnEnv L V F M) (f : Annoy L V M) (hi : f.inited = true)
    {n p : Nat} (hp : n + (p + 1) = f.vectors.length) (hl : f.metadata.length = f.vectors.length)
    {id : String} (hid : env.parse id = some (-((p : Int) + 1))) :
    let r := Annoy.delete env [id] f
    r.1 = .ok true ∧ r.2.vectors[n]? = some none ∧ r.2.metadata[n]? = some none ∧
    r.2.vectors.length = f.vectors.length := by
  intro r
  have hv : f.vectors[n]? = some f.vectors[n] := List.getElem?_eq_getElem (by omega)
  have hm : f.metadata[n]? = some f.metadata[n] := List.getElem?_eq_getElem (by omega)
  have hr : r = (.ok true, { f with vectors := f.vectors.set n none
                                    metadata := f.metadata.set n none }) := by
    simp only [r, Annoy.delete, Annoy.parseAll, hid, Annoy.remove, hi, Bool.not_true,
      Bool.false_eq_true, if_false, Annoy.removeLoop]
    rw [if_pos (by omega), pyGet_neg _ (n := n) (by omega), hv]
    simp only
    rw [pyGet_neg _ (n := n) (by omega), hm, pySet_neg _ (n := n) (by omega),
      pySet_neg _ (n := n) (by omega)]
  rw [hr]
  refine ⟨rfl, ?_, ?_, by simp⟩
  · simp only; rw [List.getElem?_set_self (by omega)]
  · simp only; rw [List.getElem?_set_self (by omega)]

/-- C222 is false of updates: when the library refuses negative items, as annoy does, an update
with the string "-1" raises, but the last vector has been taken, a slot without an id has been
added, and the next insert hands out the id "0" again. -/
theorem C222_annoy_update_refuted (env : AnEnv L V F M) (f : Annoy L V M) (hi : f.inited = true)
    {n d : Nat} {l l' : L} (hp : n + 1 = f.vectors.length)
    (hl : f.metadata.length = f.vectors.length) (hlib : f.lib = some l)
    (hd : f.dimension = some d) {id : String} (hid : env.parse id = some (-1)) {v w : V} (m m' : M)
    (hv : Annoy.valid env d v = true) (hw : Annoy.valid env d w = true)
    (hneg : ∃ e, env.addItem l (-1) v = .error e) (hadd : env.addItem l 0 w = .ok l') :
    let r := Annoy.update env id v (some m) f
    r.1 = .error .index ∧ r.2.vectors[n]? = some none ∧
    r.2.vectors.length = f.vectors.length + 1 ∧
    (Annoy.insert env 2 d [w] (some [some m']) r.2).1 = .ok ["0"] := by
  obtain ⟨e, hneg⟩ := hneg
  intro r
  have hx : f.vectors[n]? = some f.vectors[n] := List.getElem?_eq_getElem (by omega)
  have hm : f.metadata[n]? = some f.metadata[n] := List.getElem?_eq_getElem (by omega)
  have hdv : env.dim v = d := by
    simp only [Annoy.valid, Bool.and_eq_true, decide_eq_true_eq] at hv; exact hv.1.2
  have hpy : ∀ {α : Type} (k : List α), n + 1 = k.length → pyGet k (-1) = k[n]? := by
    intro α k hk
    exact pyGet_neg k (n := n) (p := 0) (by omega)
  have hps : ∀ {α : Type} (k : List α) (x : α), n + 1 = k.length → pySet k (-1) x = k.set n x := by
    intro α k x hk
    exact pySet_neg k (n := n) (p := 0) (by omega) x
  have hr : r = (.error .index, { f with
      vectors := f.vectors.set n none ++ [some v]
      metadata := f.metadata.set n none ++ [some m]
      nextId := 0 }) := by
    simp only [r, Annoy.update, hid, Annoy.updMd, Annoy.remove, hi, Bool.not_true,
      Bool.false_eq_true, if_false, Annoy.removeLoop]
    rw [if_neg (by omega), if_pos (by omega), hpy _ hp, hx]
    simp only
    rw [hpy _ (hp.trans hl.symm), hm]
    simp only
    rw [hps _ _ hp, hps _ _ (hp.trans hl.symm)]
    simp only [Annoy.add, hi, hd, hdv, List.all_cons, List.all_nil, hv, Annoy.addLoop, hlib, hneg,
      List.zip_cons_cons, List.zip_nil_left, List.length_cons, List.length_nil]
    simp
  rw [hr]
  refine ⟨rfl, ?_, by simp, ?_⟩
  · simp only
    rw [List.getElem?_append_left (by simp; omega), List.getElem?_set_self (by omega)]
  · simp only [Annoy.insert, Annoy.add, hi, hd, List.all_cons, List.all_nil, hw, Annoy.addLoop,
      hlib, hadd, List.zip_cons_cons, List.zip_nil_left, List.length_cons, List.length_nil]
    simp
    rfl

/-- A library that refuses negative items. -/
def exAnStrict : AnEnv (List (Int × Int)) Int ℚ Nat :=
  { exAn with addItem := fun l i v => if i < 0 then .error .indexRange else exAn.addItem l i v }

example : let f := anAfter exAnStrict .euclidean exAnHist
    f.inited = true ∧ f.vectors.length = 2 + 1 ∧ f.metadata.length = 3 ∧ f.dimension = some 1 ∧
    f.lib = some [(0, 10), (1, 20), (2, 30)] ∧
    exAnStrict.addItem [(0, 10), (1, 20), (2, 30)] (-1) 5 = .error .indexRange ∧
    (Annoy.insert exAnStrict 2 1 [6] (some [some 1])
      (Annoy.update exAnStrict "-1" 5 (some 4) f).2).1 = .ok ["0"] := by decide

end Annoy
end Valori.Props
