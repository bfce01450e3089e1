import Verif.Lemmas.Annoy
import Mathlib.Algebra.Order.Field.Rat
import Mathlib.Tactic.Linarith
import Mathlib.Tactic.Positivity
import Std.Data.String.ToInt

/-!
# Properties C36 - C40, C86: the Annoy index

The annoy library is an arbitrary state type with arbitrary answers.
-/

namespace Valori.Props
open Valori Valori.Spec Valori.Annoy

variable {L V F M : Type}

/-- A new, initialised index. -/
def anFresh (metric : AnMetric) : Annoy L V M := Annoy.init ⟨[], [], none, 0, none, false, false, metric⟩

/-- A new index after a history. -/
def anAfter (env : AnEnv L V F M) (metric : AnMetric) (h : List (AnCall V M)) : Annoy L V M :=
  Annoy.run env (anFresh metric) h

/-- The metadata given for row `i` of a batch (`empty` when no list is given). -/
def givenMd (empty : M) (mds : Option (List (Option M))) (i : Nat) : Option M :=
  match mds with
  | none => some empty
  | some l => (l[i]?).join

/-! A concrete library: items with distances on integers, all within reach, nearest first. -/

/-- Exhaustive search over rational numbers. -/
def exAn : AnEnv (List (Int × Int)) Int ℚ Nat where
  numTrees := 10
  searchK := -1
  create _ _ := []
  addItem l i v := .ok (l.filter (fun p => p.1 != i) ++ [(i, v)])
  build l := .ok l
  nns l q k _ := .ok ((pySortBy (fun p : Nat × ℚ => p.2)
    (l.map fun p => (p.1.toNat, |(p.2 : ℚ) - q|))).take k.toNat)
  dim _ := 1
  finite _ := true
  parse s := if s = "0" then some 0 else if s = "1" then some 1 else if s = "-1" then some (-1)
    else none
  emptyMd := 0

/-- Two batches, a build, a delete. -/
def exAnHist : List (AnCall Int Nat) :=
  [.insert 2 1 [10, 20] (some [some 7, some 8]), .build, .delete ["0"], .insert 2 1 [30] none]

theorem exAnHist_plain : ∀ c ∈ exAnHist, c.Plain exAn.parse := by
  intro c hc
  simp only [exAnHist, List.mem_cons, List.not_mem_nil, or_false] at hc
  rcases hc with rfl | rfl | rfl | rfl
  · intro l hl; cases hl; decide
  · trivial
  · intro s hs i hi; simp at hs; subst hs; simp [exAn] at hi; omega
  · intro l hl; cases hl

/-! ## C36 -/

theorem anAfter_aligned {env : AnEnv L V F M} (metric : AnMetric) {h : List (AnCall V M)}
    (hp : ∀ c ∈ h, c.Plain env.parse) :
    Annoy.Aligned (anAfter env metric h) ∧ (anAfter env metric h).inited = true := by
  have hA : Annoy.Aligned (anFresh (L := L) (V := V) (M := M) metric) := ⟨rfl, rfl⟩
  obtain ⟨a, b, -⟩ := hA.run h rfl hp
  exact ⟨a, b⟩

/-- **C36** In a history of inserts, builds, searches and deletes, whatever the library answers: a
successful insert returns consecutive ids starting at the total capacity, and every later search
result for one of these ids carries the metadata given for it, or `None` once it was deleted. -/
theorem C36_annoy_aligned [Field F] [LinearOrder F] (env : AnEnv L V F M) (metric : AnMetric)
    (h h' : List (AnCall V M)) (nd cols : Nat) (rows : List V) (mds : Option (List (Option M)))
    (hp : ∀ c ∈ h, c.Plain env.parse) (hm : ∀ l, mds = some l → none ∉ l)
    (hp' : ∀ c ∈ h', c.Plain env.parse) {ids : List String} {f1 : Annoy L V M}
    (hins : Annoy.insert env nd cols rows mds (anAfter env metric h) = (.ok ids, f1)) :
    ids = (List.range' (anAfter env metric h).vectors.length rows.length).map toString ∧
    ∀ (q : V) (k : Int) (hits : List (AnHit F M)), Annoy.search env q k (Annoy.run env f1 h') = .ok hits →
      ∀ hit ∈ hits, ∀ i, ids[i]? = some (toString hit.id) →
        ((∃ c ∈ h', c.deletes env.parse hit.id) → hit.md = none) ∧
        ((¬ ∃ c ∈ h', c.deletes env.parse hit.id) → hit.md = givenMd env.emptyMd mds i) := by
  obtain ⟨hA, hi⟩ := anAfter_aligned (env := env) metric hp
  obtain ⟨j, r, f', e, h1, h2, h3, h4, h5, h6, h7⟩ :=
    Annoy.insert_spec env nd cols rows mds hm (anAfter env metric h)
  rw [hins] at e
  simp only [Prod.mk.injEq] at e
  obtain ⟨rfl, rfl⟩ := e
  obtain ⟨rfl, hids⟩ := h7 ids rfl
  have hids' : ids = (List.range' (anAfter env metric h).vectors.length rows.length).map toString := by
    rw [hids, List.range'_eq_map_range, List.map_map]
    apply List.map_congr_left
    intro i _
    simp only [Function.comp_apply, hA.next]
    rfl
  refine ⟨hids', ?_⟩
  intro q k hits hs hit hh i hidx
  have hi1 : f1.inited = true := by
    have := Annoy.insert_inited env nd cols rows mds (anAfter env metric h)
    rw [hins] at this; rw [this]; exact hi
  have hA1 : Annoy.Aligned f1 := ⟨by rw [h5, h4, hA.md], by rw [h6, h4, hA.next]; simp⟩
  obtain ⟨-, -, hd, hn⟩ := hA1.run h' hi1 hp'
  have hil : i < rows.length := by
    have := (List.getElem?_eq_some_iff.1 hidx).1
    rw [hids'] at this; simpa using this
  have hid : hit.id = (anAfter env metric h).vectors.length + i := by
    rw [hids', List.getElem?_map, List.getElem?_range' hil] at hidx
    simp only [Option.map_some, Option.some.injEq] at hidx
    have := Nat.repr_injective hidx
    omega
  have hml : (Annoy.mdList env rows mds).length = rows.length := by
    have : (Annoy.mdList env rows mds).take rows.length = (f1.metadata).drop
      (anAfter env metric h).metadata.length := by rw [h3]; simp
    have hh : rows.length ≤ (Annoy.mdList env rows mds).length := by
      have h8 := h5
      rw [h3, List.length_append, List.length_take] at h8
      omega
    cases mds with
    | none => simp [Annoy.mdList]
    | some l =>
      simp only [Annoy.mdList] at hh ⊢
      by_contra hne
      have hadd : (Annoy.insert env nd cols rows (some l) (anAfter env metric h)).1 =
          .error .index := by
        simp only [Annoy.insert, Annoy.add, hi]
        rw [if_neg (by simp), if_pos (Ne.symm hne)]
      rw [hins] at hadd
      simp at hadd
  have hmd : f1.metadata[hit.id]? = some (givenMd env.emptyMd mds i) := by
    rw [h3, hid, ← hA.md, List.getElem?_append_right (by omega), Nat.add_sub_cancel_left,
      List.getElem?_take_of_lt hil]
    cases mds with
    | none =>
      simp only [Annoy.mdList, givenMd, List.getElem?_map, List.getElem?_eq_getElem hil,
        Option.map_some]
    | some l =>
      simp only [Annoy.mdList] at hml
      simp only [Annoy.mdList, givenMd]
      rw [List.getElem?_eq_getElem (by omega)]
      rfl
  have hsm := Annoy.search_md hs hit hh
  constructor
  · intro hdel
    have := hd hit.id _ hmd hdel
    rw [hsm] at this
    simpa using this
  · intro hnd
    have := hn hit.id _ hmd hnd
    rw [hsm] at this
    simpa using this

/-- A concrete case: two ids, the first deleted afterwards; results with and without metadata. -/
example :
    (∀ c ∈ exAnHist, c.Plain exAn.parse) ∧
    (Annoy.insert exAn 2 1 [10, 20] (some [some 7, some 8]) (anAfter exAn .euclidean [])).1 =
      .ok ["0", "1"] ∧
    Annoy.search exAn 11 2 (anAfter exAn .euclidean (exAnHist.take 2)) =
      .ok [⟨0, 1 / 2, some 7⟩, ⟨1, 1 / 10, some 8⟩] :=
  ⟨exAnHist_plain, by decide, by decide +kernel⟩

/-! ## C37 -/

/-- **C37**, weaker form: a deleted id may be returned, but then with metadata `None`.  Missing: it
is returned at all, see `C37_annoy_deleted_refuted`. -/
theorem C37_annoy_deleted_partial [Field F] [LinearOrder F] (env : AnEnv L V F M) (metric : AnMetric)
    (h h' : List (AnCall V M)) (hp : ∀ c ∈ h ++ h', c.Plain env.parse) (n : Nat)
    (hn : n < (anAfter env metric h).vectors.length) (hd : ∃ c ∈ h', c.deletes env.parse n)
    (q : V) (k : Int) {hits : List (AnHit F M)}
    (hs : Annoy.search env q k (anAfter env metric (h ++ h')) = .ok hits) :
    ∀ hit ∈ hits, hit.id = n → hit.md = none := by
  intro hit hh hid
  obtain ⟨hA, hi⟩ := anAfter_aligned (env := env) metric (h := h) fun c hc => hp c (by simp [hc])
  obtain ⟨-, -, hd', -⟩ := hA.run h' hi fun c hc => hp c (by simp [hc])
  have hrun : anAfter env metric (h ++ h') = Annoy.run env (anAfter env metric h) h' := by
    simp [anAfter, Annoy.run]
  rw [hrun] at hs
  have hsm := Annoy.search_md hs hit hh
  have hlt : n < (anAfter env metric h).metadata.length := by rw [hA.md]; exact hn
  have := hd' n _ (List.getElem?_eq_getElem hlt) hd
  rw [hid, this] at hsm
  simpa using hsm.symm

/-- **C37** is false: with an exhaustive library, a deleted id is still the first result. -/
theorem C37_annoy_deleted_refuted :
    Annoy.delete exAn ["0"] (anAfter exAn .euclidean (exAnHist.take 2)) =
      (.ok true, anAfter exAn .euclidean (exAnHist.take 3)) ∧
    Annoy.search exAn 10 1 (anAfter exAn .euclidean (exAnHist.take 3)) = .ok [⟨0, 1, none⟩] := by
  decide +kernel

/-! ## C38 -/

/-- What an update does to the metadata list. -/
theorem an_update_spec (env : AnEnv L V F M) (f : Annoy L V M) (hA : Annoy.Aligned f)
    (id : String) (n : Nat) (hid : env.parse id = some (n : Int)) (v : V) (m : Option M)
    {f' : Annoy L V M} (hu : Annoy.update env id v m f = (.ok true, f')) :
    n < f.vectors.length ∧
    (∀ k, k < f.vectors.length → k ≠ n → f'.metadata[k]? = f.metadata[k]?) ∧
    f'.metadata[n]? = some none ∧ f'.nextId = f.nextId ∧
    ∃ md, f'.metadata[f.vectors.length]? = some (some md) ∧ (∀ x, m = some x → md = x) := by
  simp only [Annoy.update, hid] at hu
  by_cases hn : (f.vectors.length : Int) ≤ n
  · rw [if_pos hn] at hu; simp at hu
  rw [if_neg hn] at hu
  have hn' : n < f.vectors.length := by omega
  have hnm : n < f.metadata.length := by rw [hA.md]; exact hn'
  obtain ⟨md, hmd, hmx⟩ : ∃ md, updMd (n : Int) m f = some md ∧ ∀ x, m = some x → md = some x := by
    cases m with
    | some x => exact ⟨some x, rfl, by simp⟩
    | none =>
      exact ⟨_, by simp only [updMd, Lsh.pyGet_nat]; exact List.getElem?_eq_getElem hnm, by simp⟩
  rw [hmd] at hu
  simp only at hu
  obtain ⟨vs, ms, er, h1, h2, h3, -⟩ := Annoy.removeLoop_spec [(n : Int)] hA (by simp)
  cases hi : f.inited with
  | false => simp [Annoy.remove, hi] at hu
  | true =>
    have hrem : Annoy.remove [(n : Int)] f = (.ok (), { f with vectors := vs, metadata := ms }) := by
      simp only [Annoy.remove]; rw [if_neg (by simp [hi])]; exact er
    rw [hrem] at hu
    simp only at hu
    -- the add
    cases md with
    | none =>
      exfalso
      have : ∃ e g, Annoy.add env 2 (env.dim v) [v] [none]
          { f with vectors := vs, metadata := ms, nextId := n } = (.error e, g) := by
        simp only [Annoy.add, hi, List.zip_cons_cons, List.zip_nil_left, Annoy.addLoop]
        rw [if_neg (by simp), if_neg (by simp), if_neg (by omega)]
        cases f.dimension <;> simp only <;> (repeat' split) <;> exact ⟨_, _, rfl⟩
      obtain ⟨e, g, he⟩ := this
      rw [he] at hu
      simp at hu
    | some x =>
      obtain ⟨j, r, g, e, -, -, g3, -, -, -, g6⟩ := Annoy.insert_spec env 2 (env.dim v) [v]
        (some [some x]) (by simp) { f with vectors := vs, metadata := ms, nextId := n }
      simp only [Annoy.insert] at e
      cases hadd : Annoy.add env 2 (env.dim v) [v] [some x]
          { f with vectors := vs, metadata := ms, nextId := n } with
      | mk ra ga =>
        rw [hadd] at e hu
        cases ra with
        | error er => simp at hu
        | ok ids =>
          simp only [Prod.mk.injEq] at e hu
          obtain ⟨rfl, rfl⟩ := e
          obtain ⟨-, rfl⟩ := hu
          obtain ⟨rfl, -⟩ := g6 _ rfl
          simp only [Annoy.mdList, List.length_singleton, List.take_succ_cons, List.take_zero] at g3
          have hml : ms.length = f.vectors.length := by rw [h2, hA.md]
          refine ⟨hn', ?_, ?_, rfl, x, ?_, ?_⟩
          · intro k hk hkn
            show ga.metadata[k]? = _
            rw [g3, List.getElem?_append_left (by omega), h3 k (by rw [hA.md]; exact hk)]
            rw [if_neg (by simpa using hkn)]
          · show ga.metadata[n]? = _
            rw [g3, List.getElem?_append_left (by omega), h3 n hnm, if_pos (by simp)]
          · show ga.metadata[f.vectors.length]? = _
            rw [g3, ← hml]; simp
          · intro y hy; have := hmx y hy; simpa using this

/-- **C38**, for the other ids: whatever the library answers, a search after the update and one
before it give the same metadata to the same id, unless it is the updated one.  Missing: the updated
id itself and ids inserted later, see `C38_annoy_update_refuted` and `C38_annoy_later_refuted`. -/
theorem C38_annoy_update_partial [Field F] [LinearOrder F] (env : AnEnv L V F M) (metric : AnMetric)
    (h : List (AnCall V M)) (hp : ∀ c ∈ h, c.Plain env.parse) (id : String) (n : Nat)
    (hid : env.parse id = some (n : Int)) (v : V) (m : Option M) {f' : Annoy L V M}
    (hu : Annoy.update env id v m (anAfter env metric h) = (.ok true, f'))
    (q q' : V) (k k' : Int) {hits hits' : List (AnHit F M)}
    (hs : Annoy.search env q k (anAfter env metric h) = .ok hits)
    (hs' : Annoy.search env q' k' f' = .ok hits') :
    ∀ hit ∈ hits, ∀ hit' ∈ hits', hit.id = hit'.id → hit'.id ≠ n → hit'.md = hit.md := by
  intro hit hh hit' hh' he hn
  obtain ⟨hA, -⟩ := anAfter_aligned (env := env) metric hp
  obtain ⟨-, h1, -⟩ := an_update_spec env _ hA id n hid v m hu
  have e := Annoy.search_md hs hit hh
  have e' := Annoy.search_md hs' hit' hh'
  have hlt : hit.id < (anAfter env metric h).vectors.length := by
    rw [← hA.md]; exact (List.getElem?_eq_some_iff.1 e).1
  rw [h1 hit'.id (he ▸ hlt) hn, ← he, e] at e'
  simpa using e'.symm

/-- **C38** is false for every update: whatever the library answers, after an update that returns
`True` a search result for the updated id carries `None`, never the new metadata. -/
theorem C38_annoy_update_refuted [Field F] [LinearOrder F] (env : AnEnv L V F M) (metric : AnMetric)
    (h : List (AnCall V M)) (hp : ∀ c ∈ h, c.Plain env.parse) (id : String) (n : Nat)
    (hid : env.parse id = some (n : Int)) (v : V)
    (m : M) {f' : Annoy L V M}
    (hu : Annoy.update env id v (some m) (anAfter env metric h) = (.ok true, f')) (q : V)
    (k : Int) {hits : List (AnHit F M)} (hs : Annoy.search env q k f' = .ok hits) :
    ∀ hit ∈ hits, hit.id = n → hit.md = none := by
  intro hit hh hn
  obtain ⟨hA, -⟩ := anAfter_aligned (env := env) metric hp
  obtain ⟨-, -, h, -⟩ := an_update_spec env _ hA id n hid v (some m) hu
  have := Annoy.search_md hs hit hh
  rw [hn, h] at this
  simpa using this.symm

/-- **C38** is false for later inserts too: id "1", inserted after an update of id "0", is reported
with the metadata of the update. -/
theorem C38_annoy_later_refuted :
    let f := anAfter exAn .euclidean [.insert 2 1 [10] (some [some 7]), .update "0" 15 (some 9),
      .insert 2 1 [20] (some [some 8]), .build]
    (Annoy.update exAn "0" 15 (some 9)
      (anAfter exAn .euclidean [.insert 2 1 [10] (some [some 7])])).1 = .ok true ∧
    (Annoy.insert exAn 2 1 [20] (some [some 8]) (anAfter exAn .euclidean
      [.insert 2 1 [10] (some [some 7]), .update "0" 15 (some 9)])).1 = .ok ["1"] ∧
    Annoy.search exAn 20 1 f = .ok [⟨1, 1, some 9⟩] := by
  decide +kernel

/-- The update of "0" in the history above: both ids are found, "0" without metadata. -/
example :
    (∀ c ∈ exAnHist.take 1, c.Plain exAn.parse) ∧
    (Annoy.update exAn "0" 11 (some 9) (anAfter exAn .euclidean (exAnHist.take 1))).1 = .ok true ∧
    Annoy.search exAn 11 9 (anAfter exAn .euclidean (exAnHist.take 1 ++ [.update "0" 11 (some 9),
      .build])) = .ok [⟨0, 1, none⟩, ⟨1, 1 / 10, some 8⟩] :=
  ⟨fun c hc => exAnHist_plain c (List.mem_of_mem_take hc), by decide +kernel, by decide +kernel⟩

/-! ## C39 -/

/-- **C39**, for an index that never fixed a dimension: `clear` leaves it as new (and usable). -/
theorem C39_annoy_clear_partial (f : Annoy L V M) (hd : f.dimension = none) (hi : f.inited = true) :
    Annoy.clear f = anFresh f.metric := by
  cases f; simp_all [Annoy.clear, anFresh, Annoy.init]

/-- **C39** is false as soon as a dimension was fixed: after `clear`, or after `close` and
`initialize`, every insert of at least one acceptable vector raises, and the vector stays
half-added. -/
theorem C39_annoy_clear_refuted (env : AnEnv L V F M) (f : Annoy L V M) (hi : f.inited = true)
    (v : V) (vs : List V) (m : M) (ms : List (Option M)) (hl : vs.length = ms.length)
    (hd : f.dimension = some (env.dim v))
    (hv : ∀ w ∈ v :: vs, 0 < env.dim w ∧ env.dim w = env.dim v ∧ env.finite w = true)
    (f0 : Annoy L V M) (hf0 : f0 = Annoy.clear f ∨ f0 = Annoy.init (Annoy.close f)) :
    ∃ f', Annoy.insert env 2 (env.dim v) (v :: vs) (some (some m :: ms)) f0 =
        (.error .attribute, f') ∧ f'.vectors = [some v] ∧ f'.metadata = [some m] := by
  have h1 : f0.inited = true ∧ f0.dimension = some (env.dim v) ∧ f0.lib = none ∧
      f0.vectors = [] ∧ f0.metadata = [] := by
    rcases hf0 with rfl | rfl <;> simp [Annoy.clear, Annoy.init, Annoy.close, hi, hd]
  obtain ⟨a1, a2, a3, a4, a5⟩ := h1
  have hall : ((v :: vs).all fun w => decide (2 = 2) && Annoy.valid env (env.dim v) w) = true := by
    rw [List.all_eq_true]
    intro w hw
    obtain ⟨b1, b2, b3⟩ := hv w hw
    simp [Annoy.valid, b2 ▸ b1, b2, b3]
  refine ⟨{ f0 with nextId := f0.nextId + 1, vectors := [some v], metadata := [some m] }, ?_, rfl, rfl⟩
  simp only [Annoy.insert, Annoy.add, a2]
  rw [if_neg (by simp [a1]), if_neg (by simp [hl]), if_neg (by omega), if_neg (by simp [a2]),
    if_neg (by have := hall; simp only [decide_true] at this ⊢; rw [this]; simp)]
  simp only [List.zip_cons_cons, Annoy.addLoop, a3, a4, a5, List.nil_append]
  rw [a2]

example : (anAfter exAn .euclidean exAnHist).inited = true ∧
    (anAfter exAn .euclidean exAnHist).dimension = some (exAn.dim 5) ∧
    (Annoy.insert exAn 2 1 [5] (some [some 1])
      (Annoy.clear (anAfter exAn .euclidean exAnHist))).1 = .error .attribute := by decide +kernel

/-! ## C40 -/

section
variable [Field F] [LinearOrder F] [IsStrictOrderedRing F]

/-- **C40** A larger distance never gives a larger score; scores lie in [0, 1] and distance 0 gives 1,
for the metrics named. -/
theorem C40_annoy_scores (metric : AnMetric)
    (hm : metric = .angular ∨ metric = .euclidean ∨ metric = .manhattan ∨ metric = .hamming) :
    (∀ d e : F, 0 ≤ d → d ≤ e → toSim metric e ≤ toSim metric d) ∧
    (metric ≠ .hamming → ∀ d : F, 0 ≤ d → 0 ≤ toSim metric d ∧ toSim metric d ≤ 1) ∧
    toSim metric (0 : F) = 1 := by
  have euc : (∀ d e : F, 0 ≤ d → d ≤ e → 1 / (1 + e) ≤ 1 / (1 + d)) ∧
      (∀ d : F, 0 ≤ d → 0 ≤ 1 / (1 + d) ∧ 1 / (1 + d) ≤ 1) := by
    constructor
    · intro d e hd he
      exact one_div_le_one_div_of_le (by linarith) (by linarith)
    · intro d hd
      have : 0 < 1 + d := by linarith
      refine ⟨by positivity, ?_⟩
      rw [div_le_one this]; linarith
  rcases hm with rfl | rfl | rfl | rfl
  · refine ⟨?_, ?_, by simp [toSim]⟩
    · intro d e hd he
      simp only [toSim]
      exact max_le_max (le_refl _) (by linarith)
    · intro _ d hd
      simp only [toSim]
      exact ⟨le_max_left _ _, max_le (by linarith) (by linarith)⟩
  · exact ⟨euc.1, fun _ => euc.2, by simp [toSim]⟩
  · exact ⟨euc.1, fun _ => euc.2, by simp [toSim]⟩
  · refine ⟨?_, fun h => absurd rfl h, by simp [toSim]⟩
    intro d e hd he
    simp only [toSim]; linarith

/-- **C40** For dot products the score is the value cut to [0, 1], so a larger value never gives a smaller
score. -/
theorem C40_annoy_dot (d e : F) :
    (0 ≤ d → d ≤ 1 → toSim .dot d = d) ∧ (d ≤ 0 → toSim .dot d = 0) ∧ (1 ≤ d → toSim .dot d = 1) ∧
    (d ≤ e → toSim .dot d ≤ toSim .dot e) := by
  simp only [toSim]
  refine ⟨fun h0 h1 => by rw [min_eq_right h1, max_eq_right h0],
    fun h => by rw [min_eq_right (h.trans zero_le_one), max_eq_left h],
    fun h => by rw [min_eq_left h, max_eq_right zero_le_one],
    fun h => max_le_max le_rfl (min_le_min le_rfl h)⟩

end

example : toSim (F := ℚ) .angular 1 = 1 / 2 ∧ toSim (F := ℚ) .euclidean 3 = 1 / 4 ∧
    toSim (F := ℚ) .hamming 3 = -2 := by decide +kernel

/-! ## C86 -/

/-- **C86** Saving works exactly for an index that is built, and an index not built is refused with
`ValoriIndexError`.  What was not written cannot be loaded: that is refused with `ValoriIndexError` and
changes nothing. -/
theorem C86_annoy_save (f g : Annoy L V M) :
    ((∃ file, Annoy.save f = .ok file) ↔ f.built = true) ∧
    (f.built = false → Annoy.save f = .error .index) ∧
    Annoy.load none g = (.error .index, g) := by
  refine ⟨?_, fun h => by simp [Annoy.save, h], ?_⟩
  · simp only [Annoy.save]
    cases f.built
    · simp
    · cases f.lib <;> simp
  · simp only [Annoy.load]
    split <;> rfl

/-- **C86**, for the settings: load restores dimension and metric, and the index counts as built. -/
theorem C86_annoy_load_partial (f g : Annoy L V M) (hg : g.inited = true)
    {file : Option (L × Option Nat × AnMetric)} (hs : Annoy.save f = .ok file) (hl : f.lib ≠ none) :
    ∃ g', Annoy.load file g = (.ok (), g') ∧ g'.dimension = f.dimension ∧ g'.metric = f.metric ∧
      g'.lib = f.lib ∧ g'.built = true := by
  simp only [Annoy.save] at hs
  split at hs
  · simp at hs
  · cases hlib : f.lib with
    | none => exact absurd hlib hl
    | some l =>
      rw [hlib] at hs
      simp only [Except.ok.injEq] at hs
      subst hs
      simp only [Annoy.load]
      rw [if_neg (by simp [hg])]
      exact ⟨_, rfl, rfl, rfl, rfl, rfl⟩

/-- **C86** is false for every saved index: loaded into a new index, no search returns anything. -/
theorem C86_annoy_load_refuted [Field F] [LinearOrder F] (env : AnEnv L V F M)
    (file : Option (L × Option Nat × AnMetric)) (metric : AnMetric) {g : Annoy L V M}
    (hl : Annoy.load file (anFresh metric) = (.ok (), g)) (q : V) (k : Int)
    {hits : List (AnHit F M)} (hs : Annoy.search env q k g = .ok hits) : hits = [] := by
  have hv : g.vectors = [] := by
    unfold Annoy.load at hl
    rw [if_neg (by simp [anFresh, Annoy.init])] at hl
    cases file with
    | none => simp at hl
    | some x =>
      obtain ⟨l, d, m⟩ := x
      simp only [Prod.mk.injEq, true_and] at hl
      subst hl; rfl
  have hres : ∀ ns hits, Annoy.results g (F := F) ns = .ok hits → hits = [] := by
    intro ns
    induction ns with
    | nil => intro hits h; simpa [Annoy.results] using h.symm
    | cons p ns ih =>
      obtain ⟨n, d⟩ := p
      intro hits h
      simp only [Annoy.results, hv] at h
      exact ih hits (by simpa using h)
  simp only [Annoy.search] at hs
  split at hs
  · simp at hs
  split at hs
  · simp at hs
  split at hs
  · simpa using hs.symm
  split at hs
  · simp at hs
  split at hs
  · simp at hs
  split at hs
  · simp at hs
  · exact hres _ _ hs

/-- The saved index itself answers, the loaded one does not. -/
example :
    Annoy.search exAn 10 1 (anAfter exAn .euclidean (exAnHist.take 2)) = .ok [⟨0, 1, some 7⟩] ∧
    (match Annoy.save (anAfter exAn .euclidean (exAnHist.take 2)) with
      | .ok file => Annoy.search exAn 10 1 (Annoy.load file (anFresh .euclidean)).2
      | .error e => .error e) = .ok [] := by decide +kernel

end Valori.Props
