import Verif.Props.Lsh
import Verif.Props.Annoy

/-!
# Constructors, replies and failures of the LSH (C140) and Annoy (C141) indices
-/

namespace Valori.Props
open Spec (NHit SCall Slots AnCall AnHit)

/-! ### C140 -/

section
variable {V S M : Type} [LinearOrder S]

omit [LinearOrder S] in
/-- **C140.**  The LSH constructor accepts exactly positive sizes, raises `ValoriIndexError`
otherwise, and makes an index that is not initialised. -/
theorem C140_lsh_new (t h p : Int) :
    ((∃ f : Lsh V M, Lsh.new t h p = .ok f) ↔ 1 ≤ t ∧ 1 ≤ h ∧ 1 ≤ p) ∧
    (∀ e, (Lsh.new t h p : Except Err (Lsh V M)) = .error e → e = .index) ∧
    ∀ (f : Lsh V M), Lsh.new t h p = .ok f → f.inited = false ∧ Lsh.statCount f = 0 ∧
      f.dimension = none := by
  unfold Lsh.new
  refine ⟨?_, ?_, ?_⟩
  · split_ifs <;> simp <;> omega
  · intro e he
    split_ifs at he <;> simpa [eq_comm] using he
  · intro f hf
    split_ifs at hf
    obtain rfl := Except.ok.inj hf
    exact ⟨rfl, rfl, rfl⟩

/-- **C140.**  An index that is not initialised refuses every call and stays as it is. -/
theorem C140_lsh_uninitialised (env : LshEnv V S M) (f : Lsh V M) (hf : f.inited = false)
    (nd cols : Nat) (rows : List V) (mds : Option (List (Option M))) (q : V) (k : Int)
    (thr : Option S) (ids : List String) (id : String) (v : V) (m : Option M) :
    Lsh.insert env nd cols rows mds f = (.error .index, f) ∧
    Lsh.search env q k thr f = .error .index ∧ Lsh.delete env ids f = (false, f) ∧
    Lsh.update env id v m f = (.error .index, f) := by
  refine ⟨?_, ?_, ?_, ?_⟩
  · simp [Lsh.insert, Lsh.add, hf]
  · simp [Lsh.search, hf]
  · simp [Lsh.delete, Lsh.remove, hf]
  · simp [Lsh.update, hf]

omit [LinearOrder S] in
/-- **C140.**  Which exception an initialised index raises for a batch it does not take:
`ValoriIndexError` for a wrong number of metadata entries or a dimension other than the fixed one,
`IndexError` for a one-dimensional array, `ValidationError` for a vector that is empty or not
finite. -/
theorem C140_lsh_insert_errors (env : LshEnv V S M) (f : Lsh V M) (hf : f.inited = true)
    (nd cols : Nat) (rows : List V) (mds : Option (List (Option M))) :
    (Slots.aligned rows mds = false → Lsh.insert env nd cols rows mds f = (.error .index, f)) ∧
    (Slots.aligned rows mds = true → nd < 2 →
      Lsh.insert env nd cols rows mds f = (.error .indexRange, f)) ∧
    (Slots.aligned rows mds = true → 2 ≤ nd → ∀ d, f.dimension = some d → d ≠ cols →
      Lsh.insert env nd cols rows mds f = (.error .index, f)) ∧
    (Slots.aligned rows mds = true → 2 ≤ nd → (∀ d, f.dimension = some d → d = cols) →
      (∃ v ∈ rows, nd ≠ 2 ∨ storable env cols v = false) →
      (Lsh.insert env nd cols rows mds f).1 = .error .validation) := by
  have hml := Lsh.mdList_length env rows mds
  have hins : Lsh.insert env nd cols rows mds f =
      match Lsh.add env nd cols rows (Lsh.mdList env rows mds) f with
      | (.ok ids, f') => (.ok (ids.map toString), f')
      | (.error e, f') => (.error e, f') := by
    cases mds <;> rfl
  refine ⟨?_, ?_, ?_, ?_⟩
  · intro ha
    have : rows.length ≠ (Lsh.mdList env rows mds).length := by
      intro h; rw [hml.2 h] at ha; simp at ha
    rw [hins, Lsh.add, if_neg (by simp [hf]), if_pos this]
  · intro ha hn
    rw [hins, Lsh.add, if_neg (by simp [hf]), if_neg (by simpa using hml.1 ha), if_pos hn]
  · intro ha hn d hd hne
    rw [hins, Lsh.add, if_neg (by simp [hf]), if_neg (by simpa using hml.1 ha), if_neg (by omega)]
    simp only [hd]
    rw [if_pos (by simp [hne])]
  · intro ha hn hd hv
    obtain ⟨v, hv, hbad⟩ := hv
    have hall : (rows.all fun v => decide (nd = 2) && Lsh.valid env cols v) = false := by
      rw [List.all_eq_false]
      refine ⟨v, hv, ?_⟩
      rcases hbad with h | h
      · simp [h]
      · have : Lsh.valid env cols v = false := h
        simp [this]
    rw [hins, Lsh.add, if_neg (by simp [hf]), if_neg (by simpa using hml.1 ha), if_neg (by omega)]
    rcases hdim : f.dimension with _ | d
    · simp [hall]
    · obtain rfl := hd d hdim
      simp [hall, hdim]

/-- **C140.**  After any history: a delete returns `True`; an update returns `True` exactly when the
id names a live vector; a search before the first batch returns nothing; afterwards a query that
could not be stored raises `ValidationError`. -/
theorem C140_lsh_replies {env : LshEnv V S M} (hc : env.hashSize ≤ env.numProj)
    {h : List (SCall V M S)} (ho : LshOk env h) :
    (∀ ids, (∀ s ∈ ids, ∀ i, env.parse s = some i → 0 ≤ i) →
      (Lsh.delete env ids (lshAfter env h)).1 = true) ∧
    (∀ id v m, (∀ i, env.parse id = some i → 0 ≤ i) →
      (∀ d, (slotsAfter env h).dim = some d → env.dim v = d) →
      ∃ b, (Lsh.update env id v m (lshAfter env h)).1 = .ok b ∧ (b = true ↔
        ∃ n : Nat, env.parse id = some (n : Int) ∧ ((slotsAfter env h).at? n).isSome = true)) ∧
    (∀ q k thr, (slotsAfter env h).dim = none →
      Lsh.search env q k thr (lshAfter env h) = .ok []) ∧
    (∀ q k thr d, (slotsAfter env h).dim = some d → storable env d q = false →
      Lsh.search env q k thr (lshAfter env h) = .error .validation) := by
  have hI := lsh_inv hc ho
  refine ⟨fun ids hp => (hI.delete hc ids hp).1, ?_, ?_, ?_⟩
  · intro id v m hp hd
    obtain ⟨-, h1, h2⟩ := hI.update hc id v m hp hd
    by_cases hex : ∃ n : Nat, env.parse id = some (n : Int) ∧
        ((slotsAfter env h).at? n).isSome = true
    · exact ⟨true, h1 hex, by simpa using hex⟩
    · refine ⟨false, ?_, by simpa using hex⟩
      rw [h2 (by
        intro n hn
        by_contra hne
        exact hex ⟨n, hn, by simpa [Option.isSome_iff_ne_none] using hne⟩)]
  · intro q k thr hd
    simp [Lsh.search, hI.inited, hI.dim, hd]
  · intro q k thr d hd hs
    have hv : Lsh.valid env d q = false := hs
    simp [Lsh.search, hI.inited, hI.dim, hd, hv]

example : (Lsh.delete (exLshEnv 1 2) ["0", "x", "1"] (lshAfter (exLshEnv 1 2) exLshHist)).1 = true ∧
    Lsh.search (exLshEnv 1 2) [1] 3 none (lshAfter (exLshEnv 1 2) exLshHist) = .error .validation ∧
    (Lsh.insert (exLshEnv 1 2) 2 3 [[1, 2, 3]] none (lshAfter (exLshEnv 1 2) exLshHist)).1
      = .error .index := by decide

end

/-! ### C141 -/

section
variable {L V F M : Type}

/-- **C141.**  The Annoy constructor accepts exactly a positive number of trees and a known metric,
raises `ValoriIndexError` otherwise, and makes an index that is not initialised and has no data. -/
theorem C141_annoy_new (t : Int) (metric : AnMetric) :
    ((∃ f : Annoy L V M, Annoy.new t metric = .ok f) ↔ 1 ≤ t ∧ metric ≠ .other) ∧
    (∀ e, (Annoy.new t metric : Except Err (Annoy L V M)) = .error e → e = .index) ∧
    ∀ f : Annoy L V M, Annoy.new t metric = .ok f →
      f.init = anFresh metric ∧ f.inited = false ∧ f.built = false ∧ Annoy.statCount f = 0 := by
  unfold Annoy.new
  refine ⟨?_, ?_, ?_⟩
  · split_ifs with h1 h2
    · simp; omega
    · simp [h2]
    · simp; exact ⟨by omega, h2⟩
  · intro e he
    split_ifs at he <;> simpa [eq_comm] using he
  · intro f hf
    split_ifs at hf
    obtain rfl := Except.ok.inj hf
    exact ⟨rfl, rfl, rfl, rfl⟩

/-- **C141.**  An index that is not initialised refuses every call and stays as it is. -/
theorem C141_annoy_uninitialised [Field F] [LinearOrder F] (env : AnEnv L V F M) (f : Annoy L V M)
    (hf : f.inited = false) (nd cols : Nat) (rows : List V) (mds : Option (List (Option M))) (q : V)
    (k : Int) (ids : List String) (id : String) (v : V) (m : Option M) :
    Annoy.insert env nd cols rows mds f = (.error .index, f) ∧
    Annoy.search env q k f = .error .index ∧ Annoy.delete env ids f = (.error .index, f) ∧
    Annoy.update env id v m f = (.error .index, f) ∧ Annoy.build env f = (.error .index, f) := by
  refine ⟨?_, ?_, ?_, ?_, ?_⟩
  · simp [Annoy.insert, Annoy.add, hf]
  · simp [Annoy.search, hf]
  · unfold Annoy.delete
    cases Annoy.parseAll env.parse ids <;> simp [Annoy.remove, hf]
  · unfold Annoy.update
    cases env.parse id with
    | none => rfl
    | some i =>
      simp only
      split_ifs
      · rfl
      · cases Annoy.updMd i m f <;> simp [Annoy.remove, hf]
  · simp [Annoy.build, hf]

/-- **C141.**  Which exception a batch that is not taken raises. -/
theorem C141_annoy_insert_errors (env : AnEnv L V F M) (f : Annoy L V M) (hf : f.inited = true)
    (nd cols : Nat) (rows : List V) (mds : Option (List (Option M))) :
    (Slots.aligned rows mds = false → Annoy.insert env nd cols rows mds f = (.error .index, f)) ∧
    (Slots.aligned rows mds = true → nd < 2 →
      Annoy.insert env nd cols rows mds f = (.error .indexRange, f)) ∧
    (Slots.aligned rows mds = true → 2 ≤ nd → ∀ d, f.dimension = some d → d ≠ cols →
      Annoy.insert env nd cols rows mds f = (.error .index, f)) ∧
    (Slots.aligned rows mds = true → 2 ≤ nd → (∀ d, f.dimension = some d → d = cols) →
      (∃ v ∈ rows, nd ≠ 2 ∨ env.dim v ≠ cols ∨ env.dim v = 0 ∨ env.finite v = false) →
      (Annoy.insert env nd cols rows mds f).1 = .error .validation) := by
  have hml : (Slots.aligned rows mds = true) ↔
      rows.length = (Annoy.mdList env rows mds).length := by
    cases mds <;> simp [Annoy.mdList, Slots.aligned]
  have hins : Annoy.insert env nd cols rows mds f =
      match Annoy.add env nd cols rows (Annoy.mdList env rows mds) f with
      | (.ok ids, f') => (.ok (ids.map toString), f')
      | (.error e, f') => (.error e, f') := by
    cases mds <;> rfl
  refine ⟨?_, ?_, ?_, ?_⟩
  · intro ha
    have : rows.length ≠ (Annoy.mdList env rows mds).length := by
      intro h; rw [hml.2 h] at ha; simp at ha
    rw [hins, Annoy.add, if_neg (by simp [hf]), if_pos this]
  · intro ha hn
    rw [hins, Annoy.add, if_neg (by simp [hf]), if_neg (by simpa using hml.1 ha), if_pos hn]
  · intro ha hn d hd hne
    rw [hins, Annoy.add, if_neg (by simp [hf]), if_neg (by simpa using hml.1 ha), if_neg (by omega)]
    simp only [hd]
    rw [if_pos (by simp [hne])]
  · intro ha hn hd hv
    obtain ⟨v, hv, hbad⟩ := hv
    have hall : (rows.all fun v => decide (nd = 2) && Annoy.valid env cols v) = false := by
      rw [List.all_eq_false]
      refine ⟨v, hv, ?_⟩
      rcases hbad with h | h | h | h
      · simp [h]
      · simp [Annoy.valid, h]
      · simp [Annoy.valid, h]
      · simp [Annoy.valid, h]
    rw [hins, Annoy.add, if_neg (by simp [hf]), if_neg (by simpa using hml.1 ha), if_neg (by omega)]
    rcases hdim : f.dimension with _ | d
    · simp [hall]
    · obtain rfl := hd d hdim
      simp [hall, hdim]

/-- **C141.**  Replies of searches of an initialised index: before `build` it raises
`ValoriIndexError`; once built, nothing is found while no dimension is fixed, then a query that
could not be stored raises `ValidationError`, and without a library object (after `clear` and
`build`) every other query raises `AttributeError`. -/
theorem C141_annoy_search_errors [Field F] [LinearOrder F] (env : AnEnv L V F M) (f : Annoy L V M)
    (hf : f.inited = true) (q : V) (k : Int) :
    (f.built = false → Annoy.search env q k f = .error .index) ∧
    (f.built = true → f.dimension = none → Annoy.search env q k f = .ok []) ∧
    (∀ d, f.built = true → f.dimension = some d →
      (env.dim q ≠ d ∨ env.dim q = 0 ∨ env.finite q = false) →
      Annoy.search env q k f = .error .validation) ∧
    (∀ d, f.built = true → f.dimension = some d → f.lib = none → env.dim q = d → env.dim q ≠ 0 →
      env.finite q = true → Annoy.search env q k f = .error .attribute) := by
  refine ⟨?_, ?_, ?_, ?_⟩
  · intro hb; simp [Annoy.search, hf, hb]
  · intro hb hd; simp [Annoy.search, hf, hb, hd]
  · intro d hb hd hq
    have : Annoy.valid env d q = false := by
      rcases hq with h | h | h <;> simp [Annoy.valid, h]
    simp [Annoy.search, hf, hb, hd, this]
  · intro d hb hd hl h1 h2 h3
    have : Annoy.valid env d q = true := by
      simp [Annoy.valid, ← h1, h3]; omega
    simp [Annoy.search, hf, hb, hd, this, hl]

/-- **C141.**  A new index can be built and then searched, without data. -/
theorem C141_annoy_empty [Field F] [LinearOrder F] (env : AnEnv L V F M) (metric : AnMetric) (q : V)
    (k : Int) : ∃ f', Annoy.build env (anFresh metric) = (.ok (), f') ∧
      Annoy.search env q k f' = .ok [] :=
  ⟨_, rfl, rfl⟩

/-- **C141.**  In a history of inserts, builds, searches and deletes, a delete of well-formed,
non-negative ids returns `True`; one with a malformed id raises `ValoriIndexError` and does
nothing. -/
theorem C141_annoy_delete (env : AnEnv L V F M) (metric : AnMetric) (h : List (AnCall V M))
    (hp : ∀ c ∈ h, c.Plain env.parse) (ids : List String) :
    ((∀ s ∈ ids, ∃ n : Nat, env.parse s = some (n : Int)) →
      (Annoy.delete env ids (anAfter env metric h)).1 = .ok true) ∧
    ((∃ s ∈ ids, env.parse s = none) →
      Annoy.delete env ids (anAfter env metric h) = (.error .index, anAfter env metric h)) := by
  obtain ⟨hA, hi⟩ := anAfter_aligned metric hp
  obtain ⟨p1, p2⟩ := Annoy.parseAll_eq (parse := env.parse) ids
  constructor
  · intro hs
    rcases hpa : Annoy.parseAll env.parse ids with _ | is
    · obtain ⟨s, h1, h2⟩ := p1.1 hpa
      obtain ⟨n, hn⟩ := hs s h1
      rw [h2] at hn; simp at hn
    · obtain ⟨vs, ms, e, -⟩ := Annoy.removeLoop_spec is hA (by
        intro i hi'
        obtain ⟨s, h1, h2⟩ := (p2 is hpa i).1 hi'
        obtain ⟨n, hn⟩ := hs s h1
        rw [h2] at hn
        have := Option.some.inj hn
        omega)
      simp [Annoy.delete, hpa, Annoy.remove, hi, e]
  · intro hs
    simp [Annoy.delete, p1.2 hs]

example : (Annoy.delete exAn ["0", "1"] (anAfter exAn .euclidean exAnHist)).1 = .ok true ∧
    (Annoy.delete exAn ["0", "x"] (anAfter exAn .euclidean exAnHist)).1 = .error .index := by
  decide +kernel

end
end Valori.Props
