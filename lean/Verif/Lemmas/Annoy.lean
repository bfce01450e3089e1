import Verif.Model.Annoy
import Verif.Lemmas.Lsh

/-! Invariant of the Annoy index. -/

namespace Valori
open Spec (AnCall AnHit)

namespace Annoy
variable {L V F M : Type}

/-- Lists and counter agree. -/
structure Aligned (f : Annoy L V M) : Prop where
  md : f.metadata.length = f.vectors.length
  next : f.nextId = f.vectors.length

/-- What the row loop does, whatever the library answers. -/
theorem addLoop_spec (env : AnEnv L V F M) (rows : List (V × Option M)) : ∀ (f : Annoy L V M),
    (∀ r ∈ rows, r.2 ≠ none) →
    ∃ j ≤ rows.length, ∃ r l', addLoop env rows f = (r, { f with
        vectors := f.vectors ++ (rows.take j).map fun p => some p.1
        metadata := f.metadata ++ (rows.take j).map fun p => p.2
        nextId := f.nextId + j, lib := l' }) ∧
      ∀ ids, r = .ok ids → j = rows.length ∧
        ids = (List.range rows.length).map fun i : Nat => f.nextId + i := by
  induction rows with
  | nil =>
    intro f _
    refine ⟨0, by simp, .ok [], f.lib, by simp [addLoop], ?_⟩
    intro ids h; cases h; simp
  | cons r rows ih =>
    obtain ⟨v, m⟩ := r
    intro f hr
    have hm := hr (v, m) (by simp)
    cases m with
    | none => simp at hm
    | some md =>
      cases hl : f.lib with
      | none =>
        refine ⟨1, by simp, .error .attribute, none, ?_, by simp⟩
        simp [addLoop, hl]
      | some l =>
        cases ha : env.addItem l f.nextId v with
        | error e =>
          refine ⟨1, by simp, .error e, some l, ?_, by simp⟩
          simp [addLoop, hl, ha]
        | ok l' =>
          obtain ⟨j, hj, r, l2, e, hok⟩ := ih { f with
            nextId := f.nextId + 1, vectors := f.vectors ++ [some v],
            metadata := f.metadata ++ [some md], lib := some l' } (fun r hr' => hr r (by simp [hr']))
          simp only at e
          cases r with
          | error er =>
            refine ⟨j + 1, by simp; omega, .error er, l2, ?_, by simp⟩
            simp only [addLoop, hl, ha]
            rw [e]
            simp [List.take_succ_cons]
            omega
          | ok ids' =>
            obtain ⟨h1, h2⟩ := hok ids' rfl
            refine ⟨j + 1, by simp; omega, .ok (f.nextId :: ids'), l2, ?_, ?_⟩
            · simp only [addLoop, hl, ha]
              rw [e]
              simp [List.take_succ_cons]
              omega
            · intro ids hids
              simp only [Except.ok.injEq] at hids
              subst hids
              refine ⟨by simp [h1], ?_⟩
              rw [h2, List.length_cons, List.range_succ_eq_map, List.map_cons, List.map_map]
              simp only [Nat.cast_zero, Int.add_zero, List.cons.injEq, true_and]
              apply List.map_congr_left
              intro i _
              simp only [Function.comp_apply]
              omega

theorem take_zip {α β : Type} (a : List α) (b : List β) (j : Nat) :
    (a.zip b).take j = (a.take j).zip (b.take j) := by
  simp [List.zip, List.take_zipWith]

/-- The metadata list that `insert` passes on. -/
def mdList (env : AnEnv L V F M) (rows : List V) (mds : Option (List (Option M))) :
    List (Option M) :=
  match mds with
  | none => rows.map fun _ => some env.emptyMd
  | some l => l

theorem mdList_some (env : AnEnv L V F M) (rows : List V) {mds : Option (List (Option M))}
    (hm : ∀ l, mds = some l → none ∉ l) : ∀ o ∈ mdList env rows mds, o ≠ none := by
  intro o ho
  cases mds with
  | none => simp only [mdList, List.mem_map] at ho; obtain ⟨_, _, rfl⟩ := ho; simp
  | some l => rintro rfl; exact hm l rfl ho

/-- An insert appends a prefix of the batch; all of it when it succeeds. -/
theorem insert_spec (env : AnEnv L V F M) (nd cols : Nat) (rows : List V)
    (mds : Option (List (Option M))) (hm : ∀ l, mds = some l → none ∉ l) (f : Annoy L V M) :
    ∃ j, ∃ r f', insert env nd cols rows mds f = (r, f') ∧ j ≤ rows.length ∧
      f'.vectors = f.vectors ++ (rows.take j).map some ∧
      f'.metadata = f.metadata ++ (mdList env rows mds).take j ∧
      f'.vectors.length = f.vectors.length + j ∧ f'.metadata.length = f.metadata.length + j ∧
      f'.nextId = f.nextId + j ∧
      ∀ ids, r = .ok ids → j = rows.length ∧
        ids = (List.range rows.length).map fun i : Nat => toString (f.nextId + i) := by
  have hins : insert env nd cols rows mds f =
      (match add env nd cols rows (mdList env rows mds) f with
      | (.ok ids, f') => (.ok (ids.map toString), f')
      | (.error e, f') => (.error e, f')) := by
    cases mds <;> rfl
  have fail : ∀ (e : Err) (g : Annoy L V M), g.vectors = f.vectors → g.metadata = f.metadata →
      g.nextId = f.nextId → add env nd cols rows (mdList env rows mds) f = (.error e, g) →
      ∃ j, ∃ r f', insert env nd cols rows mds f = (r, f') ∧ j ≤ rows.length ∧
      f'.vectors = f.vectors ++ (rows.take j).map some ∧
      f'.metadata = f.metadata ++ (mdList env rows mds).take j ∧
      f'.vectors.length = f.vectors.length + j ∧ f'.metadata.length = f.metadata.length + j ∧
      f'.nextId = f.nextId + j ∧
      ∀ ids, r = .ok ids → j = rows.length ∧
        ids = (List.range rows.length).map fun i : Nat => toString (f.nextId + i) := by
    intro e g h1 h2 h3 h4
    refine ⟨0, .error e, g, ?_, by simp, by simp [h1], by simp [h2], by simp [h1], by simp [h2],
      by simp [h3], by simp⟩
    rw [hins, h4]
  by_cases hi : f.inited = true
  swap
  · exact fail .index f rfl rfl rfl (by simp [add, hi])
  by_cases hlen : rows.length = (mdList env rows mds).length
  swap
  · exact fail .index f rfl rfl rfl (by simp [add, hi, hlen])
  by_cases hnd : nd < 2
  · exact fail .indexRange f rfl rfl rfl (by simp [add, hi, hlen, hnd])
  have hadd : ∃ g : Annoy L V M, g.vectors = f.vectors ∧ g.metadata = f.metadata ∧
      g.nextId = f.nextId ∧ add env nd cols rows (mdList env rows mds) f =
        if g.dimension ≠ some cols then (.error .index, g)
        else if !(rows.all fun v => decide (nd = 2) && valid env cols v) then (.error .validation, g)
        else addLoop env (rows.zip (mdList env rows mds)) g := by
    cases hd : f.dimension with
    | none =>
      refine ⟨{ f with dimension := some cols, lib := some (env.create cols f.metric) },
        rfl, rfl, rfl, ?_⟩
      simp only [add, hd]
      rw [if_neg (by simp [hi]), if_neg (by simp [hlen]), if_neg hnd]
    | some d =>
      refine ⟨f, rfl, rfl, rfl, ?_⟩
      simp only [add, hd]
      rw [if_neg (by simp [hi]), if_neg (by simp [hlen]), if_neg hnd]
  obtain ⟨g, g1, g2, g3, e⟩ := hadd
  by_cases c1 : g.dimension ≠ some cols
  · rw [if_pos c1] at e; exact fail _ g g1 g2 g3 e
  rw [if_neg c1] at e
  by_cases c2 : (!(rows.all fun v => decide (nd = 2) && valid env cols v)) = true
  · rw [if_pos c2] at e; exact fail _ g g1 g2 g3 e
  rw [if_neg c2] at e
  obtain ⟨j, hj, r, l', e2, hok⟩ := addLoop_spec env (rows.zip (mdList env rows mds)) g (by
    intro r hr
    obtain ⟨r1, r2⟩ := r
    exact mdList_some env rows hm _ (List.of_mem_zip hr).2)
  have hzl : (rows.zip (mdList env rows mds)).length = rows.length := by
    rw [List.length_zip, ← hlen]; simp
  rw [hzl] at hj hok
  rw [e2] at e
  have t1 : ((rows.zip (mdList env rows mds)).take j).map (fun p => some p.1) =
      (rows.take j).map some := by
    rw [take_zip, show (fun p : V × Option M => some p.1) = some ∘ Prod.fst from rfl,
      ← List.map_map, List.map_fst_zip (by simp; omega)]
  have t2 : ((rows.zip (mdList env rows mds)).take j).map (fun p => p.2) =
      (mdList env rows mds).take j := by
    rw [take_zip]
    exact List.map_snd_zip (by simp; omega)
  rw [t1, t2, g1, g2, g3] at e
  have hlenv : (f.vectors ++ (rows.take j).map some).length = f.vectors.length + j := by
    simp; omega
  have hlenm : (f.metadata ++ (mdList env rows mds).take j).length = f.metadata.length + j := by
    simp; omega
  cases r with
  | error er =>
    exact ⟨j, .error er, _, by rw [hins, e], hj, rfl, rfl, hlenv, hlenm, rfl, by simp⟩
  | ok ids' =>
    obtain ⟨h1, h2⟩ := hok ids' rfl
    refine ⟨j, .ok (ids'.map toString), _, by rw [hins, e], hj, rfl, rfl, hlenv, hlenm, rfl, ?_⟩
    intro ids hids
    simp only [Except.ok.injEq] at hids
    subst hids
    refine ⟨h1, ?_⟩
    rw [h2, List.map_map, g3]
    rfl

/-- Removing non-negative ids from aligned lists. -/
theorem removeLoop_spec (is : List Int) : ∀ {f : Annoy L V M}, Aligned f → (∀ i ∈ is, 0 ≤ i) →
    ∃ vs ms, removeLoop is f = (.ok (), { f with vectors := vs, metadata := ms }) ∧
      vs.length = f.vectors.length ∧ ms.length = f.metadata.length ∧
      (∀ n : Nat, n < f.metadata.length →
        ms[n]? = if (n : Int) ∈ is then some none else f.metadata[n]?) ∧
      (∀ n : Nat, n < f.vectors.length →
        vs[n]? = if (n : Int) ∈ is then some none else f.vectors[n]?) := by
  induction is with
  | nil => intro f _ _; exact ⟨f.vectors, f.metadata, rfl, rfl, rfl, by simp, by simp⟩
  | cons i is ih =>
    intro f hA hp
    have hi := hp i (by simp)
    obtain ⟨k, rfl⟩ : ∃ k : Nat, i = k := ⟨i.toNat, by omega⟩
    have hp' : ∀ i ∈ is, 0 ≤ i := fun i hi => hp i (by simp [hi])
    by_cases hk : k < f.vectors.length
    · have hk' : k < f.metadata.length := by rw [hA.md]; exact hk
      obtain ⟨vs, ms, e, h1, h2, h3, h4⟩ := ih (f := { f with
          vectors := f.vectors.set k none, metadata := f.metadata.set k none })
        ⟨by simp [hA.md], by simp [hA.next]⟩ hp'
      refine ⟨vs, ms, ?_, by simpa using h1, by simpa using h2, ?_, ?_⟩
      · simp only [removeLoop]
        rw [if_pos (by omega), Lsh.pyGet_nat, List.getElem?_eq_getElem hk]
        simp only
        rw [Lsh.pyGet_nat, List.getElem?_eq_getElem hk']
        simp only [Lsh.pySet_nat]
        exact e
      · intro n hn
        rw [h3 n (by simpa using hn)]
        simp only [List.mem_cons, List.getElem?_set, Int.natCast_inj]
        by_cases e1 : (n : Int) ∈ is
        · simp [e1]
        · by_cases e2 : n = k
          · subst e2; simp [e1, hn]
          · simp [e1, e2, Ne.symm e2]
      · intro n hn
        rw [h4 n (by simpa using hn)]
        simp only [List.mem_cons, List.getElem?_set, Int.natCast_inj]
        by_cases e1 : (n : Int) ∈ is
        · simp [e1]
        · by_cases e2 : n = k
          · subst e2; simp [e1, hn]
          · simp [e1, e2, Ne.symm e2]
    · obtain ⟨vs, ms, e, h1, h2, h3, h4⟩ := ih hA hp'
      refine ⟨vs, ms, ?_, h1, h2, ?_, ?_⟩
      · simp only [removeLoop]
        rw [if_neg (by omega)]
        exact e
      · intro n hn
        rw [h3 n hn]
        have : n ≠ k := by rw [hA.md] at hn; omega
        simp [this]
      · intro n hn
        rw [h4 n hn]
        have : n ≠ k := by omega
        simp [this]

theorem parseAll_eq {parse : String → Option Int} (ids : List String) :
    (parseAll parse ids = none ↔ ∃ s ∈ ids, parse s = none) ∧
    ∀ is, parseAll parse ids = some is → ∀ i, i ∈ is ↔ ∃ s ∈ ids, parse s = some i := by
  induction ids with
  | nil => simp [parseAll]
  | cons s ids ih =>
    simp only [parseAll]
    cases h1 : parse s with
    | none => simp [h1]
    | some j =>
      cases h2 : parseAll parse ids with
      | none =>
        have := ih.1.1 h2
        simp only [reduceCtorEq, false_implies, implies_true, and_true, true_iff]
        obtain ⟨s', h3, h4⟩ := this
        exact ⟨s', by simp [h3], h4⟩
      | some js =>
        have i1 : ¬ ∃ s ∈ ids, parse s = none := fun h => by
          have := ih.1.2 h; rw [h2] at this; simp at this
        have i2 := ih.2 js h2
        constructor
        · simp only [reduceCtorEq, false_iff]
          rintro ⟨s', h3, h4⟩
          simp only [List.mem_cons] at h3
          rcases h3 with rfl | h3
          · rw [h1] at h4; simp at h4
          · exact i1 ⟨s', h3, h4⟩
        · intro is his i
          cases his
          simp only [List.mem_cons, i2]
          constructor
          · rintro (rfl | ⟨s', h3, h4⟩)
            · exact ⟨s, Or.inl rfl, h1⟩
            · exact ⟨s', Or.inr h3, h4⟩
          · rintro ⟨s', rfl | h3, h4⟩
            · rw [h1] at h4; left; simpa using h4.symm
            · exact Or.inr ⟨s', h3, h4⟩

theorem addLoop_inited (env : AnEnv L V F M) (rows : List (V × Option M)) : ∀ (f : Annoy L V M),
    (addLoop env rows f).2.inited = f.inited := by
  induction rows with
  | nil => intro f; rfl
  | cons r rows ih =>
    obtain ⟨v, m⟩ := r
    intro f
    simp only [addLoop]
    cases m with
    | none => rfl
    | some md =>
      simp only
      cases hl : f.lib with
      | none => rfl
      | some l =>
        simp only
        cases ha : env.addItem l f.nextId v with
        | error e => rfl
        | ok l' =>
          simp only
          have := ih { f with
            nextId := f.nextId + 1, vectors := f.vectors ++ [some v],
            metadata := f.metadata ++ [some md], lib := some l' }
          split <;> rename_i e <;> rw [e] at this <;> exact this

theorem insert_inited (env : AnEnv L V F M) (nd cols : Nat) (rows : List V)
    (mds : Option (List (Option M))) (f : Annoy L V M) :
    (insert env nd cols rows mds f).2.inited = f.inited := by
  have key : ∀ l, (add env nd cols rows l f).2.inited = f.inited := by
    intro l
    simp only [add]
    split
    · rfl
    split
    · rfl
    split
    · rfl
    cases f.dimension <;> simp only <;> (repeat' split) <;> first | rfl | exact addLoop_inited ..
  simp only [insert]
  split <;> rename_i e <;> 
    exact (congrArg (fun x => x.2.inited) e).symm.trans (key _)

/-- One plain call keeps the lists aligned, and the metadata of an id until it is deleted. -/
theorem Aligned.call {env : AnEnv L V F M} {f : Annoy L V M} (hA : Aligned f) (hi : f.inited = true)
    (c : AnCall V M) (hp : c.Plain env.parse) : Aligned (call env f c) ∧
    (call env f c).inited = true ∧ f.vectors.length ≤ (call env f c).vectors.length ∧
    (∀ n o, f.metadata[n]? = some o → c.deletes env.parse n →
      (call env f c).metadata[n]? = some none) ∧
    (∀ n o, f.metadata[n]? = some o → ¬ c.deletes env.parse n →
      (call env f c).metadata[n]? = some o) := by
  cases c with
  | insert nd cols rows mds =>
    obtain ⟨j, r, f', e, h1, h2, h3, h4, h5, h6, -⟩ := insert_spec env nd cols rows mds hp f
    have hin : f'.inited = true := by
      have : (insert env nd cols rows mds f).2.inited = f.inited := insert_inited ..
      rw [e] at this; rw [this]; exact hi
    simp only [Annoy.call, e]
    refine ⟨⟨by rw [h5, h4, hA.md], by rw [h6, h4, hA.next]; simp⟩, hin, by omega, ?_, ?_⟩
    · intro n o _ h; exact absurd h id
    · intro n o hn _
      have := (List.getElem?_eq_some_iff.1 hn).1
      rw [h3, List.getElem?_append_left this]; exact hn
  | delete ids =>
    simp only [Annoy.call, Annoy.delete]
    have hpa := parseAll_eq (parse := env.parse) ids
    cases hpr : parseAll env.parse ids with
    | none =>
      refine ⟨hA, hi, Nat.le_refl _, ?_, fun n o h _ => h⟩
      intro n o _ hd
      obtain ⟨s, h1, h2⟩ := hpa.1.1 hpr
      exact absurd h2 (hd.1 s h1)
    | some is =>
      have hmem := hpa.2 is hpr
      obtain ⟨vs, ms, e, h1, h2, h3, -⟩ := removeLoop_spec is hA (by
        intro i hi
        obtain ⟨s, h1, h2⟩ := (hmem i).1 hi
        exact hp s h1 i h2)
      have hr : remove is f = (.ok (), { f with vectors := vs, metadata := ms }) := by
        simp only [Annoy.remove]; rw [if_neg (by simp [hi])]; exact e
      simp only [hr]
      refine ⟨⟨by rw [h2, h1, hA.md], by rw [h1]; exact hA.next⟩, hi, by simp [h1], ?_, ?_⟩
      · intro n o hn hd
        have := (List.getElem?_eq_some_iff.1 hn).1
        show ms[n]? = _
        rw [h3 n this, if_pos ((hmem _).2 hd.2)]
      · intro n o hn hd
        have := (List.getElem?_eq_some_iff.1 hn).1
        show ms[n]? = _
        rw [h3 n this, if_neg, hn]
        intro hin
        refine hd ⟨?_, (hmem _).1 hin⟩
        intro s hs hne
        have := hpa.1.2 ⟨s, hs, hne⟩
        rw [hpr] at this; simp at this
  | update i v m => exact absurd hp id
  | build =>
    have hb : (build env f).2.vectors = f.vectors ∧ (build env f).2.metadata = f.metadata ∧
        (build env f).2.nextId = f.nextId ∧ (build env f).2.inited = f.inited := by
      simp only [Annoy.build]
      split
      · exact ⟨rfl, rfl, rfl, rfl⟩
      split
      · exact ⟨rfl, rfl, rfl, rfl⟩
      split
      · exact ⟨rfl, rfl, rfl, rfl⟩
      split <;> exact ⟨rfl, rfl, rfl, rfl⟩
    obtain ⟨h1, h2, h3, h4⟩ := hb
    simp only [Annoy.call]
    refine ⟨⟨by rw [h1, h2]; exact hA.md, by rw [h1, h3]; exact hA.next⟩, by rw [h4, hi],
      by rw [h1], ?_, ?_⟩
    · intro n o _ h; exact absurd h id
    · intro n o h _; rw [h2]; exact h
  | search q k =>
    exact ⟨hA, hi, Nat.le_refl _, fun n o _ h => absurd h id, fun n o h _ => h⟩
  | clear => exact absurd hp id

/-- A plain history. -/
theorem Aligned.run {env : AnEnv L V F M} (h : List (AnCall V M)) : ∀ {f : Annoy L V M},
    Aligned f → f.inited = true → (∀ c ∈ h, c.Plain env.parse) →
    Aligned (run env f h) ∧ (run env f h).inited = true ∧
    (∀ n o, f.metadata[n]? = some o → (∃ c ∈ h, c.deletes env.parse n) →
      (run env f h).metadata[n]? = some none) ∧
    (∀ n o, f.metadata[n]? = some o → (¬ ∃ c ∈ h, c.deletes env.parse n) →
      (run env f h).metadata[n]? = some o) := by
  induction h with
  | nil =>
    intro f hA hi _
    exact ⟨hA, hi, fun n o _ h => by simp at h, fun n o h _ => h⟩
  | cons c cs ih =>
    intro f hA hi hp
    obtain ⟨a1, a2, -, a3, a4⟩ := hA.call hi c (hp c (by simp))
    obtain ⟨b1, b2, b3, b4⟩ := ih a1 a2 (fun c hc => hp c (by simp [hc]))
    refine ⟨b1, b2, ?_, ?_⟩
    · rintro n o hn ⟨c', hc', hd⟩
      by_cases hd0 : c.deletes env.parse n
      · have h1 := a3 n o hn hd0
        by_cases hd1 : ∃ c ∈ cs, c.deletes env.parse n
        · exact b3 n none h1 hd1
        · exact b4 n none h1 hd1
      · simp only [List.mem_cons] at hc'
        rcases hc' with rfl | hc'
        · exact absurd hd hd0
        · exact b3 n o (a4 n o hn hd0) ⟨c', hc', hd⟩
    · intro n o hn hno
      exact b4 n o (a4 n o hn fun h => hno ⟨c, by simp, h⟩)
        (fun ⟨c', h1, h2⟩ => hno ⟨c', by simp [h1], h2⟩)

/-- Search results read the metadata list. -/
theorem results_md [Field F] [LinearOrder F] {f : Annoy L V M} (ns : List (Nat × F)) :
    ∀ {hits : List (AnHit F M)}, results f ns = .ok hits →
    ∀ h ∈ hits, f.metadata[h.id]? = some h.md ∧ h.id < f.vectors.length ∧
      ∃ d, (h.id, d) ∈ ns ∧ h.score = toSim f.metric d := by
  induction ns with
  | nil => intro hits e; simp only [results, Except.ok.injEq] at e; subst e; simp
  | cons p ns ih =>
    obtain ⟨n, d⟩ := p
    intro hits e
    simp only [results] at e
    split at e
    · rename_i hn
      cases hm : f.metadata[n]? with
      | none => rw [hm] at e; simp at e
      | some md =>
        rw [hm] at e
        cases hr : results f ns with
        | error er => rw [hr] at e; simp at e
        | ok l =>
          rw [hr] at e
          simp only [Except.ok.injEq] at e
          subst e
          intro h hh
          simp only [List.mem_cons] at hh
          rcases hh with rfl | hh
          · exact ⟨hm, hn, d, by simp, rfl⟩
          · obtain ⟨h1, h2, d', h3, h4⟩ := ih hr h hh
            exact ⟨h1, h2, d', by simp [h3], h4⟩
    · intro h hh
      obtain ⟨h1, h2, d', h3, h4⟩ := ih e h hh
      exact ⟨h1, h2, d', by simp [h3], h4⟩

theorem search_md [Field F] [LinearOrder F] {env : AnEnv L V F M} {f : Annoy L V M} {q : V} {k : Int}
    {hits : List (AnHit F M)} (e : search env q k f = .ok hits) :
    ∀ h ∈ hits, f.metadata[h.id]? = some h.md := by
  simp only [search] at e
  split at e
  · simp at e
  split at e
  · simp at e
  split at e
  · simp only [Except.ok.injEq] at e; subst e; simp
  split at e
  · simp at e
  split at e
  · simp at e
  split at e
  · simp at e
  · intro h hh; exact (results_md _ e h hh).1

end Annoy
end Valori
