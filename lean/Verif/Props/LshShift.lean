import Verif.Props.Lsh

/-!
# Property C84 for every history: what an insert with a `None` entry does to later metadata
-/

namespace Valori.Props
open Valori Valori.Spec Valori.Lsh

variable {V S M : Type} [LinearOrder S]

omit [LinearOrder S] in
theorem hashOne_no_attribute (env : LshEnv V S M) (d t : Nat) (v : V) :
    hashOne env d t v ≠ .error .attribute := by
  simp only [hashOne]
  split_ifs <;> simp

omit [LinearOrder S] in
theorem hashVector_no_attribute (env : LshEnv V S M) (f : Lsh V M) (v : V) :
    hashVector env f v ≠ .error .attribute := by
  have key : ∀ d ts, hashTables env d v ts ≠ .error .attribute := by
    intro d ts
    induction ts with
    | nil => simp [hashTables]
    | cons t ts ih =>
      have := hashOne_no_attribute env d t v
      simp only [hashTables]
      split
      · next e he => intro h; cases h; exact this he
      · split
        · next e he => intro h; cases h; exact ih he
        · simp
  unfold hashVector
  split
  · simp
  · exact key _ _

omit [LinearOrder S] in
/-- The lists after a row loop that did not raise. -/
theorem addLoop_all (env : LshEnv V S M) (rows : List (V × Option M)) : ∀ (f : Lsh V M) {ids : List Nat}
    {f' : Lsh V M}, addLoop env rows f = (.ok ids, f') →
    ids = (List.range rows.length).map (f.nextId + ·) ∧
      f'.vectors = f.vectors ++ rows.map (fun r => some r.1) ∧
      f'.metadata = f.metadata ++ rows.map Prod.snd := by
  induction rows with
  | nil => intro f ids f' h; simp only [addLoop, Prod.mk.injEq, Except.ok.injEq] at h; simp [← h.1, ← h.2]
  | cons r rows ih =>
    obtain ⟨v, m⟩ := r
    intro f ids f' h
    simp only [addLoop] at h
    split at h
    · simp at h
    · split at h
      · simp at h
      · split at h
        · simp at h
        · next hl =>
          simp only [Prod.mk.injEq, Except.ok.injEq] at h
          obtain ⟨rfl, rfl⟩ := h
          obtain ⟨h1, h2, h3⟩ := ih _ hl
          simp only at h1 h2 h3
          refine ⟨?_, by rw [h2]; simp, by rw [h3]; simp⟩
          rw [h1, List.length_cons, List.range_succ_eq_map, List.map_cons, List.map_map]
          simp [Function.comp_def, Nat.add_comm, Nat.add_left_comm]

omit [LinearOrder S] in
/-- After an `AttributeError` there is one more vector than metadata. -/
theorem addLoop_attribute (env : LshEnv V S M) (rows : List (V × Option M)) : ∀ (f f' : Lsh V M),
    addLoop env rows f = (.error .attribute, f') →
    ∃ done : Nat, f'.vectors.length = f.vectors.length + done + 1 ∧
      f'.metadata.length = f.metadata.length + done ∧ f'.nextId = f.nextId + done + 1 := by
  induction rows with
  | nil => intro f f' h; simp [addLoop] at h
  | cons r rows ih =>
    obtain ⟨v, m⟩ := r
    intro f f' h
    simp only [addLoop] at h
    split at h
    · simp only [Prod.mk.injEq, true_and] at h
      exact ⟨0, by simp [← h]⟩
    · split at h
      · next he =>
        simp only [Prod.mk.injEq, Except.error.injEq] at h
        rw [h.1] at he
        exact absurd he (hashVector_no_attribute env _ v)
      · split at h
        · next hl =>
          simp only [Prod.mk.injEq, Except.error.injEq] at h
          obtain ⟨rfl, rfl⟩ := h
          obtain ⟨d, h1, h2, h3⟩ := ih _ _ hl
          simp only [List.length_append, List.length_singleton] at h1 h2 h3
          exact ⟨d + 1, by omega, by omega, by omega⟩
        · simp at h

theorem score_md (env : LshEnv V S M) (f : Lsh V M) (q : V) (thr : S) (l : List Int) :
    ∀ hits, score env f q thr l = .ok hits → ∀ x ∈ hits, pyGet f.metadata x.id = some x.md := by
  induction l with
  | nil => intro hits h; simp [score] at h; simp [h]
  | cons i l ih =>
    intro hits h
    simp only [score] at h
    split at h
    · exact ih hits h
    · split at h
      · cases h
      · exact ih hits h
      · split at h
        · cases h
        · split at h
          · split at h
            · cases h
            · next md hmd =>
              split at h
              · cases h
              · next l' hl' =>
                cases h
                intro x hx
                rcases List.mem_cons.1 hx with rfl | hx
                · exact hmd
                · exact ih l' hl' x hx
          · exact ih hits h

theorem search_md (env : LshEnv V S M) (f : Lsh V M) (q : V) (k : Int) (thr : Option S)
    {hits : List (NHit S M)} (h : Lsh.search env q k thr f = .ok hits) :
    ∀ x ∈ hits, pyGet f.metadata x.id = some x.md := by
  intro x hx
  simp only [Lsh.search] at h
  split at h
  · cases h
  · split at h
    · cases h; simp at hx
    · split at h
      · cases h
      · split at h
        · cases h
        · split at h
          · cases h
          · next l hl =>
            cases h
            refine score_md env f q _ _ l hl x ((sortDesc_perm l).mem_iff.1 ?_)
            exact (sliceTo_sublist _ k).subset hx

omit [LinearOrder S] in
theorem insert_attribute (env : LshEnv V S M) (nd cols : Nat) (rows : List V)
    (mds : Option (List (Option M))) (f : Lsh V M) {f1 : Lsh V M}
    (h : Lsh.insert env nd cols rows mds f = (.error .attribute, f1)) :
    ∃ (g : Lsh V M) (l : List (V × Option M)), g.vectors = f.vectors ∧ g.metadata = f.metadata ∧
      g.nextId = f.nextId ∧ addLoop env l g = (.error .attribute, f1) := by
  simp only [Lsh.insert] at h
  split at h
  · simp at h
  · next e f' ha =>
    simp only [Prod.mk.injEq, Except.error.injEq] at h
    obtain ⟨rfl, rfl⟩ := h
    simp only [Lsh.add] at ha
    split_ifs at ha <;> try (simp at ha; done)
    refine ⟨_, _, ?_, ?_, ?_, ha⟩ <;> cases f.dimension <;> rfl

omit [LinearOrder S] in
theorem insert_all (env : LshEnv V S M) (nd cols : Nat) (rows : List V) (mds : List (Option M))
    (f : Lsh V M) {ids : List String} {f' : Lsh V M}
    (h : Lsh.insert env nd cols rows (some mds) f = (.ok ids, f')) :
    rows.length = mds.length ∧ ids = (List.range rows.length).map (fun i => toString (f.nextId + i)) ∧
      f'.vectors = f.vectors ++ rows.map some ∧ f'.metadata = f.metadata ++ mds := by
  simp only [Lsh.insert] at h
  split at h
  · next l f'' ha =>
    simp only [Prod.mk.injEq, Except.ok.injEq] at h
    obtain ⟨rfl, rfl⟩ := h
    simp only [Lsh.add] at ha
    split_ifs at ha <;> try (simp at ha; done)
    have hlen : rows.length = mds.length := by omega
    obtain ⟨h1, h2, h3⟩ := addLoop_all env _ _ ha
    have k1 : (rows.zip mds).map (fun r => some r.1) = rows.map some := by
      rw [show (fun r : V × Option M => some r.1) = some ∘ Prod.fst from rfl, ← List.map_map,
        List.map_fst_zip (by omega)]
    have k2 : (rows.zip mds).map Prod.snd = mds := List.map_snd_zip (by omega)
    have k3 : (rows.zip mds).length = rows.length := by simp [hlen]
    rw [k1] at h2; rw [k2] at h3; rw [k3] at h1
    refine ⟨hlen, ?_, ?_, ?_⟩
    · rw [h1, List.map_map]; cases f.dimension <;> rfl
    · rw [h2]; cases f.dimension <;> rfl
    · rw [h3]; cases f.dimension <;> rfl
  · simp at h

/-- **C84, refuted** for every history: an insert that raises `AttributeError`, as one with a `None` entry
does, shifts the metadata of the next insert.  Its ids are handed out in order, but a search that finds the
`i`-th new vector reports the metadata given for the one after it, and there is no search that finds the
last one: it would have to raise. -/
theorem C84_shift_refuted {env : LshEnv V S M} (hc : env.hashSize ≤ env.numProj)
    {h : List (SCall V M S)} (ho : LshOk env h) (nd cols : Nat) (rows : List V)
    (mds : Option (List (Option M))) {f1 : Lsh V M}
    (hins : Lsh.insert env nd cols rows mds (lshAfter env h) = (.error .attribute, f1))
    (nd' cols' : Nat) (rows' : List V) (mds' : List (Option M)) {ids : List String} {f2 : Lsh V M}
    (hins' : Lsh.insert env nd' cols' rows' (some mds') f1 = (.ok ids, f2)) :
    ids = (List.range rows'.length).map (fun i => toString (f1.vectors.length + i)) ∧
    (∀ i v, rows'[i]? = some v → f2.vectors[f1.vectors.length + i]? = some (some v)) ∧
    ∀ q k thr hits, Lsh.search env q k thr f2 = .ok hits → ∀ x ∈ hits, ∀ i : Nat, i < rows'.length →
      x.id = ((f1.vectors.length + i : Nat) : Int) → mds'[i + 1]? = some x.md := by
  have hinv := lsh_inv hc ho
  obtain ⟨g, l, hgv, hgm, hgn, hl⟩ := insert_attribute env nd cols rows mds _ hins
  have hlen : (lshAfter env h).vectors.length = (lshAfter env h).metadata.length := by
    rw [hinv.vec, hinv.md]; simp
  have hnx : (lshAfter env h).nextId = (lshAfter env h).vectors.length := by
    rw [hinv.next, hinv.vec]; simp
  obtain ⟨d, e1, e2, e3⟩ := addLoop_attribute env l g f1 hl
  rw [hgv] at e1
  rw [hgm] at e2
  rw [hgn] at e3
  obtain ⟨i1, i2, i3, i4⟩ := insert_all env nd' cols' rows' mds' f1 hins'
  refine ⟨?_, ?_, ?_⟩
  · rw [i2]
    refine List.map_congr_left fun i _ => ?_
    rw [show f1.nextId = f1.vectors.length by omega]
  · intro i v hv
    rw [i3, List.getElem?_append_right (by omega), Nat.add_sub_cancel_left, List.getElem?_map, hv]; rfl
  · intro q k thr hits hs x hx i hi hid
    have := search_md env f2 q k thr hs x hx
    rw [hid, pyGet_nat, i4, List.getElem?_append_right (by omega)] at this
    rw [← this]
    congr 1; omega

/-- The second of three rows has no metadata; of the next two rows the first is reported with the metadata
of the second, and a search that would find the second raises. -/
example :
    let f := lshAfter (exLshEnv 1 2) [.insert 2 2 [[9, 9]] (some [some 1])]
    let r := Lsh.insert (exLshEnv 1 2) 2 2 [[3, 3], [4, 4], [5, 5]] (some [some 2, none, some 3]) f
    let r' := Lsh.insert (exLshEnv 1 2) 2 2 [[2, 2], [1, 1]] (some [some 7, some 8]) r.2
    r.1 = .error .attribute ∧ r'.1 = .ok ["3", "4"] ∧
    Lsh.search (exLshEnv 1 2) [1, 1] 5 (some 4) r'.2 =
      .ok [⟨0, 18, some 1⟩, ⟨1, 6, some 2⟩, ⟨3, 4, some 8⟩] ∧
    Lsh.search (exLshEnv 1 2) [1, 1] 5 (some 2) r'.2 = .error .indexRange := by decide

end Valori.Props
