import Verif.Lemmas.Hnsw

/-!
# HNSW indices that differ in the order of their vectors only

`initialize` on an open index resets the levels but keeps the dictionary of vectors (hnsw.py:43-61), so
that nodes and vectors may be in different orders afterwards.  No method reads that order.
-/

namespace Valori

/-- Two dictionaries with the same entries. -/
structure DSame {κ α : Type} [DecidableEq κ] (d e : Dict κ α) : Prop where
  left : d.keys.Nodup
  right : e.keys.Nodup
  get : ∀ k, d.get? k = e.get? k

namespace DSame
variable {κ α : Type} [DecidableEq κ] {d e : Dict κ α}

theorem refl (h : d.keys.Nodup) : DSame d d := ⟨h, h, fun _ => rfl⟩

theorem mem (h : DSame d e) (k : κ) : d.mem k = e.mem k := by simp [Dict.mem, h.get]

theorem length (h : DSame d e) : d.length = e.length := by
  have hp : d.keys.Perm e.keys := by
    rw [List.perm_ext_iff_of_nodup h.left h.right]
    intro k
    rw [Dict.mem_keys, Dict.mem_keys, h.get]
  simpa [Dict.length_keys] using hp.length_eq

theorem isEmpty (h : DSame d e) : d.isEmpty = e.isEmpty := by
  have := h.length
  cases d <;> cases e <;> simp_all

theorem set (h : DSame d e) (k : κ) (a : α) : DSame (d.set k a) (e.set k a) :=
  ⟨Dict.nodup_set h.left k a, Dict.nodup_set h.right k a, fun k' => by
    rw [Dict.get?_set, Dict.get?_set, h.get]⟩

theorem pop (h : DSame d e) (k : κ) : DSame (d.pop k) (e.pop k) :=
  ⟨Dict.nodup_pop h.left k, Dict.nodup_pop h.right k, fun k' => by
    rw [Dict.get?_pop h.left, Dict.get?_pop h.right, h.get]⟩

/-- Writing again what is there. -/
theorem set_same (h : DSame d e) {k : κ} {a : α} (hk : e.get? k = some a) : DSame (d.set k a) e :=
  ⟨Dict.nodup_set h.left k a, h.right, fun k' => by
    rw [Dict.get?_set, h.get]
    split
    · rename_i hkk; rw [← hk]; congr 1; simp_all
    · rfl⟩

end DSame

namespace Hnsw
variable {σ V M D : Type} [LinearOrder D] {B : Backend σ V M}

/-- The index with other vectors. -/
def withV (g : Hnsw V) (d : Dict Id V) : Hnsw V := { g with vectors := d }

theorem insertInternal_alike (env : HnswEnv V D) (id : Id) (v : V) {g : Hnsw V} {d : Dict Id V}
    (h : DSame d g.vectors) : insertInternal env id v (withV g d) =
      withV (insertInternal env id v g) (d.set id v) := by
  simp [insertInternal, withV, (h.set id v).length]

theorem removeInternal_alike (id : Id) {g : Hnsw V} {d : Dict Id V} (h : DSame d g.vectors) :
    ∃ d', DSame d' (removeInternal id g).vectors ∧
      removeInternal id (withV g d) = withV (removeInternal id g) d' := by
  by_cases hm : g.vectors.mem id = true
  · refine ⟨d.pop id, ?_, ?_⟩
    · simpa [removeInternal, hm] using h.pop id
    · simp [removeInternal, withV, h.mem, hm, (h.pop id).length]
  · refine ⟨d, ?_, ?_⟩
    · simpa [removeInternal, hm] using h
    · simp [removeInternal, withV, h.mem, hm]

theorem insertLoop_alike (env : HnswEnv V D) (mds : Option (List (Option M))) (rows : List (Id × V)) :
    ∀ (i : Nat) (g : Hnsw V) (d : Dict Id V) (s : σ), DSame d g.vectors →
    ∃ d', DSame d' (insertLoop env B mds i rows g s).2.1.vectors ∧
      insertLoop env B mds i rows (withV g d) s =
        ((insertLoop env B mds i rows g s).1, withV (insertLoop env B mds i rows g s).2.1 d',
          (insertLoop env B mds i rows g s).2.2) := by
  induction rows with
  | nil => intro i g d s h; exact ⟨d, h, rfl⟩
  | cons r rows ih =>
    intro i g d s h
    obtain ⟨id, v⟩ := r
    simp only [insertLoop]
    rcases B.store s id v (rowMeta mds i) with ⟨e | _, s'⟩
    · exact ⟨d, h, rfl⟩
    · obtain ⟨d', h', e'⟩ := ih (i + 1) (insertInternal env id v g) (d.set id v) s'
        (by simpa [insertInternal] using h.set id v)
      simp only
      rw [insertInternal_alike env id v h, e']
      revert h'
      rcases insertLoop env B mds (i + 1) rows (insertInternal env id v g) s' with ⟨e | l, t⟩
      · intro h'; exact ⟨d', h', rfl⟩
      · intro h'; exact ⟨d', h', rfl⟩

theorem deleteLoop_alike (ids : List Id) : ∀ (b : Bool) (g : Hnsw V) (d : Dict Id V) (s : σ),
    DSame d g.vectors →
    ∃ d', DSame d' (deleteLoop B ids b g s).2.1.vectors ∧
      deleteLoop B ids b (withV g d) s =
        ((deleteLoop B ids b g s).1, withV (deleteLoop B ids b g s).2.1 d',
          (deleteLoop B ids b g s).2.2) := by
  induction ids with
  | nil => intro b g d s h; exact ⟨d, h, rfl⟩
  | cons id ids ih =>
    intro b g d s h
    simp only [deleteLoop]
    rcases B.delete s id with ⟨e | ok, s'⟩
    · exact ⟨d, h, rfl⟩
    · obtain ⟨d1, h1, e1⟩ := removeInternal_alike id h
      simp only
      rw [e1]
      exact ih _ _ _ _ h1

omit [LinearOrder D] in
theorem scanNbrs_alike (dist : V → Except Err D) {d e : Dict Id V} (h : DSame d e) (l : List Id) :
    scanNbrs dist d l = scanNbrs dist e l := by
  induction l with
  | nil => rfl
  | cons n l ih => simp only [scanNbrs, h.get, ih]

omit [LinearOrder D] in
theorem expand_alike (dist : V → Except Err D) {d e : Dict Id V} (h : DSame d e) (lvl : Level)
    (l : List (Id × D)) : expand dist d lvl l = expand dist e lvl l := by
  induction l with
  | nil => rfl
  | cons n l ih => obtain ⟨n, x⟩ := n; simp only [expand, scanNbrs_alike dist h, ih]

theorem descend_alike (env : HnswEnv V D) (q : V) {g : Hnsw V} {d : Dict Id V}
    (h : DSame d g.vectors) : ∀ (n : Nat) (l : List (Id × D)),
    descend env q (withV g d) n l = descend env q g n l := by
  intro n
  induction n with
  | zero => intro l; rfl
  | succ n ih => intro l; simp only [descend, withV, expand_alike _ h]; simp only [← ih]; rfl

theorem candidates_alike (env : HnswEnv V D) (q : V) {g : Hnsw V} {d : Dict Id V}
    (h : DSame d g.vectors) : candidates env q (withV g d) = candidates env q g := by
  have e1 : ∀ top, entry env q (withV g d) top = entry env q g top := by
    intro top
    cases top with
    | nil => rfl
    | cons a b => simp only [entry, withV, h.get]
  simp only [candidates, e1, descend_alike env q h]
  simp only [withV, expand_alike _ h]

theorem search_alike (env : HnswEnv V D) (nd : Nat) (q : V) (k : Int) {g : Hnsw V} {d : Dict Id V}
    (h : DSame d g.vectors) (s : σ) :
    (search env B nd q k g s).2.1 = g ∧
    search env B nd q k (withV g d) s = ((search env B nd q k g s).1, withV g d,
      (search env B nd q k g s).2.2) := by
  simp only [search, candidates_alike env q h]
  simp only [withV, h.isEmpty, h.length]
  split
  · exact ⟨rfl, rfl⟩
  split
  · exact ⟨rfl, rfl⟩
  split
  · exact ⟨rfl, rfl⟩
  split
  · exact ⟨rfl, rfl⟩
  · split <;> exact ⟨rfl, rfl⟩

theorem update_alike (id : Id) (v : V) (m : Option M) {g : Hnsw V} {d : Dict Id V}
    (h : DSame d g.vectors) (s : σ) :
    ∃ d', DSame d' (update B id v m g s).2.1.vectors ∧
      update B id v m (withV g d) s =
        ((update B id v m g s).1, withV (update B id v m g s).2.1 d', (update B id v m g s).2.2) := by
  by_cases hi : g.inited = true
  · obtain ⟨lv, vs, ml, ct, it, dr⟩ := g
    simp only at hi h
    subst hi
    simp only [update, withV]
    rcases B.update s id v m with ⟨e | b, s'⟩
    · exact ⟨d, h, rfl⟩
    · cases b
      · exact ⟨d, h, rfl⟩
      · by_cases hm : vs.mem id = true
        · exact ⟨d.set id v, by simpa [hm] using h.set id v, by simp [h.mem, hm]⟩
        · exact ⟨d, by simpa [hm] using h, by simp [h.mem, hm]⟩
  · exact ⟨d, by simpa [update, hi] using h, by simp [update, withV, hi]⟩

theorem insert_alike (env : HnswEnv V D) (nd : Nat) (rows : List (Id × V))
    (mds : Option (List (Option M))) {g : Hnsw V} {d : Dict Id V} (h : DSame d g.vectors) (s : σ) :
    ∃ d', DSame d' (insert env B nd rows mds g s).2.1.vectors ∧
      insert env B nd rows mds (withV g d) s =
        ((insert env B nd rows mds g s).1, withV (insert env B nd rows mds g s).2.1 d',
          (insert env B nd rows mds g s).2.2) := by
  by_cases hi : g.inited = true
  · by_cases hnd : nd = 2
    · obtain ⟨d', h', e'⟩ := insertLoop_alike (B := B) env mds rows 0 g d s h
      have hi' : (withV g d).inited = true := hi
      simp only [insert, hi, hi', hnd, e']
      revert h'
      rcases insertLoop env B mds 0 rows g s with ⟨e | l, t⟩
      · intro h'; exact ⟨d', h', rfl⟩
      · intro h'; exact ⟨d', h', rfl⟩
    · exact ⟨d, by simpa [insert, hi, hnd] using h, by simp [insert, withV, hi, hnd]⟩
  · exact ⟨d, by simpa [insert, hi] using h, by simp [insert, withV, hi]⟩

theorem delete_alike (ids : List Id) {g : Hnsw V} {d : Dict Id V} (h : DSame d g.vectors) (s : σ) :
    ∃ d', DSame d' (delete B ids g s).2.1.vectors ∧
      delete B ids (withV g d) s =
        ((delete B ids g s).1, withV (delete B ids g s).2.1 d', (delete B ids g s).2.2) := by
  by_cases hi : g.inited = true
  · obtain ⟨d', h', e'⟩ := deleteLoop_alike (B := B) ids true g d s h
    have hi' : (withV g d).inited = true := hi
    simp only [delete, hi, hi', e']
    revert h'
    rcases deleteLoop B ids true g s with ⟨e | l, t⟩
    · intro h'; exact ⟨d', h', rfl⟩
    · intro h'; exact ⟨d', h', rfl⟩
  · exact ⟨d, by simpa [delete, hi] using h, by simp [delete, withV, hi]⟩

end Hnsw
end Valori
