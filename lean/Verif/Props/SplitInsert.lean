import Verif.Lemmas.SplitInsert
import Verif.Props.Ivf
import Verif.Props.Hnsw
import Verif.Props.Lsh
import Verif.Props.Annoy

/-!
# C203: does the batch size of `batch_insert` matter?

`E` is a batch manager with an arbitrary batch size, callbacks and search whose client hands an insert to
the index (client.py:66-73).  A row of a storage-backed index is a vector with the id drawn for it; the
random draws of the HNSW index and the trees of the Annoy library are arbitrary.
-/

namespace Valori.Props
open Valori Valori.Spec

variable {σ V M D I Q R S L F : Type}

/-- Flat index over any storage: if inserting all rows at once succeeds, inserting them in batches of any
size returns the same ids, leaves the same index and the same storage, and counts every row once. -/
theorem C203_flat (B : Backend σ V M) (E : BatchEnv (Flat V × σ) (Id × V) (Option M) Id Q R)
    (hE : ∀ t v m, E.insert t v m = Flat.insert B 2 v (some m) t.1 t.2) (hb : 0 < E.batchSize)
    (hP : ∀ a b, E.progress a b = .ok ()) (v : List (Id × V)) (hv : v ≠ []) (m : List (Option M))
    (t t' : Flat V × σ) (l : List Id) (h : Flat.insert B 2 v (some m) t.1 t.2 = (.ok l, t'))
    (st : BStats) :
    batchInsert E v m t st = (.ok l, t', ⟨v.length, st.processed + v.length, st.failed⟩) := by
  refine batchInsert_same E hb hP (fun _ _ => True) ?_ ?_ v hv m t t' l trivial
    ((hE t v m).trans h) st
  · intro s a b m l s' _ _ _ h
    rw [hE] at h
    obtain ⟨l1, t1, l2, h1, h2, e⟩ := Flat.insert_cut a b m s.1 s'.1 s.2 s'.2 l h
    exact ⟨l1, t1, l2, (hE _ _ _).trans h1, (hE _ _ _).trans h2, e, trivial⟩
  · intro s v m l s' n hn _ h
    rw [hE] at h ⊢
    rw [Flat.insert_pad v m n hn]
    exact h

/-- HNSW index over any storage, whatever is drawn. -/
theorem C203_hnsw (env : HnswEnv V D) (B : Backend σ V M)
    (E : BatchEnv (Hnsw V × σ) (Id × V) (Option M) Id Q R)
    (hE : ∀ t v m, E.insert t v m = Hnsw.insert env B 2 v (some m) t.1 t.2) (hb : 0 < E.batchSize)
    (hP : ∀ a b, E.progress a b = .ok ()) (v : List (Id × V)) (hv : v ≠ []) (m : List (Option M))
    (t t' : Hnsw V × σ) (l : List Id) (h : Hnsw.insert env B 2 v (some m) t.1 t.2 = (.ok l, t'))
    (st : BStats) :
    batchInsert E v m t st = (.ok l, t', ⟨v.length, st.processed + v.length, st.failed⟩) := by
  refine batchInsert_same E hb hP (fun _ _ => True) ?_ ?_ v hv m t t' l trivial
    ((hE t v m).trans h) st
  · intro s a b m l s' _ _ _ h
    rw [hE] at h
    obtain ⟨l1, t1, l2, h1, h2, e⟩ := Hnsw.insert_cut a b m s.1 s'.1 s.2 s'.2 l h
    exact ⟨l1, t1, l2, (hE _ _ _).trans h1, (hE _ _ _).trans h2, e, trivial⟩
  · intro s v m l s' n hn _ h
    rw [hE] at h ⊢
    rw [Hnsw.insert_pad v m n hn]
    exact h

/-- LSH index: the same consecutive ids, the same tables. -/
theorem C203_lsh (env : LshEnv V S M) (cols : Nat) (E : BatchEnv (Lsh V M) V (Option M) String Q R)
    (hE : ∀ f v m, E.insert f v m = Lsh.insert env 2 cols v (some m) f) (hb : 0 < E.batchSize)
    (hP : ∀ a b, E.progress a b = .ok ()) (v : List V) (hv : v ≠ []) (m : List (Option M))
    (f f' : Lsh V M) (l : List String) (h : Lsh.insert env 2 cols v (some m) f = (.ok l, f'))
    (st : BStats) :
    batchInsert E v m f st = (.ok l, f', ⟨v.length, st.processed + v.length, st.failed⟩) := by
  refine batchInsert_same E hb hP (fun _ _ => True) ?_ ?_ v hv m f f' l trivial
    ((hE f v m).trans h) st
  · intro s a b m l s' _ _ _ h
    rw [hE] at h
    obtain ⟨l1, t1, l2, h1, h2, e⟩ := Lsh.insert_cut cols a b m s s' l h
    exact ⟨l1, t1, l2, (hE _ _ _).trans h1, (hE _ _ _).trans h2, e, trivial⟩
  · intro s v m l s' n hn _ h
    rw [hE] at h ⊢
    exact Lsh.insert_pad cols v m n hn s s' l h

/-- Annoy index: the same consecutive ids, the library object fed with the same items in the same
order. -/
theorem C203_annoy (env : AnEnv L V F M) (cols : Nat)
    (E : BatchEnv (Annoy L V M) V (Option M) String Q R)
    (hE : ∀ f v m, E.insert f v m = Annoy.insert env 2 cols v (some m) f) (hb : 0 < E.batchSize)
    (hP : ∀ a b, E.progress a b = .ok ()) (v : List V) (hv : v ≠ []) (m : List (Option M))
    (f f' : Annoy L V M) (l : List String) (h : Annoy.insert env 2 cols v (some m) f = (.ok l, f'))
    (st : BStats) :
    batchInsert E v m f st = (.ok l, f', ⟨v.length, st.processed + v.length, st.failed⟩) := by
  refine batchInsert_same E hb hP (fun _ _ => True) ?_ ?_ v hv m f f' l trivial
    ((hE f v m).trans h) st
  · intro s a b m l s' _ _ _ h
    rw [hE] at h
    obtain ⟨l1, t1, l2, h1, h2, e⟩ := Annoy.insert_cut cols a b m s s' l h
    exact ⟨l1, t1, l2, (hE _ _ _).trans h1, (hE _ _ _).trans h2, e, trivial⟩
  · intro s v m l s' n hn _ h
    rw [hE] at h ⊢
    exact Annoy.insert_pad cols v m n hn s s' l h

/-- **C203** (partial: only if the insert does not train the index) IVF index over any storage: the same
if it is trained already, or has too few vectors to be trained even with all rows. -/
theorem C203_ivf_partial [LinearOrder D] (env : IvfEnv V D) (B : Backend σ V M)
    (E : BatchEnv (Ivf V × σ) (Id × V) (Option M) Id Q R)
    (hE : ∀ t v m, E.insert t v m = Ivf.insert env B 2 v (some m) t.1 t.2) (hb : 0 < E.batchSize)
    (hP : ∀ a b, E.progress a b = .ok ()) (v : List (Id × V)) (hv : v ≠ []) (m : List (Option M))
    (t t' : Ivf V × σ) (l : List Id)
    (hnd : (v.map Prod.fst).Nodup)
    (hn : t.1.trained = true ∨ ((t.1.ids.length + v.length : Nat) : Int) < env.nClusters)
    (h : Ivf.insert env B 2 v (some m) t.1 t.2 = (.ok l, t')) (st : BStats) :
    batchInsert E v m t st = (.ok l, t', ⟨v.length, st.processed + v.length, st.failed⟩) := by
  refine batchInsert_same E hb hP (fun s v => (v.map Prod.fst).Nodup ∧ Ivf.NoTraining env s.1 v)
    ?_ ?_ v hv m t t' l ⟨hnd, hn⟩ ((hE t v m).trans h) st
  · intro s a b m l s' _ _ hp h
    rw [hE] at h
    obtain ⟨l1, t1, l2, h1, h2, e, hn'⟩ := Ivf.insert_cut a b m s.1 s'.1 s.2 s'.2 l hp.1 hp.2 h
    refine ⟨l1, t1, l2, (hE _ _ _).trans h1, (hE _ _ _).trans h2, e, ?_, hn'⟩
    have := hp.1
    rw [List.map_append, List.nodup_append] at this
    exact this.2.1
  · intro s v m l s' n hn _ h
    rw [hE] at h ⊢
    rw [Ivf.insert_pad v m n hn]
    exact h

/-! ## Concrete data -/

/-- A batch manager around an insert, without callbacks. -/
def plainManager {τ W N J : Type} (b : Nat) (ins : τ → List W → List N → Res τ (List J)) :
    BatchEnv τ W N J Unit Unit where
  batchSize := b
  insert := ins
  search s _ := (.ok [], s)
  progress _ _ := .ok ()
  onError _ := .ok ()

/-- Three rows with two metadata entries in batches of two: the flat index in memory. -/
example : let B := memBackend Nat Nat
    let v := [("a", 10), ("b", 20), ("c", 30)]
    let m := [none, some 7]
    let t := flatOn B exMem
    let r := batchInsert (plainManager 2 fun t v m => Flat.insert B 2 v (some m) t.1 t.2) v m t resetStats
    (Flat.insert B 2 v (some m) t.1 t.2).1 = .ok ["a", "b", "c"] ∧
    r.1 = .ok ["a", "b", "c"] ∧ r.2.2 = ⟨3, 3, 0⟩ ∧
    r.2.1 = (Flat.insert B 2 v (some m) t.1 t.2).2 := by decide

example : let B := memBackend Nat Nat
    let v := [("a", 10), ("b", 20), ("c", 30)]
    let t := (hnswOn (exHnsw [0, 2, 1] 1) B exMem)
    (Hnsw.insert (exHnsw [0, 2, 1] 1) B 2 v (some [some 3]) t.1 t.2).1 = .ok ["a", "b", "c"] := by decide

example : (Lsh.insert (exLshEnv 1 2) 2 2 [[5, 5], [1, -1], [2, 0]] (some [some 7, some 8, some 9])
    (lshAfter (exLshEnv 1 2) exLshHist)).1 = .ok ["4", "5", "6"] := by decide +kernel

example : (Annoy.insert exAn 2 1 [10, 20, 30] (some [some 7, some 8, some 9])
    (anFresh .euclidean)).1 = .ok ["0", "1", "2"] := by decide +kernel

/-- k-means with two clusters on numbers: the smallest and the largest number are the centres. -/
def exIvfEnds : IvfEnv Nat Nat where
  nClusters := 2
  nProbes := 1
  dist a b := .ok ((a - b) + (b - a))
  kmeans vs :=
    let lo := vs.foldl min 1000
    let hi := vs.foldl max 0
    .ok ([lo, hi], vs.map fun v => if v - lo ≤ hi - v then 0 else 1)

/-- A trained index, and one with too few vectors. -/
example : let B := memBackend Nat Nat
    let t := (Ivf.insert exIvfEnds B 2 [("x", 0), ("y", 90)] (some []) (ivfOn exIvfEnds B exMem).1
      (ivfOn exIvfEnds B exMem).2).2
    t.1.trained = true ∧
    (Ivf.insert exIvfEnds B 2 [("a", 10), ("b", 20), ("c", 80)] (some [none, some 7]) t.1 t.2).1 =
      .ok ["a", "b", "c"] := by decide

/-- For the insert that trains the index the batch size matters: with batches of two the clusters are
those of the first two vectors.  Both calls report success, the same ids and the same counts; but the
two nearest vectors of 1 are 1 and 0 after one insert, and 1 and 100 after two batches. -/
theorem C203_ivf_refuted :
    let B := memBackend Nat Nat
    let v := [("a", 0), ("b", 1), ("c", 100)]
    let t := ivfOn exIvfEnds B exMem
    let one := Ivf.insert exIvfEnds B 2 v (some []) t.1 t.2
    let two := batchInsert (plainManager 2 fun t v m => Ivf.insert exIvfEnds B 2 v (some m) t.1 t.2) v []
      t resetStats
    one.1 = .ok ["a", "b", "c"] ∧ two.1 = .ok ["a", "b", "c"] ∧ two.2.2 = ⟨3, 3, 0⟩ ∧
    (Ivf.search exIvfEnds B 1 1 2 one.2.1 one.2.2).1 = .ok [⟨"b", 0, none⟩, ⟨"a", 1, none⟩] ∧
    (Ivf.search exIvfEnds B 1 1 2 two.2.1.1 two.2.1.2).1 = .ok [⟨"b", 0, none⟩, ⟨"c", 99, none⟩] := by
  decide

/-- The converse fails for the LSH index: with more metadata than vectors one insert is refused, while
a batch size equal to the number of vectors lets it pass and the rest of the metadata is dropped. -/
theorem C203_surplus_refuted (env : LshEnv V S M) (cols : Nat)
    (E : BatchEnv (Lsh V M) V (Option M) String Q R)
    (hE : ∀ f v m, E.insert f v m = Lsh.insert env 2 cols v (some m) f)
    (hP : ∀ a b, E.progress a b = .ok ()) (v : List V) (hv : v ≠ []) (hb : E.batchSize = v.length)
    (m extra : List (Option M)) (hx : extra ≠ []) (f f' : Lsh V M) (l : List String)
    (h : Lsh.insert env 2 cols v (some m) f = (.ok l, f')) (st : BStats) :
    (∃ e, (Lsh.insert env 2 cols v (some (m ++ extra)) f).1 = .error e) ∧
    batchInsert E v (m ++ extra) f st =
      (.ok l, f', ⟨v.length, st.processed + v.length, st.failed⟩) := by
  have hok : f.inited = true ∧ v.length = m.length := by
    unfold Lsh.insert at h
    simp only at h
    rcases ha : Lsh.add env 2 cols v m f with ⟨r, f2⟩
    cases r with
    | error e => simp [ha] at h
    | ok ids => exact ⟨(Lsh.add_ok ha).1, (Lsh.add_ok ha).2.1⟩
  have hpos : 0 < v.length := List.length_pos_iff.2 hv
  refine ⟨⟨.index, ?_⟩, ?_⟩
  · have hne : v.length ≠ (m ++ extra).length := by
      have := List.length_pos_iff.2 hx
      rw [List.length_append]; omega
    unfold Lsh.insert
    simp only [Lsh.add_eq]
    rw [if_neg (by simp [hok.1]), if_pos hne]
  · have e1 : batchInsert E v (m ++ extra) f st = batchInsert E v m f st := by
      unfold batchInsert
      have hs : starts v.length E.batchSize = [0] := by
        rw [hb, starts_pos hpos hpos, Nat.sub_self, starts_zero _ hpos]; rfl
      rw [hs]
      unfold insertLoop
      have hm : batchAt (m ++ extra) 0 E.batchSize = batchAt m 0 E.batchSize := by
        unfold batchAt
        rw [List.drop_zero, List.drop_zero, hb, hok.2, List.take_left, List.take_length]
      rw [hm]
      simp only [insertLoop]
    rw [e1]
    exact C203_lsh env cols E hE (by omega) hP v hv m f f' l h st

end Valori.Props
