import Verif.Props.Crash

/-!
# Property C17 for every history: what an insert with metadata that cannot be pickled leaves

The witness is in `Props/Flat`; here every batch with such a row, after every history, on disk storage.
-/

namespace Valori.Props
open Valori Valori.Spec

variable {V M D : Type}

/-! ## The row loop -/

theorem insertLoop_split {σ : Type} (B : Backend σ V M) (mds : Option (List (Option M)))
    (b : List (String × V)) : ∀ (a : List (String × V)) (i : Nat) (f : Flat V) (s : σ) (l : List String)
    (f' : Flat V) (s' : σ), Flat.insertLoop B mds i a f s = (.ok l, f', s') →
    Flat.insertLoop B mds i (a ++ b) f s =
      match Flat.insertLoop B mds (i + a.length) b f' s' with
      | (.ok l2, t) => (.ok (l ++ l2), t)
      | (.error e, t) => (.error e, t) := by
  intro a
  induction a with
  | nil =>
    intro i f s l f' s' h
    simp only [Flat.insertLoop, Prod.mk.injEq, Except.ok.injEq] at h
    obtain ⟨rfl, rfl, rfl⟩ := h
    simp only [List.nil_append, List.length_nil, Nat.add_zero]
    rcases Flat.insertLoop B mds i b f s with ⟨_ | _, _⟩ <;> rfl
  | cons r a ih =>
    obtain ⟨id, v⟩ := r
    intro i f s l f' s' h
    simp only [Flat.insertLoop] at h
    simp only [List.cons_append, Flat.insertLoop]
    rcases hst : B.store s id v (rowMeta mds i) with ⟨_ | _, s1⟩
    · rw [hst] at h; simp at h
    · rw [hst] at h
      simp only at h ⊢
      split at h
      · rename_i l1 t1 h1
        simp only [Prod.mk.injEq, Except.ok.injEq] at h
        obtain ⟨rfl, rfl⟩ := h
        rw [ih _ _ _ _ _ _ h1]
        have : i + 1 + a.length = i + (a.length + 1) := by omega
        simp only [this, List.length_cons]
        rcases Flat.insertLoop B mds (i + (a.length + 1)) b f' s' with ⟨_ | _, _⟩ <;> rfl
      · simp at h

theorem insertLoop_meta {σ : Type} (B : Backend σ V M) (m1 m2 : Option (List (Option M))) :
    ∀ (a : List (String × V)) (i : Nat) (f : Flat V) (s : σ),
    (∀ j, i ≤ j → j < i + a.length → rowMeta m1 j = rowMeta m2 j) →
    Flat.insertLoop B m1 i a f s = Flat.insertLoop B m2 i a f s := by
  intro a
  induction a with
  | nil => intro i f s _; rfl
  | cons r a ih =>
    obtain ⟨id, v⟩ := r
    intro i f s h
    simp only [Flat.insertLoop, h i (le_refl i) (by simp)]
    rcases B.store s id v (rowMeta m2 i) with ⟨_ | _, s1⟩
    · rfl
    · simp only
      rw [ih (i + 1) _ _ fun j h1 h2 => h j (by omega) (by simp only [List.length_cons]; omega)]

theorem insertLoop_count {σ : Type} (B : Backend σ V M) (mds : Option (List (Option M))) :
    ∀ (a : List (String × V)) (i : Nat) (f : Flat V) (s : σ),
    (Flat.insertLoop B mds i a f s).2.1.count = f.count := by
  intro a
  induction a with
  | nil => intro i f s; rfl
  | cons r a ih =>
    obtain ⟨id, v⟩ := r
    intro i f s
    simp only [Flat.insertLoop]
    rcases B.store s id v (rowMeta mds i) with ⟨_ | _, s1⟩
    · rfl
    · have := ih (i + 1) { f with ids := f.ids ++ [id], cache := f.cache.set id v } s1
      simp only at this ⊢
      rcases h : Flat.insertLoop B mds (i + 1) a
        { f with ids := f.ids ++ [id], cache := f.cache.set id v } s1 with ⟨_ | _, t⟩ <;>
      · rw [h] at this; exact this

/-! ## Searches that read the same files -/

/-- `loadVecs` of a storage whose reads leave it as it is, as a function of what is read. -/
def loadOf (r : String → Except Err (Option (V × Option M))) :
    List String → Dict String V → Except Err (List (String × V)) × Dict String V
  | [], c => (.ok [], c)
  | id :: rest, c =>
    match c.get? id with
    | some v => ((loadOf r rest c).1.map ((id, v) :: ·), (loadOf r rest c).2)
    | none =>
      match r id with
      | .error e => (.error e, c)
      | .ok none => loadOf r rest c
      | .ok (some (v, _)) =>
        ((loadOf r rest (c.set id v)).1.map ((id, v) :: ·), (loadOf r rest (c.set id v)).2)

theorem loadVecs_of (denv : DiskEnv M) (s : Disk V M) (ids : List String) (c : Dict String V) :
    loadVecs (diskBackend denv) ids c s =
      ((loadOf (fun x => (s.retrieve denv x).1) ids c).1,
        (loadOf (fun x => (s.retrieve denv x).1) ids c).2, s) := by
  induction ids generalizing c with
  | nil => rfl
  | cons id ids ih =>
    simp only [loadVecs, loadOf]
    cases c.get? id with
    | some v =>
      simp only [ih]
      rcases (loadOf (fun x => (s.retrieve denv x).1) ids c) with ⟨_ | l, c1⟩ <;> rfl
    | none =>
      have e : (diskBackend denv).retrieve s id = ((s.retrieve denv id).1, s) :=
        Prod.ext rfl (retrieve_state denv s id)
      simp only [e]
      rcases (s.retrieve denv id).1 with _ | _ | ⟨v, m⟩
      · rfl
      · exact ih c
      · simp only [ih]
        rcases (loadOf (fun x => (s.retrieve denv x).1) ids (c.set id v)) with ⟨_ | l, c1⟩ <;> rfl

theorem loadOf_congr {r r' : String → Except Err (Option (V × Option M))} (ids : List String)
    (c : Dict String V) (h : ∀ x ∈ ids, r x = r' x) : loadOf r ids c = loadOf r' ids c := by
  induction ids generalizing c with
  | nil => rfl
  | cons id ids ih =>
    have ih := fun c => ih c fun x hx => h x (List.mem_cons_of_mem _ hx)
    simp only [loadOf, h id List.mem_cons_self, ih]

theorem loadOf_ids {r : String → Except Err (Option (V × Option M))} (ids : List String)
    (c : Dict String V) : ∀ l, (loadOf r ids c).1 = .ok l → ∀ p ∈ l, p.1 ∈ ids := by
  induction ids generalizing c with
  | nil => simp [loadOf]
  | cons id ids ih =>
    have map : ∀ (v : V) (c : Dict String V) l, (loadOf r ids c).1.map ((id, v) :: ·) = .ok l →
        ∀ p ∈ l, p.1 ∈ id :: ids := by
      intro v c l hl p hp
      have := ih c
      rcases h : (loadOf r ids c).1 with _ | l1
      · rw [h] at hl; cases hl
      · rw [h] at hl
        simp only [Except.map, Except.ok.injEq] at hl
        subst hl
        rcases List.mem_cons.1 hp with rfl | hp
        · exact List.mem_cons_self
        · exact List.mem_cons_of_mem _ (this l1 h p hp)
    intro l
    simp only [loadOf]
    split
    · exact map _ _ l
    · split
      · simp
      · exact fun hl p hp => List.mem_cons_of_mem _ (ih c l hl p hp)
      · exact map _ _ l

/-- `fetchMeta` of such a storage. -/
def fetchOf (r : String → Except Err (Option (V × Option M))) :
    List (String × D) → Except Err (List (Hit D M))
  | [] => .ok []
  | (id, d) :: rest =>
    match r id with
    | .error e => .error e
    | .ok none => .error .typeE
    | .ok (some (_, m)) => (fetchOf r rest).map (⟨id, d, m⟩ :: ·)

theorem fetchMeta_of (denv : DiskEnv M) (s : Disk V M) (l : List (String × D)) :
    fetchMeta (diskBackend denv) l s = (fetchOf (fun x => (s.retrieve denv x).1) l, s) := by
  induction l with
  | nil => rfl
  | cons p l ih =>
    obtain ⟨id, d⟩ := p
    have e : (diskBackend denv).retrieve s id = ((s.retrieve denv id).1, s) :=
      Prod.ext rfl (retrieve_state denv s id)
    simp only [fetchMeta, fetchOf, e]
    rcases (s.retrieve denv id).1 with _ | _ | ⟨v, m⟩
    · rfl
    · rfl
    · simp only [ih]
      rcases fetchOf (fun x => (s.retrieve denv x).1) l with _ | h <;> rfl

theorem fetchOf_congr {r r' : String → Except Err (Option (V × Option M))} (l : List (String × D))
    (h : ∀ p ∈ l, r p.1 = r' p.1) : fetchOf r l = fetchOf r' l := by
  induction l with
  | nil => rfl
  | cons p l ih =>
    obtain ⟨id, d⟩ := p
    simp only [fetchOf, h (id, d) List.mem_cons_self, ih fun x hx => h x (List.mem_cons_of_mem _ hx)]

theorem ranked_ids (env : FlatEnv V D) (q : V) (k : Int) (vs : List (String × V)) (p : String × D)
    (hp : p ∈ Flat.ranked env q k vs) : ∃ x ∈ vs, x.1 = p.1 := by
  obtain ⟨i, -, hi⟩ := List.mem_filterMap.1 hp
  rcases hx : vs[i]? with _ | x
  · rw [hx] at hi; simp at hi
  · rw [hx] at hi
    simp only [Option.map_some, Option.some.injEq] at hi
    exact ⟨x, List.mem_of_getElem? hx, by rw [← hi]⟩

/-- Two indices with the same ids and cache answer a search alike when the files of these ids are the same. -/
theorem search_two (env : FlatEnv V D) {denv : DiskEnv M} {f f' : Flat V} {s s' : Disk V M}
    (hi : f.inited = f'.inited) (hids : f.ids = f'.ids) (hc : f.cache = f'.cache)
    (h : ∀ x ∈ f.ids, (s.retrieve denv x).1 = (s'.retrieve denv x).1) (nd : Nat) (q : V) (k : Int) :
    (Flat.search env (diskBackend denv) nd q k f s).1 = (Flat.search env (diskBackend denv) nd q k f' s').1 := by
  simp only [Flat.search, ← hi, ← hids, ← hc, loadVecs_of, loadOf_congr f.ids f.cache h]
  split_ifs <;> try rfl
  rcases hl : loadOf (fun x => (s'.retrieve denv x).1) f.ids f.cache with ⟨_ | vs, c⟩
  · rfl
  · have hm := loadOf_ids f.ids f.cache vs (by rw [hl])
    simp only
    split_ifs <;> try rfl
    rw [fetchMeta_of, fetchMeta_of, fetchOf_congr (r' := fun x => (s'.retrieve denv x).1)]
    · rcases fetchOf (fun x => (s'.retrieve denv x).1)
        (Flat.ranked env q (min k (f.ids.length : Int)) vs) with _ | _ <;> rfl
    · intro p hp
      obtain ⟨x, hx, e⟩ := ranked_ids env q _ vs p hp
      exact h p.1 (e ▸ hm x hx)

/-! ## The failed insert -/

theorem rowMeta_before (ms more : List (Option M)) (b : Option M) (j : Nat) (hj : j < ms.length) :
    rowMeta (some (ms ++ b :: more)) j = rowMeta (some ms) j := by
  have h1 : (ms ++ b :: more).isEmpty = false := by cases ms <;> rfl
  have h2 : ms.isEmpty = false := by cases ms with | nil => simp at hj | cons => rfl
  simp only [rowMeta, h1, h2, List.getElem?_append_left hj]

variable [LinearOrder D]

/-- **C17, refuted** for every history and every batch with a row whose metadata cannot be pickled, on disk
storage.  The call raises and the reported count does not move, but the rows before it stay: every search
answers as if only they had been inserted.  And a file stays that nobody can read: a new process on the
directory opens, every search of it raises, until the id of the row, which nobody was told, is deleted. -/
theorem C17_failed_disk_refuted (denv : DiskEnv M) (hg : ∀ l, (denv.glob l).Perm l) (env : FlatEnv V D)
    (ha : IsArgsort env.argsort) (s : Disk V M) (live : List (Item V M))
    (hs : Holds (diskLawful (V := V) denv hg) s live) (h : List (IxCall V M))
    (hok : Live.HistOk (OwnName denv) (fun m => denv.picklable m = true) live h)
    (good : List (String × V)) (ms : List (Option M)) (hlen : ms.length = good.length)
    (hgood : Live.CallOk (OwnName denv) (fun m => denv.picklable m = true) (Live.after live h)
      (.insert 2 good (some ms)))
    (id : String) (v : V) (bad : M) (hne : id ≠ "") (hown : OwnName denv id)
    (hnew : Live.has (Live.next (Live.after live h) (.insert 2 good (some ms))) id = false)
    (hbad : denv.picklable bad = false) (rest : List (String × V)) (more : List (Option M)) :
    let B := diskBackend (V := V) denv
    let t := (Flat.run env B (flatOn B s) h).2
    let r := Flat.insert B 2 (good ++ (id, v) :: rest) (some (ms ++ some bad :: more)) t.1 t.2
    let r' := Flat.insert B 2 good (some ms) t.1 t.2
    r.1 = .error .index ∧ r.2.1.statCount = t.1.statCount ∧ r'.1 = .ok (good.map Prod.fst) ∧
    (∀ nd q k, (Flat.search env B nd q k r.2.1 r.2.2).1 = (Flat.search env B nd q k r'.2.1 r'.2.2).1) ∧
    FindsBroken env denv ⟨(Flat.new, Disk.opened r.2.2.dir), false⟩ id
      (Live.next (Live.after live h) (.insert 2 good (some ms))) := by
  intro B t r r'
  have hinv : Flat.Inv (diskLawful (V := V) denv hg) (Live.after live h) t := ((flatOn_inv hs).run ha h hok).2
  obtain ⟨g1, g2, g3⟩ := hgood
  obtain ⟨f1, s1, e1, c1⟩ := Flat.insertLoop_spec (some ms) g3 good 0 _ t.1 t.2 hinv.toCore g1 g2
  have hcnt := insertLoop_count B (some ms) good 0 t.1 t.2
  rw [show Flat.insertLoop B (some ms) 0 good t.1 t.2 = _ from e1] at hcnt
  simp only at hcnt
  have hi : t.1.inited = true := hinv.inited
  have hi1 : f1.inited = true := c1.inited
  simp only [Live.next, if_true] at hnew ⊢
  obtain ⟨ho1, hsh⟩ := shows_of_inv hg c1.st c1.nd fun id => by rw [c1.cont]
  have ho1 : s1.inited = true := ho1
  have hsh : s1.dir.Shows denv (Live.after live h ++ Live.items (some ms) 0 good) := hsh
  have hst : s1.store denv id v (some bad) = (.error .storage,
      { s1 with dir := ⟨s1.dir.vec.set id (.good v), s1.dir.pkl.set id .torn⟩ }) := by
    have hown' : sanitize denv id = id := hown
    simp [Disk.store, hne, ho1, Disk.writeSteps, hbad, hown', runSteps, FsStep.run, Dict.set_set]
  have e2 : Flat.insertLoop B (some (ms ++ some bad :: more)) 0 (good ++ (id, v) :: rest) t.1 t.2 =
      (.error .storage, f1, { s1 with dir := ⟨s1.dir.vec.set id (.good v), s1.dir.pkl.set id .torn⟩ }) := by
    have e0 : Flat.insertLoop B (some (ms ++ some bad :: more)) 0 good t.1 t.2 = _ :=
      (insertLoop_meta B (some (ms ++ some bad :: more)) (some ms) good 0 t.1 t.2
        fun j _ hj => rowMeta_before ms more _ j (by omega)).trans e1
    rw [insertLoop_split B _ _ good 0 t.1 t.2 _ f1 s1 e0]
    have hm : rowMeta (some (ms ++ some bad :: more)) (0 + good.length) = some bad := by
      have : (ms ++ some bad :: more).isEmpty = false := by cases ms <;> rfl
      simp [rowMeta, this, ← hlen]
    simp only [Flat.insertLoop, hm]
    rw [show B.store s1 id v (some bad) = _ from hst]
  have er : r = (.error .index, f1,
      { s1 with dir := ⟨s1.dir.vec.set id (.good v), s1.dir.pkl.set id .torn⟩ }) := by
    simp only [r, Flat.insert, hi, e2]; rfl
  have er' : r' = (.ok (good.map Prod.fst), { f1 with count := f1.ids.length }, s1) := by
    simp only [r', Flat.insert, hi]
    rw [show Flat.insertLoop B (some ms) 0 good t.1 t.2 = _ from e1]; rfl
  rw [er, er']
  have hL := hsh.torn_pkl (id := id) hown v
  have hrem : Live.remove (Live.after live h ++ Live.items (some ms) 0 good) id =
      Live.after live h ++ Live.items (some ms) 0 good := by
    unfold Live.remove
    rw [List.filter_eq_self]
    intro y hy
    simp only [decide_eq_true_eq]
    intro e
    rw [Live.has_false_iff] at hnew
    exact hnew (List.mem_map.2 ⟨y, hy, e⟩)
  rw [hrem] at hL
  refine ⟨rfl, by simp [Flat.statCount, hi, hi1, hcnt], rfl, ?_, broken_left hg env ha hL⟩
  intro nd q k
  refine search_two (f := f1) (f' := { f1 with count := f1.ids.length }) env rfl rfl rfl ?_ nd q k
  intro x hx
  have hx' : x ∈ Live.idsOf (Live.after live h ++ Live.items (some ms) 0 good) := by
    rw [← c1.ids]; exact hx
  rw [Live.has_false_iff] at hnew
  have hxne : x ≠ id := fun e => hnew (e ▸ hx')
  have hmem : s1.dir.vec.mem x = true := by
    rw [hsh.mem x]
    cases hh : Live.has (Live.after live h ++ Live.items (some ms) 0 good) x with
    | true => rfl
    | false => rw [Live.has_false_iff] at hh; exact absurd hx' hh
  rw [retrieve_beside (s := ⟨⟨s1.dir.vec.set id (.good v), s1.dir.pkl.set id .torn⟩, s1.count, s1.inited⟩) (id := id) ho1 hL hxne (hsh.own x hmem),
    Disk.retrieve_ready ho1 hsh.ok, hsh.own x hmem, hsh.cont x]

/-- Metadata 99 cannot be pickled; the index already holds a vector; the second row of the batch fails. -/
example : exEnvBad.picklable 99 = false ∧
    (let B := diskBackend (V := Nat) exEnvBad
     let t := (Flat.run exFlat B (flatOn B (Disk.init (Disk.opened (emptyDir Nat Nat))))
        [.insert 2 [("z", 30)] none]).2
     let r := Flat.insert B 2 [("a", 10), ("b", 20), ("c", 40)] (some [some 1, some 99]) t.1 t.2
     r.1 = .error .index ∧ r.2.1.statCount = some 1 ∧
     (Flat.search exFlat B 1 10 5 r.2.1 r.2.2).1 = .ok [⟨"a", 0, some 1⟩, ⟨"z", 20, none⟩] ∧
     ((Client.converse (flatParts exFlat B) ⟨(Flat.new, Disk.opened r.2.2.dir), false⟩
        [.init, .request (.search 1 10 5), .request (.delete ["b"]), .request (.search 1 10 5)]).1.map seen) =
      [.done, .raised, .flag true, .hits [⟨"a", 0, some 1⟩, ⟨"z", 20, none⟩]]) := by
  decide +kernel

end Valori.Props
