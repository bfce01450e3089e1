import Verif.Lemmas.Crash
import Verif.Props.Database

/-!
# Property C216: a database on disk after the death of its process
-/

namespace Valori.Props
open Valori Valori.Spec

variable {V M D : Type}

/-! ## The file steps of a call -/

/-- The calls an insert makes on the storage. -/
def storesOf (mds : Option (List (Option M))) (i : Nat) (rows : List (String × V)) :
    List (Disk.Write V M) :=
  (Live.items mds i rows).map fun x => .store x.id x.vec x.md

theorem insertLoop_tape (denv : DiskEnv M) (mds : Option (List (Option M))) (rows : List (String × V)) :
    ∀ (i : Nat) (f : Flat V) (s : Disk V M) (t : List (FsStep V M)), s.inited = true →
      (∀ x ∈ Live.items mds i rows, x.id ≠ "" ∧ ∀ m, x.md = some m → denv.picklable m = true) →
      (Flat.insertLoop (tapeDisk denv) mds i rows f (s, t)).2.2.2 =
        t ++ seqSteps denv s.dir (storesOf mds i rows) := by
  induction rows with
  | nil => intro i f s t _ _; simp [Flat.insertLoop, storesOf, Live.items, seqSteps]
  | cons r rows ih =>
    obtain ⟨id, v⟩ := r
    intro i f s t hi hx
    have h0 := hx ⟨id, v, Live.mdAt mds i⟩ (by simp [Live.items])
    have e := Disk.store_ready (env := denv) hi h0.1 v (Live.mdAt mds i) h0.2
    have ed := Disk.Write.exec_dir (env := denv) s (.store id v (Live.mdAt mds i)) hi
    simp only [Disk.Write.exec] at ed
    have e2 : (tapeDisk denv).store (s, t) id v (rowMeta mds i) =
        (.ok true, ((s.store denv id v (Live.mdAt mds i)).2,
          t ++ (Disk.Write.store id v (Live.mdAt mds i)).steps denv s.dir)) := by
      simp only [tapeDisk, Live.mdAt_eq_rowMeta, Disk.stepsOf, hi, if_true, e]
    simp only [Flat.insertLoop, e2]
    have := ih (i + 1) { f with ids := f.ids ++ [id], cache := f.cache.set id v }
      (s.store denv id v (Live.mdAt mds i)).2
      (t ++ (Disk.Write.store id v (Live.mdAt mds i)).steps denv s.dir) ed.2
      (fun x hx' => hx x (by simp [Live.items, hx']))
    rw [ed.1] at this
    simp only [storesOf, Live.items, List.map_cons, seqSteps] at this ⊢
    rw [← List.append_assoc, ← this]
    generalize Flat.insertLoop (tapeDisk denv) mds (i + 1) rows _ _ = r
    rcases r with ⟨_ | _, _⟩ <;> rfl

theorem deleteLoop_tape (denv : DiskEnv M) (dels : List String) :
    ∀ (ok : Bool) (f : Flat V) (s : Disk V M) (t : List (FsStep V M)), s.inited = true →
      (Flat.deleteLoop (tapeDisk denv) dels ok f (s, t)).2.2.2 =
        t ++ seqSteps denv s.dir (dels.map .delete) := by
  induction dels with
  | nil => intro ok f s t _; simp [Flat.deleteLoop, seqSteps]
  | cons id dels ih =>
    intro ok f s t hi
    have ed := Disk.Write.exec_dir (env := denv) s (.delete id) hi
    simp only [Disk.Write.exec] at ed
    obtain ⟨b, hb⟩ : ∃ b, (s.delete denv id).1 = .ok b := by
      simp only [Disk.delete, hi]
      simp only [Bool.not_true, Bool.false_eq_true, if_false]
      split <;> exact ⟨_, rfl⟩
    have e2 : (tapeDisk denv).delete (s, t) id =
        (.ok b, ((s.delete denv id).2, t ++ (Disk.Write.delete id).steps denv s.dir)) := by
      simp only [tapeDisk, Disk.stepsOf, hi, if_true, hb]
    simp only [Flat.deleteLoop, e2]
    rw [ih _ _ _ _ ed.2, ed.1]
    simp only [List.map_cons, seqSteps, List.append_assoc]

theorem loadVecs_tape (denv : DiskEnv M) (ids : List String) :
    ∀ (c : Dict String V) (s : Disk V M × List (FsStep V M)),
      (loadVecs (tapeDisk denv) ids c s).2.2.2 = s.2 := by
  induction ids with
  | nil => intro c s; rfl
  | cons id ids ih =>
    intro c s
    simp only [loadVecs]
    split
    · have := ih c s
      generalize loadVecs (tapeDisk denv) ids c s = r at this
      rcases r with ⟨_ | _, _, _⟩ <;> exact this
    · have e : ((tapeDisk denv).retrieve s id).2.2 = s.2 := rfl
      generalize (tapeDisk denv).retrieve s id = r at e
      rcases r with ⟨_ | _ | ⟨v, m⟩, s'⟩
      · exact e
      · exact (ih c s').trans e
      · have := ih (c.set id v) s'
        simp only
        generalize loadVecs (tapeDisk denv) ids (c.set id v) s' = r at this
        rcases r with ⟨_ | _, _, _⟩ <;> exact this.trans e

theorem fetchMeta_tape (denv : DiskEnv M) (l : List (String × D)) :
    ∀ (s : Disk V M × List (FsStep V M)), (fetchMeta (tapeDisk denv) l s).2.2 = s.2 := by
  induction l with
  | nil => intro s; rfl
  | cons x l ih =>
    obtain ⟨id, d⟩ := x
    intro s
    simp only [fetchMeta]
    have e : ((tapeDisk denv).retrieve s id).2.2 = s.2 := rfl
    generalize (tapeDisk denv).retrieve s id = r at e
    rcases r with ⟨_ | _ | ⟨v, m⟩, s'⟩
    · exact e
    · exact e
    · have := ih s'
      simp only
      generalize fetchMeta (tapeDisk denv) l s' = r at this
      rcases r with ⟨_ | _, _⟩ <;> exact this.trans e

theorem search_tape (env : FlatEnv V D) (denv : DiskEnv M) (nd : Nat) (q : V) (k : Int) (f : Flat V)
    (s : Disk V M × List (FsStep V M)) :
    (Flat.search env (tapeDisk denv) nd q k f s).2.2.2 = s.2 := by
  simp only [Flat.search]
  split
  · rfl
  · split
    · rfl
    · split
      · rfl
      · have h1 := loadVecs_tape denv f.ids f.cache s
        generalize loadVecs (tapeDisk denv) f.ids f.cache s = r at h1
        rcases r with ⟨_ | vs, c, s'⟩
        · exact h1
        · simp only
          split
          · exact h1
          · split
            · exact h1
            · have h2 := fetchMeta_tape denv (Flat.ranked env q (min k (f.ids.length : Int)) vs) s'
              generalize fetchMeta (tapeDisk denv) (Flat.ranked env q (min k (f.ids.length : Int)) vs) s' = r at h2
              rcases r with ⟨_ | _, _⟩ <;> exact h2.trans h1

theorem fwd_state {σ α : Type} (g : α → FwdReply D M) (r : Res σ α) : (fwd g r).2 = r.2 := by
  rcases r with ⟨_ | _, _⟩ <;> rfl

/-- The calls on the storage that a call on the client makes. -/
def writesOf (db : Db V M) : ClCall (IxCall V M) → List (Disk.Write V M)
  | .init => []
  | .close => []
  | .request c =>
    if db.isOpen then
      match c with
      | .insert nd rows mds => if nd = 2 then storesOf mds 0 rows else []
      | .delete ids => ids.map .delete
      | .update id v m => if Live.has db.live id then [.update id v m] else []
      | .search .. => []
    else []

theorem writesOf_edit (db : Db V M) (x : ClCall (IxCall V M)) :
    (writesOf db x).map Disk.Write.edit = Edit.ofCall db x := by
  cases x with
  | init => rfl
  | close => rfl
  | request c =>
    simp only [writesOf, Edit.ofCall]
    split
    · cases c with
      | insert nd rows mds =>
        simp only
        split
        · simp [storesOf, List.map_map, Function.comp_def, Disk.Write.edit]
        · rfl
      | delete ids => simp [List.map_map, Function.comp_def, Disk.Write.edit]
      | update id v m => simp only; split <;> rfl
      | search => rfl
    · rfl

theorem tape_eq (env : FlatEnv V D) (denv : DiskEnv M) (c : Client (Flat V × Disk V M)) (db : Db V M)
    (ho : c.inited = db.isOpen) (hi : db.isOpen = true → c.w.2.inited = true ∧ c.w.1.inited = true)
    (hl : db.isOpen = true → ∀ id, sanitize denv id = id → c.w.2.dir.vec.mem id = Live.has db.live id)
    (x : ClCall (IxCall V M))
    (hx : match x with
      | .request q => db.isOpen = true →
          Live.CallOk (OwnName denv) (fun m => denv.picklable m = true) db.live q
      | _ => True) :
    Client.tape env denv c x = seqSteps denv c.w.2.dir (writesOf db x) := by
  obtain ⟨⟨f, s⟩, b⟩ := c
  obtain ⟨o, live⟩ := db
  simp only at ho hi hl
  subst ho
  cases x with
  | init => 
    simp only [Client.tape, Client.ask, Client.init, Client.steps, flatParts, writesOf, seqSteps, Flat.init,
      tapeDisk]
    simp only [Disk.list, Disk.init, Bool.not_true, Bool.false_eq_true, if_false]
  | close => rfl
  | request q =>
    cases b with
    | false => rfl
    | true =>
      obtain ⟨hs, hf⟩ := hi rfl
      have hx := hx rfl
      simp only [Client.tape, Client.ask, Client.request, writesOf, Bool.not_true, Bool.false_eq_true,
        if_false, if_true]
      cases q with
      | insert nd rows mds =>
        simp only [flatParts, fwd_state]
        simp only [Flat.insert, hf, Bool.not_true, Bool.false_eq_true, if_false]
        by_cases hnd : nd = 2
        · subst hnd
          simp only [ne_eq, not_true, if_false, if_true]
          have h1 := insertLoop_tape denv mds rows 0 f s [] hs (by
            obtain ⟨-, h2, h3⟩ := hx
            intro x hx
            have key : ∀ (rows : List (String × V)) (i : Nat), x ∈ Live.items mds i rows →
                (∃ r ∈ rows, r.1 = x.id) ∧ ∃ j, x.md = Live.mdAt mds j := by
              intro rows
              induction rows with
              | nil => intro i h; simp [Live.items] at h
              | cons r rows ih =>
                obtain ⟨a, v⟩ := r
                intro i h
                simp only [Live.items, List.mem_cons] at h
                rcases h with rfl | h
                · exact ⟨⟨_, List.mem_cons_self, rfl⟩, i, rfl⟩
                · obtain ⟨⟨r, k1, k2⟩, k3⟩ := ih _ h
                  exact ⟨⟨r, List.mem_cons_of_mem _ k1, k2⟩, k3⟩
            obtain ⟨⟨r, k1, k2⟩, j, k3⟩ := key rows 0 hx
            refine ⟨k2 ▸ (h2 r k1).1, fun m hm => ?_⟩
            rw [k3] at hm
            cases mds with
            | none => simp [Live.mdAt] at hm
            | some l =>
              simp only [Live.mdAt] at hm
              cases hj : l[j]? with
              | none => simp [hj] at hm
              | some y =>
                simp [hj] at hm
                subst hm
                exact h3 l rfl m (List.mem_of_getElem? hj))
          rw [List.nil_append] at h1
          rw [← h1]
          generalize Flat.insertLoop (tapeDisk denv) mds 0 rows f (s, []) = r
          rcases r with ⟨_ | _, _, _⟩ <;> rfl
        · simp only [ne_eq, hnd, not_false_eq_true, if_true, if_false, seqSteps]
      | delete ids =>
        simp only [flatParts, fwd_state]
        simp only [Flat.delete, hf, Bool.not_true, Bool.false_eq_true, if_false]
        have h1 := deleteLoop_tape denv ids true f s [] hs
        rw [List.nil_append] at h1
        rw [← h1]
        generalize Flat.deleteLoop (tapeDisk denv) ids true f (s, []) = r
        rcases r with ⟨_ | _, _, _⟩ <;> rfl
      | update id v m =>
        simp only [flatParts, fwd_state]
        simp only [Flat.update, hf, Bool.not_true, Bool.false_eq_true, if_false]
        have e : ((tapeDisk denv).update (s, []) id v m).2.2 =
            (Disk.Write.update id v m).steps denv s.dir := by
          simp only [tapeDisk, Disk.stepsOf, hs, if_true, List.nil_append]
        have h2 := hl rfl id hx.1
        have e2 : (Disk.Write.update id v m).steps denv s.dir =
            seqSteps denv s.dir (if Live.has live id = true then [Disk.Write.update id v m] else []) := by
          split
          · simp [seqSteps]
          · next hn =>
            have ho : sanitize denv id = id := hx.1
            simp only [Bool.not_eq_true] at hn
            simp [Disk.Write.steps, ho, h2, hn, seqSteps]
        rw [← e2, ← e]
        generalize (tapeDisk denv).update (s, []) id v m = r
        rcases r with ⟨_ | _ | _, _⟩ <;> rfl
      | search nd q k =>
        simp only [flatParts, fwd_state]
        rw [search_tape]
        rfl

/-! ## Directories and clients -/

theorem shows_of_inv {denv : DiskEnv M} (hg : ∀ l, (denv.glob l).Perm l) {s : Disk V M}
    {live : List (Item V M)} (hi : (diskLawful (V := V) denv hg).inv s)
    (hn : (Live.idsOf live).Nodup)
    (hc : ∀ id, (diskLawful (V := V) denv hg).content s id = Live.find live id) :
    s.inited = true ∧ s.dir.Shows denv live := by
  obtain ⟨h1, h2, h3, h4⟩ := hi
  have h1 : s.Inv := h1
  refine ⟨h2, h1.ok, hn, hc, ?_⟩
  intro id hid
  exact h4 id (by
    show (s.dir.content id).isSome = true
    rw [Dir.content_isSome h1.ok]; exact hid)

theorem inv_of_shows {denv : DiskEnv M} (hg : ∀ l, (denv.glob l).Perm l) {d : Dir V M}
    {live : List (Item V M)} (h : d.Shows denv live) (n : Nat) (hn : n = d.vec.length) :
    (diskLawful (V := V) denv hg).inv ⟨d, n, true⟩ := by
  refine ⟨⟨h.ok, fun _ => hn⟩, rfl, ⟨h.ok.vnd, ?_⟩, ?_⟩
  · intro id
    show id ∈ d.vec.keys ↔ (d.content id).isSome = true
    rw [Dir.content_isSome h.ok, Dict.mem_keys]; rfl
  · intro id hid
    have hid : (d.content id).isSome = true := hid
    rw [Dir.content_isSome h.ok] at hid
    exact h.own id hid

theorem sim_shows {denv : DiskEnv M} (hg : ∀ l, (denv.glob l).Perm l) {db : Db V M}
    {c : Client (Flat V × Disk V M)} (h : Sim (diskLawful (V := V) denv hg) db c) :
    c.w.2.dir.Shows denv db.live ∧
      (db.isOpen = true → c.w.2.inited = true ∧ c.w.1.inited = true) := by
  obtain ⟨h1, h2, h3⟩ := h
  cases ho : db.isOpen with
  | true =>
    obtain ⟨live, hp, hinv⟩ := h2 ho
    have hn : (Live.idsOf db.live).Nodup := (hp.map Item.id).nodup_iff.2 hinv.nd
    have hc : ∀ id, (diskLawful (V := V) denv hg).content c.w.2 id = Live.find db.live id := by
      intro id; rw [hinv.cont]; exact (find_of_perm hp hn id).symm
    have := shows_of_inv hg hinv.st hn hc
    exact ⟨this.2, fun _ => ⟨this.1, hinv.inited⟩⟩
  | false =>
    obtain ⟨k1, k2, k3, k4⟩ := h3 ho
    have := shows_of_inv hg k3 k2 k4
    exact ⟨this.2, fun h => by cases h⟩

theorem sim_after [LinearOrder D] {denv : DiskEnv M} (hg : ∀ l, (denv.glob l).Perm l)
    (env : FlatEnv V D) (ha : IsArgsort env.argsort) (h : List (ClCall (IxCall V M))) :
    ∀ (db : Db V M) (c : Client (Flat V × Disk V M)), Sim (diskLawful (V := V) denv hg) db c →
      Db.HistOk (OwnName denv) (fun m => denv.picklable m = true) false db h →
      Sim (diskLawful (V := V) denv hg) (Db.after false db h)
        (Client.converse (flatParts env (diskBackend denv)) c h).2 := by
  induction h with
  | nil => intro db c hs _; exact hs
  | cons x h ih =>
    intro db c hs hok
    exact ih _ _ (sim_step (C194_disk denv hg) env ha hs x hok.1).2 hok.2

theorem histOk_append {okId : String → Prop} {okM : M → Prop} {vol : Bool}
    (h h' : List (ClCall (IxCall V M))) : ∀ (db : Db V M), Db.HistOk okId okM vol db (h ++ h') →
      Db.HistOk okId okM vol db h ∧ Db.HistOk okId okM vol (Db.after vol db h) h' := by
  induction h with
  | nil => intro db hh; exact ⟨trivial, hh⟩
  | cons x h ih =>
    intro db hh
    obtain ⟨a, b⟩ := ih _ hh.2
    exact ⟨⟨hh.1, a⟩, b⟩

/-- What is asked of calls that can be made in any state. -/
def FitsAlways (denv : DiskEnv M) : Disk.Write V M → Prop
  | .store id _ m => sanitize denv id = id ∧ id ≠ "" ∧ ∀ x, m = some x → denv.picklable x = true
  | .update .. => False
  | .delete id => sanitize denv id = id

theorem allFit_of {denv : DiskEnv M} (ws : List (Disk.Write V M)) (h : ∀ w ∈ ws, FitsAlways denv w) :
    ∀ live : List (Item V M), AllFit denv live ws := by
  induction ws with
  | nil => intro live; trivial
  | cons w ws ih =>
    intro live
    refine ⟨?_, ih (fun u hu => h u (by simp [hu])) _⟩
    have := h w (by simp)
    cases w with
    | store => exact this
    | update => exact this.elim
    | delete => exact this

theorem items_mem {mds : Option (List (Option M))} {x : Item V M} (rows : List (String × V)) :
    ∀ i, x ∈ Live.items mds i rows → (∃ r ∈ rows, r.1 = x.id) ∧ ∃ j, x.md = Live.mdAt mds j := by
  induction rows with
  | nil => intro i h; simp [Live.items] at h
  | cons r rows ih =>
    obtain ⟨a, v⟩ := r
    intro i h
    simp only [Live.items, List.mem_cons] at h
    rcases h with rfl | h
    · exact ⟨⟨_, List.mem_cons_self, rfl⟩, i, rfl⟩
    · obtain ⟨⟨r, k1, k2⟩, k3⟩ := ih _ h
      exact ⟨⟨r, List.mem_cons_of_mem _ k1, k2⟩, k3⟩

theorem mdAt_mem {mds : Option (List (Option M))} {j : Nat} {m : M} (h : Live.mdAt mds j = some m) :
    ∃ l, mds = some l ∧ some m ∈ l := by
  cases mds with
  | none => simp [Live.mdAt] at h
  | some l =>
    simp only [Live.mdAt] at h
    cases hj : l[j]? with
    | none => simp [hj] at h
    | some y =>
      simp [hj] at h
      subst h
      exact ⟨l, rfl, List.mem_of_getElem? hj⟩

theorem writes_fit {denv : DiskEnv M} (db : Db V M) (x : ClCall (IxCall V M))
    (hx : match x with
      | .request q => db.isOpen = true →
          Live.CallOk (OwnName denv) (fun m => denv.picklable m = true) db.live q
      | _ => True) : AllFit denv db.live (writesOf db x) := by
  cases x with
  | init => trivial
  | close => trivial
  | request q =>
    simp only [writesOf]
    split
    · next ho =>
      have hx := hx ho
      cases q with
      | insert nd rows mds =>
        simp only
        split
        · apply allFit_of
          intro w hw
          simp only [storesOf, List.mem_map] at hw
          obtain ⟨y, hy, rfl⟩ := hw
          obtain ⟨⟨r, k1, k2⟩, j, k3⟩ := items_mem rows 0 hy
          obtain ⟨-, h2, h3⟩ := hx
          have h2 := h2 r k1
          rw [k2] at h2
          refine ⟨h2.2.1, h2.1, fun m hm => ?_⟩
          rw [k3] at hm
          obtain ⟨l, rfl, hl⟩ := mdAt_mem hm
          exact h3 l rfl m hl
        · trivial
      | delete ids =>
        apply allFit_of
        intro w hw
        simp only [List.mem_map] at hw
        obtain ⟨id, hid, rfl⟩ := hw
        exact hx id hid
      | update id v m =>
        simp only
        split
        · next hl => exact ⟨⟨hx.1, hl, hx.2⟩, trivial⟩
        · trivial
      | search => trivial
    · trivial

/-! ## A directory with an unreadable file -/

/-- A client that met an unreadable file: nothing wrong is cached. -/
structure Spoiled (denv : DiskEnv M) (d : Dir V M) (id : String) (out : List (Item V M))
    (c : Client (Flat V × Disk V M)) : Prop where
  isOpen : c.inited = true
  dir : c.w.2.dir = d
  cnt : c.w.2.count = d.vec.length
  sopen : c.w.2.inited = true
  fopen : c.w.1.inited = true
  ids : c.w.1.ids = denv.glob d.vec.keys
  fresh : c.w.1.cache.get? id = none
  cache : ∀ x v, c.w.1.cache.get? x = some v → ∃ m, Live.find out x = some (v, m)

theorem retrieve_state (denv : DiskEnv M) (s : Disk V M) (id : String) : (s.retrieve denv id).2 = s := by
  simp only [Disk.retrieve]
  split
  · rfl
  · split
    · rfl
    · rfl
    · split <;> rfl

theorem retrieve_torn {denv : DiskEnv M} {s : Disk V M} {id : String} (hi : s.inited = true)
    (ho : sanitize denv id = id) (ht : s.dir.TornAt id) : s.retrieve denv id = (.error .storage, s) := by
  simp only [Disk.retrieve, hi, ho]
  rcases ht with h | ⟨⟨v, h⟩, h'⟩
  · simp [h]
  · simp [h, h']

theorem erased_files {d : Dir V M} (hv : d.vec.keys.Nodup) (hp : d.pkl.keys.Nodup) {id x : String}
    (hx : x ≠ id) : (d.erased id).files x = d.files x := by
  simp only [Dir.files, Dir.erased, Dict.get?_pop hv, Dict.get?_pop hp, if_neg hx]

theorem retrieve_beside {denv : DiskEnv M} {s : Disk V M} {id x : String} {out : List (Item V M)}
    (hi : s.inited = true) (hL : s.dir.Left denv out (some id)) (hx : x ≠ id)
    (hox : sanitize denv x = x) : s.retrieve denv x = (.ok (Live.find out x), s) := by
  obtain ⟨hv, hp, -, -, hs⟩ := hL
  have h1 := Disk.retrieve_congr (env := denv) (s := s) (s' := ⟨s.dir.erased id, 0, true⟩) (id := x) hi
    (by rw [hox]; exact (erased_files hv hp hx).symm)
  rw [Disk.retrieve_ready (s := ⟨s.dir.erased id, 0, true⟩) rfl hs.ok, hox] at h1
  exact Prod.ext (h1.trans (congrArg Except.ok (hs.cont x))) (retrieve_state denv s x)

theorem loadVecs_spoiled {denv : DiskEnv M} {s : Disk V M} {id : String} {out : List (Item V M)}
    (hi : s.inited = true) (hL : s.dir.Left denv out (some id)) (l : List String) :
    ∀ (c : Dict String V), id ∈ l → (∀ x ∈ l, sanitize denv x = x) → c.get? id = none →
      (∀ x v, c.get? x = some v → ∃ m, Live.find out x = some (v, m)) →
      ∃ e c', loadVecs (diskBackend denv) l c s = (.error e, c', s) ∧ c'.get? id = none ∧
        ∀ x v, c'.get? x = some v → ∃ m, Live.find out x = some (v, m) := by
  induction l with
  | nil => intro c h; simp at h
  | cons x l ih =>
    intro c hid ho hf hc
    by_cases hx : x = id
    · subst hx
      refine ⟨.storage, c, ?_, hf, hc⟩
      have e : (diskBackend denv).retrieve s x = (.error .storage, s) :=
        retrieve_torn hi hL.2.2.2.1 hL.2.2.1
      simp only [loadVecs, hf, e]
    · have hid' : id ∈ l := by
        rcases List.mem_cons.1 hid with h | h
        · exact absurd h.symm hx
        · exact h
      have ho' : ∀ y ∈ l, sanitize denv y = y := fun y hy => ho y (by simp [hy])
      cases hg : c.get? x with
      | some v =>
        obtain ⟨e, c', e1, e2, e3⟩ := ih c hid' ho' hf hc
        exact ⟨e, c', by simp only [loadVecs, hg, e1], e2, e3⟩
      | none =>
        have er : (diskBackend denv).retrieve s x = (.ok (Live.find out x), s) :=
          retrieve_beside hi hL hx (ho x (by simp))
        cases hfd : Live.find out x with
        | none =>
          rw [hfd] at er
          obtain ⟨e, c', e1, e2, e3⟩ := ih c hid' ho' hf hc
          exact ⟨e, c', by simp only [loadVecs, hg, er, e1], e2, e3⟩
        | some y =>
          obtain ⟨v, m⟩ := y
          rw [hfd] at er
          obtain ⟨e, c', e1, e2, e3⟩ := ih (c.set x v) hid' ho'
            (by rw [Dict.get?_set, if_neg (fun h => hx h.symm)]; exact hf)
            (by
              intro y w hy
              rw [Dict.get?_set] at hy
              split at hy
              · next h => subst h; simp only [Option.some.injEq] at hy; subst hy; exact ⟨m, hfd⟩
              · exact hc y w hy)
          exact ⟨e, c', by simp only [loadVecs, hg, er, e1], e2, e3⟩

theorem torn_mem {d : Dir V M} {id : String} (h : d.TornAt id) : d.vec.mem id = true := by
  rcases h with h | ⟨⟨v, h⟩, -⟩ <;> simp [Dict.mem, h]

theorem left_own {denv : DiskEnv M} {d : Dir V M} {id : String} {out : List (Item V M)}
    (hL : d.Left denv out (some id)) (x : String) (hx : d.vec.mem x = true) : sanitize denv x = x := by
  obtain ⟨hv, hp, -, ho, hs⟩ := hL
  by_cases h : x = id
  · rw [h]; exact ho
  · refine hs.own x ?_
    simp only [Dir.erased, Dict.mem, Dict.get?_pop hv, if_neg h]; exact hx

/-- A search raises and changes nothing that matters. -/
theorem spoiled_search {denv : DiskEnv M} (hg : ∀ l, (denv.glob l).Perm l) (env : FlatEnv V D)
    {d : Dir V M} {id : String} {out : List (Item V M)} (hL : d.Left denv out (some id))
    {c : Client (Flat V × Disk V M)} (h : Spoiled denv d id out c) (nd : Nat) (q : V) (k : Int) :
    ∃ c', Client.ask (flatParts env (diskBackend denv)) c (.request (.search nd q k)) =
      (.reply (.error .index), c') ∧ Spoiled denv d id out c' := by
  obtain ⟨⟨f, s⟩, b⟩ := c
  obtain ⟨h1, h2, hcnt, h3, h4, h5, h6, h7⟩ := h
  simp only at h1 h2 hcnt h3 h4 h5 h6 h7
  subst h1
  have hmem : id ∈ f.ids := by
    rw [h5, (hg _).mem_iff, Dict.mem_keys]; exact torn_mem hL.2.2.1
  by_cases hnd : nd = 1
  · obtain ⟨e, c', e1, e2, e3⟩ := loadVecs_spoiled (denv := denv) h3 (by rw [h2]; exact hL) f.ids f.cache
      hmem (by
        intro x hx
        rw [h5, (hg _).mem_iff, Dict.mem_keys] at hx
        exact left_own hL x hx) h6 h7
    have hne : f.ids.isEmpty = false := by
      cases hf : f.ids with
      | nil => rw [hf] at hmem; simp at hmem
      | cons => rfl
    have es : Flat.search env (diskBackend denv) nd q k f s =
        (.error .index, { f with cache := c' }, s) := by
      simp [Flat.search, h4, hnd, hne, e1]
    refine ⟨⟨({ f with cache := c' }, s), true⟩, ?_, rfl, h2, hcnt, h3, h4, h5, e2, e3⟩
    simp only [Client.ask, Client.request, Bool.not_true, Bool.false_eq_true, if_false, flatParts, es, fwd]
  · have es : Flat.search env (diskBackend denv) nd q k f s = (.error .index, f, s) := by
      simp [Flat.search, h4, hnd]
    refine ⟨⟨(f, s), true⟩, ?_, rfl, h2, hcnt, h3, h4, h5, h6, h7⟩
    simp only [Client.ask, Client.request, Bool.not_true, Bool.false_eq_true, if_false, flatParts, es, fwd]

/-- Deleting the unreadable item heals the database. -/
theorem spoiled_heal {denv : DiskEnv M} (hg : ∀ l, (denv.glob l).Perm l) (env : FlatEnv V D)
    {d : Dir V M} {id : String} {out : List (Item V M)} (hL : d.Left denv out (some id))
    {c : Client (Flat V × Disk V M)} (h : Spoiled denv d id out c) :
    ∃ c', Client.ask (flatParts env (diskBackend denv)) c (.request (.delete [id])) =
      (.reply (.ok (.flag true)), c') ∧ Sim (diskLawful (V := V) denv hg) ⟨true, out⟩ c' := by
  obtain ⟨⟨f, s⟩, b⟩ := c
  obtain ⟨h1, h2, hcnt, h3, h4, h5, h6, h7⟩ := h
  simp only at h1 h2 hcnt h3 h4 h5 h6 h7
  subst h1
  obtain ⟨hv, hp, ht, ho, hs⟩ := hL
  have hmem : id ∈ f.ids := by
    rw [h5, (hg _).mem_iff, Dict.mem_keys]; exact torn_mem ht
  have ed : (diskBackend denv).delete s id =
      (.ok true, ⟨d.erased id, (d.erased id).vec.length, true⟩) := by
    have := Disk.delete_ready (env := denv) (s := s) h3 (id := id) (by rw [ho, h2]; exact torn_mem ht)
    rw [ho, h2] at this; exact this
  obtain ⟨s', hs'⟩ : ∃ s' : Disk V M, s' = ⟨d.erased id, (d.erased id).vec.length, true⟩ := ⟨_, rfl⟩
  obtain ⟨f', hf'⟩ : ∃ f' : Flat V, f' = ⟨removeFirst f.ids id, f.cache.pop id, (removeFirst f.ids id).length,
    true⟩ := ⟨_, rfl⟩
  have ef : Flat.delete (diskBackend denv) [id] f s = (.ok true, f', s') := by
    rw [hf', hs']
    simp [Flat.delete, Flat.deleteLoop, h4, ed, hmem]
  have hnd : (denv.glob d.vec.keys).Nodup := (hg _).nodup_iff.2 hv
  have hrem : f'.ids = (denv.glob d.vec.keys).filter (fun x => decide (x ≠ id)) := by
    rw [hf']
    simp only [removeFirst, h5]
    rw [hnd.erase_eq_filter]
    congr 1; funext x; simp [bne]
    rfl
  -- the items in the order of the index
  let live' : List (Item V M) := f'.ids.filterMap fun x => (Live.find out x).map fun y => ⟨x, y.1, y.2⟩
  have hids_mem : ∀ x, x ∈ f'.ids ↔ (Live.find out x).isSome = true := by
    intro x
    rw [hrem, List.mem_filter, (hg _).mem_iff, Dict.mem_keys, ← hs.cont, Dir.content_isSome hs.ok]
    simp only [Dir.erased, Dict.mem, Dict.get?_pop hv, decide_eq_true_eq]
    by_cases hx : x = id
    · simp [hx]
    · simp [hx]
  have hids : Live.idsOf live' = f'.ids := by
    simp only [live', Live.idsOf, List.map_filterMap]
    rw [filterMap_eq_map (g := fun x => x)]
    · simp
    · intro x hx
      obtain ⟨y, hy⟩ := Option.isSome_iff_exists.1 ((hids_mem x).1 hx)
      simp [hy]
  have hnd' : (Live.idsOf live').Nodup := by rw [hids, hrem]; exact hnd.filter _
  have hitem : ∀ x ∈ live', Live.find out x.id = some (x.vec, x.md) := by
    intro x hx
    simp only [live', List.mem_filterMap, Option.map_eq_some_iff] at hx
    obtain ⟨y, _, z, hz, rfl⟩ := hx
    exact hz
  have hfind : ∀ x, Live.find live' x = Live.find out x := by
    intro x
    cases hc : Live.find out x with
    | none => rw [Live.find_eq_none, hids, hids_mem, hc]; simp
    | some y =>
      have : x ∈ Live.idsOf live' := by rw [hids, hids_mem, hc]; rfl
      obtain ⟨z, hz, rfl⟩ := List.mem_map.1 this
      rw [Live.find_mem hnd' hz, ← hitem z hz, hc]
  refine ⟨⟨(f', s'), true⟩, ?_, rfl, fun _ => ⟨live', ?_, ⟨⟨?_, hids.symm, hnd', ?_, ?_, ?_⟩, ?_⟩⟩,
    fun h => by cases h⟩
  · simp only [Client.ask, Client.request, Bool.not_true, Bool.false_eq_true, if_false, flatParts, ef, fwd]
  · exact find_perm_of_eq hs.nd hnd' fun x => (hfind x).symm
  · rw [hf']
  · intro x hx w hw
    rw [hf'] at hw
    simp only at hw
    have hw' : f.cache.get? x.id = some w := by
      by_cases hxi : x.id = id
      · exfalso
        have := hitem x hx
        rw [hxi, ← hs.cont] at this
        simp [Dir.content, Dir.erased, Dict.get?_pop hv] at this
      · rw [Dict.get?_pop_ne _ hxi] at hw; exact hw
    obtain ⟨m, hm⟩ := h7 _ _ hw'
    rw [hitem x hx] at hm
    simp at hm
    exact hm.1.symm
  · rw [hs']; exact inv_of_shows hg hs _ rfl
  · rw [hs']
    funext x
    rw [hfind, ← hs.cont]
    rfl
  · rw [hf']
    simp only
    have := congrArg List.length hids
    rw [hf'] at this
    simp only [Live.idsOf, List.length_map] at this
    exact this.symm

/-! ## What a new process finds -/

/-- A client finds exactly these items: from the first call on all its answers are right for them. -/
def Finds [LinearOrder D] (env : FlatEnv V D) (denv : DiskEnv M) (c : Client (Flat V × Disk V M))
    (out : List (Item V M)) : Prop :=
  ∀ h, Db.HistOk (OwnName denv) (fun m => denv.picklable m = true) false ⟨false, out⟩ h →
    Db.AllRight false env.dist (flatFails env) ⟨false, out⟩ h
      ((Client.converse (flatParts env (diskBackend denv)) c h).1.map seen)

/-- A client cannot search: it opens, and every search raises.  When `id` is deleted, which is answered
with yes, it has exactly the given items, and from then on all its answers are right. -/
def FindsBroken [LinearOrder D] (env : FlatEnv V D) (denv : DiskEnv M) (c : Client (Flat V × Disk V M))
    (id : String) (out : List (Item V M)) : Prop :=
  ∀ (qs : List (Nat × V × Int)) h,
    Db.HistOk (OwnName denv) (fun m => denv.picklable m = true) false ⟨true, out⟩ h →
    ∃ as, (Client.converse (flatParts env (diskBackend denv)) c
        (.init :: qs.map (fun q => .request (.search q.1 q.2.1 q.2.2)) ++
          .request (.delete [id]) :: h)).1.map seen =
        .done :: qs.map (fun _ => .raised) ++ .flag true :: as ∧
      Db.AllRight false env.dist (flatFails env) ⟨true, out⟩ h as

theorem finds_left [LinearOrder D] {denv : DiskEnv M} (hg : ∀ l, (denv.glob l).Perm l)
    (env : FlatEnv V D) (ha : IsArgsort env.argsort) {d : Dir V M} {out : List (Item V M)}
    (h : d.Shows denv out) : Finds env denv ⟨(Flat.new, Disk.opened d), false⟩ out := by
  intro hist hok
  refine C194_exact_database (diskLawful denv hg) false (C194_disk denv hg) env ha (Disk.opened d) out
    h.nd (inv_of_shows hg h _ rfl) ?_ hist hok
  intro id
  exact h.cont id

theorem broken_left [LinearOrder D] {denv : DiskEnv M} (hg : ∀ l, (denv.glob l).Perm l)
    (env : FlatEnv V D) (ha : IsArgsort env.argsort) {d : Dir V M} {id : String} {out : List (Item V M)}
    (hL : d.Left denv out (some id)) :
    FindsBroken env denv ⟨(Flat.new, Disk.opened d), false⟩ id out := by
  intro qs h hok
  have key : ∀ (qs : List (Nat × V × Int)) (c : Client (Flat V × Disk V M)), Spoiled denv d id out c →
      ∃ as, (Client.converse (flatParts env (diskBackend denv)) c
          (qs.map (fun q => .request (.search q.1 q.2.1 q.2.2)) ++
            .request (.delete [id]) :: h)).1.map seen =
          qs.map (fun _ => .raised) ++ .flag true :: as ∧
        Db.AllRight false env.dist (flatFails env) ⟨true, out⟩ h as := by
    intro qs
    induction qs with
    | nil =>
      intro c hc
      obtain ⟨c', e, hs⟩ := spoiled_heal hg env hL hc
      refine ⟨_, ?_, sim_history (C194_disk denv hg) env ha h _ c' hs hok⟩
      simp only [List.map_nil, List.nil_append, Client.converse, e, List.map_cons, seen]
    | cons q qs ih =>
      intro c hc
      obtain ⟨c', e, hs⟩ := spoiled_search hg env hL hc q.1 q.2.1 q.2.2
      obtain ⟨as, e2, e3⟩ := ih c' hs
      refine ⟨as, ?_, e3⟩
      simp only [List.map_cons, List.cons_append, Client.converse, e, seen, e2]
  obtain ⟨c0, hc0⟩ : ∃ c0 : Client (Flat V × Disk V M), c0 =
    ⟨(⟨denv.glob d.vec.keys, [], (denv.glob d.vec.keys).length, true⟩, ⟨d, d.vec.length, true⟩), true⟩ :=
    ⟨_, rfl⟩
  have e : Client.ask (flatParts env (diskBackend denv)) ⟨(Flat.new, Disk.opened d), false⟩ .init =
      (.unit (.ok ()), c0) := by rw [hc0]; rfl
  obtain ⟨as, e2, e3⟩ := key qs c0 (by
    rw [hc0]
    exact ⟨rfl, rfl, rfl, rfl, rfl, rfl, rfl, fun x v h => by simp [Dict.get?] at h⟩)
  refine ⟨as, ?_, e3⟩
  simp only [List.cons_append, Client.converse, e, List.map_cons, seen, e2]

/-- The ids of new vectors name no file that is left over (they are made by uuid4). -/
def NewNames (d : Dir V M) : ClCall (IxCall V M) → Prop
  | .request (.insert _ rows _) => ∀ r ∈ rows, d.pkl.get? r.1 = none
  | _ => True

theorem writes_clear {denv : DiskEnv M} {d : Dir V M} (db : Db V M) (hd : d.Shows denv db.live)
    (x : ClCall (IxCall V M)) (hx : NewNames d x) : ∀ w ∈ writesOf db x, w.Clear d := by
  intro w hw
  cases x with
  | init => simp [writesOf] at hw
  | close => simp [writesOf] at hw
  | request q =>
    simp only [writesOf] at hw
    split at hw
    · cases q with
      | insert nd rows mds =>
        simp only at hw
        split at hw
        · simp only [storesOf, List.mem_map] at hw
          obtain ⟨y, hy, rfl⟩ := hw
          obtain ⟨⟨r, k1, k2⟩, -⟩ := items_mem rows 0 hy
          intro _
          have := hx r k1
          rw [k2] at this
          exact this
        · simp at hw
      | delete ids =>
        simp only [List.mem_map] at hw
        obtain ⟨id, -, rfl⟩ := hw
        trivial
      | update id v m =>
        simp only at hw
        split at hw
        · next hl =>
          simp at hw
          subst hw
          intro hm
          have hm : d.vec.mem id = false := hm
          rw [hd.mem, hl] at hm
          cases hm
        · simp at hw
      | search => simp at hw
    · simp at hw

section main
variable [LinearOrder D] (denv : DiskEnv M) (hg : ∀ l, (denv.glob l).Perm l) (env : FlatEnv V D)
  (ha : IsArgsort env.argsort) (s : Disk V M) (live : List (Item V M)) (hn : (live.map Item.id).Nodup)
  (hs : (diskLawful (V := V) denv hg).inv (Disk.init s))
  (hl : ∀ id, (diskLawful (V := V) denv hg).content (Disk.init s) id = Live.find live id)

/-- The client after a history that began on the storage `s` (harness). -/
def clientAfter (env : FlatEnv V D) (denv : DiskEnv M) (s : Disk V M) (h : List (ClCall (IxCall V M))) :
    Client (Flat V × Disk V M) :=
  (Client.converse (flatParts env (diskBackend denv)) ⟨(Flat.new, s), false⟩ h).2

include ha hn hs hl in
theorem sim_clientAfter (h : List (ClCall (IxCall V M)))
    (hok : Db.HistOk (OwnName denv) (fun m => denv.picklable m = true) false ⟨false, live⟩ h) :
    Sim (diskLawful (V := V) denv hg) (Db.after false ⟨false, live⟩ h) (clientAfter env denv s h) :=
  sim_after hg env ha h ⟨false, live⟩ ⟨(Flat.new, s), false⟩
    ⟨rfl, (fun h => by cases h), fun _ => ⟨rfl, hn, hs, hl⟩⟩ hok

include ha hn hs hl in
/-- **C216** (partial: what is left of the call, instead of all or nothing) A database on disk after the
death of its process.  A client over a flat index on disk storage had any history `h` and dies during a
further call `x`, after any number of file steps.  Then all earlier calls are complete, and the call `x`
is done up to some point of its sequence of edits.  Either a new client finds exactly these items, with
all answers right from then on; or one item of the call is half written: then the client opens but every
search raises, until that item is deleted, after which all answers are right. -/
theorem C216_after_death_partial (h : List (ClCall (IxCall V M))) (x : ClCall (IxCall V M))
    (hok : Db.HistOk (OwnName denv) (fun m => denv.picklable m = true) false ⟨false, live⟩ (h ++ [x]))
    (hnew : NewNames (clientAfter env denv s h).w.2.dir x) (n : Nat) :
    ∃ out bad, Edit.Interrupted (Db.after false ⟨false, live⟩ h).live
        (Edit.ofCall (Db.after false ⟨false, live⟩ h) x) out bad ∧
      match bad with
      | none => Finds env denv (Client.died env denv (clientAfter env denv s h) x n) out
      | some id => FindsBroken env denv (Client.died env denv (clientAfter env denv s h) x n) id out := by
  obtain ⟨ok1, ok2⟩ := histOk_append h [x] _ hok
  have hsim := sim_clientAfter denv hg env ha s live hn hs hl h ok1
  obtain ⟨hsh, hi⟩ := sim_shows hg hsim
  have et := tape_eq env denv (clientAfter env denv s h) (Db.after false ⟨false, live⟩ h) hsim.1 hi
    (fun _ id _ => hsh.mem id) x ok2.1
  obtain ⟨out, bad, e1, e2⟩ := seq_cut (writesOf (Db.after false ⟨false, live⟩ h) x) hsh
    (writes_fit _ x ok2.1) (writes_clear _ hsh x hnew) n
  rw [writesOf_edit] at e1
  refine ⟨out, bad, e1, ?_⟩
  simp only [Client.died, et]
  cases bad with
  | none => exact finds_left hg env ha e2
  | some id => exact broken_left hg env ha e2

include ha hn hs hl in
/-- **C216, refuted:** a death leaves a database that can be searched.  Every insert of at least one vector
has a moment at which it does not: the new client opens, and every search raises until the first id of the
batch, which nobody was told, is deleted. -/
theorem C216_unsearchable_refuted (h : List (ClCall (IxCall V M))) (id : String) (v : V)
    (rows : List (String × V)) (mds : Option (List (Option M)))
    (hok : Db.HistOk (OwnName denv) (fun m => denv.picklable m = true) false ⟨false, live⟩
      (h ++ [.request (.insert 2 ((id, v) :: rows) mds)]))
    (hopen : (Db.after false ⟨false, live⟩ h).isOpen = true) :
    FindsBroken env denv (Client.died env denv (clientAfter env denv s h)
      (.request (.insert 2 ((id, v) :: rows) mds)) 1) id (Db.after false ⟨false, live⟩ h).live := by
  obtain ⟨ok1, ok2⟩ := histOk_append h _ _ hok
  have hsim := sim_clientAfter denv hg env ha s live hn hs hl h ok1
  obtain ⟨hsh, hi⟩ := sim_shows hg hsim
  have et := tape_eq env denv (clientAfter env denv s h) (Db.after false ⟨false, live⟩ h) hsim.1 hi
    (fun _ id _ => hsh.mem id) (.request (.insert 2 ((id, v) :: rows) mds)) ok2.1
  obtain ⟨-, c2, -⟩ := ok2.1 hopen
  obtain ⟨n1, n2, n3⟩ := c2 (id, v) (by simp)
  simp only at n1 n2 n3
  have n2' : sanitize denv id = id := n2
  have e1 : ((seqSteps denv (clientAfter env denv s h).w.2.dir (writesOf (Db.after false ⟨false, live⟩ h)
      (.request (.insert 2 ((id, v) :: rows) mds)))).take 1) = [.vecTorn id] := by
    simp only [writesOf, hopen, if_true, storesOf, Live.items, List.map_cons, seqSteps, Disk.Write.steps,
      n1, if_false, n2', Disk.writeSteps]
    cases Live.mdAt mds 0 with
    | none => simp
    | some m => simp only; split <;> simp
  simp only [Client.died, et, e1]
  have e2 : Live.remove (Db.after false ⟨false, live⟩ h).live id = (Db.after false ⟨false, live⟩ h).live := by
    unfold Live.remove
    rw [List.filter_eq_self]
    intro y hy
    simp only [decide_eq_true_eq]
    intro e
    rw [Live.has_false_iff] at n3
    exact n3 (List.mem_map.2 ⟨y, hy, e⟩)
  have := hsh.torn_vec n2'
  rw [e2] at this
  exact broken_left hg env ha this

include ha hn hs hl in
/-- **C216, refuted:** a call that died is done or not done.  Every insert of several vectors has a moment
at which exactly the first one is in the database. -/
theorem C216_half_batch_refuted (h : List (ClCall (IxCall V M))) (id : String) (v : V)
    (rows : List (String × V)) (mds : Option (List (Option M)))
    (hok : Db.HistOk (OwnName denv) (fun m => denv.picklable m = true) false ⟨false, live⟩
      (h ++ [.request (.insert 2 ((id, v) :: rows) mds)]))
    (hopen : (Db.after false ⟨false, live⟩ h).isOpen = true) :
    ∃ n, Finds env denv (Client.died env denv (clientAfter env denv s h)
      (.request (.insert 2 ((id, v) :: rows) mds)) n)
      ((Db.after false ⟨false, live⟩ h).live ++ [⟨id, v, Live.mdAt mds 0⟩]) := by
  obtain ⟨ok1, ok2⟩ := histOk_append h _ _ hok
  have hsim := sim_clientAfter denv hg env ha s live hn hs hl h ok1
  obtain ⟨hsh, hi⟩ := sim_shows hg hsim
  have et := tape_eq env denv (clientAfter env denv s h) (Db.after false ⟨false, live⟩ h) hsim.1 hi
    (fun _ id _ => hsh.mem id) (.request (.insert 2 ((id, v) :: rows) mds)) ok2.1
  obtain ⟨-, c2, c3⟩ := ok2.1 hopen
  obtain ⟨n1, n2, n3⟩ := c2 (id, v) (by simp)
  simp only at n1 n2 n3
  have n2' : sanitize denv id = id := n2
  have hp : ∀ m, Live.mdAt mds 0 = some m → denv.picklable m = true := by
    intro m hm
    obtain ⟨l, rfl, hl⟩ := mdAt_mem hm
    exact c3 l rfl m hl
  refine ⟨((Disk.Write.store id v (Live.mdAt mds 0)).steps denv (clientAfter env denv s h).w.2.dir).length, ?_⟩
  simp only [Client.died, et]
  simp only [writesOf, hopen, if_true, storesOf, Live.items, List.map_cons, seqSteps, List.take_left']
  have e : runSteps (clientAfter env denv s h).w.2.dir
      ((Disk.Write.store id v (Live.mdAt mds 0)).steps denv (clientAfter env denv s h).w.2.dir) =
      (clientAfter env denv s h).w.2.dir.written id v (Live.mdAt mds 0) := by
    simp only [Disk.Write.steps, n1, if_false, n2']
    exact (Disk.writeSteps_done _ id v _ hp).2
  rw [e]
  have := hsh.written n2' v (Live.mdAt mds 0)
  rw [Edit.write, n3] at this
  exact finds_left hg env ha this

include ha hn hs hl in
/-- **C216, refuted:** after a death an item has the vector and the metadata of one call.  Every update of a
live vector has a moment at which the new vector stands with the old metadata. -/
theorem C216_mixed_refuted (h : List (ClCall (IxCall V M))) (id : String) (v : V) (m : Option M)
    (hok : Db.HistOk (OwnName denv) (fun m => denv.picklable m = true) false ⟨false, live⟩
      (h ++ [.request (.update id v m)]))
    (hopen : (Db.after false ⟨false, live⟩ h).isOpen = true)
    (hlive : Live.has (Db.after false ⟨false, live⟩ h).live id = true) :
    Finds env denv (Client.died env denv (clientAfter env denv s h) (.request (.update id v m)) 2)
      (Live.replace (Db.after false ⟨false, live⟩ h).live id v
        (Edit.metaAt (Db.after false ⟨false, live⟩ h).live id)) := by
  obtain ⟨ok1, ok2⟩ := histOk_append h _ _ hok
  have hsim := sim_clientAfter denv hg env ha s live hn hs hl h ok1
  obtain ⟨hsh, hi⟩ := sim_shows hg hsim
  have et := tape_eq env denv (clientAfter env denv s h) (Db.after false ⟨false, live⟩ h) hsim.1 hi
    (fun _ id _ => hsh.mem id) (.request (.update id v m)) ok2.1
  obtain ⟨c1, c2⟩ := ok2.1 hopen
  have n2' : sanitize denv id = id := c1
  have hm : (clientAfter env denv s h).w.2.dir.vec.mem id = true := by rw [hsh.mem]; exact hlive
  simp only [Client.died, et]
  simp only [writesOf, hopen, if_true, hlive, seqSteps, List.append_nil, Disk.Write.steps, n2', hm]
  have e : runSteps (clientAfter env denv s h).w.2.dir
      (((Disk.writeSteps denv (clientAfter env denv s h).w.2.dir id v m).1).take 2) =
      ⟨(clientAfter env denv s h).w.2.dir.vec.set id (.good v), (clientAfter env denv s h).w.2.dir.pkl⟩ := by
    cases m with
    | none => simp [Disk.writeSteps, runSteps, FsStep.run, Dict.set_set]
    | some y => simp [Disk.writeSteps, c2 y rfl, runSteps, FsStep.run, Dict.set_set]
  rw [e]
  have := hsh.mixed n2' (fun hf => by rw [hm] at hf; cases hf) v
  rw [Edit.write, if_pos hlive] at this
  exact finds_left hg env ha this

end main

/-- One vector is in the database, another is being inserted. -/
example :
    let s : Disk Nat Nat := Disk.opened (emptyDir Nat Nat)
    let h : List (ClCall (IxCall Nat Nat)) := [.init, .request (.insert 2 [("a", 3)] (some [some 1]))]
    let x : ClCall (IxCall Nat Nat) := .request (.insert 2 [("b", 8), ("c", 9)] (some [some 2]))
    Db.HistOk (OwnName exEnv) (fun m => exEnv.picklable m = true) false (⟨false, []⟩ : Db Nat Nat) (h ++ [x]) ∧
    NewNames (clientAfter exFlat exEnv s h).w.2.dir x ∧
    (Db.after false ⟨false, []⟩ h).isOpen = true ∧
    (Client.tape exFlat exEnv (clientAfter exFlat exEnv s h) x).length = 6 ∧
    (Client.converse (flatParts exFlat (diskBackend exEnv))
      (Client.died exFlat exEnv (clientAfter exFlat exEnv s h) x 3)
      [.init, .request (.search 1 4 2), .request (.delete ["b"]), .request (.search 1 4 2)]).1.map seen =
      [.done, .raised, .flag true, .hits [⟨"a", 1, some 1⟩]] := by
  refine ⟨?_, ?_, rfl, by decide +kernel, by decide +kernel⟩
  · simp [Db.HistOk, Db.next, Live.CallOk, Live.next, Live.items, Live.has, OwnName]
    decide +kernel
  · intro r hr
    simp at hr
    rcases hr with rfl | rfl <;> decide +kernel

end Valori.Props
