import Verif.Model.CrashHybrid
import Verif.Props.Crash
import Verif.Props.ClientStats

/-!
# Property C224: a hybrid database after the death of its process
-/

namespace Valori.Props
open Valori Valori.Spec

variable {V M D : Type} [ByteSize V] [ByteSize M]

/-! ## The file steps of a call -/

section tape
variable {denv : DiskEnv M} (hg : ∀ l, (denv.glob l).Perm l)

theorem hyb_parts {s : Hyb V M} (h : (hybLawful (V := V) denv hg).inv s) :
    s.inited = true ∧ s.mem.inited = true ∧ s.disk.inited = true := by
  obtain ⟨h1, h2, -⟩ := h
  have h1 : Hyb.Inv denv (OwnName denv) s := h1
  have h2 : s.inited = true := h2
  exact ⟨h2, h1.mi.trans h2, h1.di.trans h2⟩

theorem hyb_store_disk {s : Hyb V M} (hi : s.inited = true) {id : String} (hid : id ≠ "") (v : V)
    (m : Option M) : (s.store denv id v m).2.disk = (s.disk.store denv id v m).2 := by
  simp only [Hyb.store, hid, hi, if_false, Bool.not_true, Bool.false_eq_true]
  generalize s.disk.store denv id v m = r
  rcases r with ⟨_ | _ | _, d⟩
  · rfl
  · rfl
  · simp only
    generalize Hyb.remember s.mem s.limit id v m = r
    rcases r with ⟨_ | _, _⟩ <;> rfl

theorem mem_delete_ok {s : Mem V M} (hi : s.inited = true) (id : String) : ∃ b, (s.delete id).1 = .ok b := by
  simp only [Mem.delete, hi, Bool.not_true, Bool.false_eq_true, if_false]
  split <;> exact ⟨_, rfl⟩

theorem hyb_delete_disk {s : Hyb V M} (hi : s.inited = true) (hm : s.mem.inited = true) (id : String) :
    (s.delete denv id).2.disk = (s.disk.delete denv id).2 := by
  obtain ⟨b, hb⟩ := mem_delete_ok hm id
  simp only [Hyb.delete, hi, Bool.not_true, Bool.false_eq_true, if_false]
  generalize s.mem.delete id = r at hb
  rcases r with ⟨_ | _, mm⟩
  · cases hb
  · simp only
    generalize s.disk.delete denv id = r
    rcases r with ⟨_ | _, _⟩ <;> rfl

theorem insertLoop_tapeH (mds : Option (List (Option M))) (rows : List (String × V)) :
    ∀ (i : Nat) (f : Flat V) (s : Hyb V M) (t : List (FsStep V M)), (hybLawful (V := V) denv hg).inv s →
      (∀ x ∈ Live.items mds i rows, OwnName denv x.id ∧ x.id ≠ "" ∧
        ∀ m, x.md = some m → denv.picklable m = true) →
      (Flat.insertLoop (tapeHyb denv) mds i rows f (s, t)).2.2.2 =
        t ++ seqSteps denv s.disk.dir (storesOf mds i rows) := by
  induction rows with
  | nil => intro i f s t _ _; simp [Flat.insertLoop, storesOf, Live.items, seqSteps]
  | cons r rows ih =>
    obtain ⟨id, v⟩ := r
    intro i f s t hs hx
    obtain ⟨hi, hm, hd⟩ := hyb_parts hg hs
    have h0 := hx ⟨id, v, Live.mdAt mds i⟩ (by simp [Live.items])
    obtain ⟨s', e, hinv, -⟩ := (hybLawful (V := V) denv hg).store (v := v) hs h0.1 h0.2.1 h0.2.2
    have e : s.store denv id v (Live.mdAt mds i) = (.ok true, s') := e
    have ed := Disk.Write.exec_dir (env := denv) s.disk (.store id v (Live.mdAt mds i)) hd
    simp only [Disk.Write.exec] at ed
    have hdd := hyb_store_disk (denv := denv) hi h0.2.1 v (Live.mdAt mds i)
    rw [e] at hdd
    have e2 : (tapeHyb denv).store (s, t) id v (rowMeta mds i) =
        (.ok true, (s', t ++ (Disk.Write.store id v (Live.mdAt mds i)).steps denv s.disk.dir)) := by
      have hne : ¬ (id = "" ∨ s.inited = false) := by
        rintro (h | h)
        · exact h0.2.1 h
        · rw [hi] at h; cases h
      simp only [tapeHyb, Live.mdAt_eq_rowMeta, e, Disk.stepsOf, hd, if_true, if_neg hne]
    simp only [Flat.insertLoop, e2]
    have := ih (i + 1) { f with ids := f.ids ++ [id], cache := f.cache.set id v } s'
      (t ++ (Disk.Write.store id v (Live.mdAt mds i)).steps denv s.disk.dir) hinv
      (fun x hx' => hx x (by simp [Live.items, hx']))
    rw [hdd, ed.1] at this
    simp only [storesOf, Live.items, List.map_cons, seqSteps] at this ⊢
    rw [← List.append_assoc, ← this]
    generalize Flat.insertLoop (tapeHyb denv) mds (i + 1) rows _ _ = r
    rcases r with ⟨_ | _, _⟩ <;> rfl

theorem deleteLoop_tapeH (dels : List String) :
    ∀ (ok : Bool) (f : Flat V) (s : Hyb V M) (t : List (FsStep V M)), (hybLawful (V := V) denv hg).inv s →
      (∀ id ∈ dels, OwnName denv id) →
      (Flat.deleteLoop (tapeHyb denv) dels ok f (s, t)).2.2.2 =
        t ++ seqSteps denv s.disk.dir (dels.map .delete) := by
  induction dels with
  | nil => intro ok f s t _ _; simp [Flat.deleteLoop, seqSteps]
  | cons id dels ih =>
    intro ok f s t hs hx
    obtain ⟨hi, hm, hd⟩ := hyb_parts hg hs
    have ed := Disk.Write.exec_dir (env := denv) s.disk (.delete id) hd
    simp only [Disk.Write.exec] at ed
    obtain ⟨s', e, hinv, -⟩ := (hybLawful (V := V) denv hg).delete hs (hx id (by simp))
    obtain ⟨b, hb⟩ : ∃ b, b = ((hybLawful (V := V) denv hg).content s id).isSome := ⟨_, rfl⟩
    rw [← hb] at e
    have e : s.delete denv id = (.ok b, s') := e
    have hdd := hyb_delete_disk (denv := denv) hi hm id
    rw [e] at hdd
    obtain ⟨b', hb'⟩ := mem_delete_ok hm id
    have e2 : (tapeHyb denv).delete (s, t) id =
        (.ok b, (s', t ++ (Disk.Write.delete id).steps denv s.disk.dir)) := by
      simp only [tapeHyb, e, hi, hb', Disk.stepsOf, hd, if_true, Bool.true_eq_false, if_false]
    simp only [Flat.deleteLoop, e2]
    rw [ih _ _ _ _ hinv (fun x hx' => hx x (by simp [hx'])), hdd, ed.1]
    simp only [List.map_cons, seqSteps, List.append_assoc]

theorem loadVecs_tapeH (denv : DiskEnv M) (ids : List String) :
    ∀ (c : Dict String V) (s : Hyb V M × List (FsStep V M)),
      (loadVecs (tapeHyb denv) ids c s).2.2.2 = s.2 := by
  induction ids with
  | nil => intro c s; rfl
  | cons id ids ih =>
    intro c s
    simp only [loadVecs]
    split
    · have := ih c s
      generalize loadVecs (tapeHyb denv) ids c s = r at this
      rcases r with ⟨_ | _, _, _⟩ <;> exact this
    · have e : ((tapeHyb denv).retrieve s id).2.2 = s.2 := rfl
      generalize (tapeHyb denv).retrieve s id = r at e
      rcases r with ⟨_ | _ | ⟨v, m⟩, s'⟩
      · exact e
      · exact (ih c s').trans e
      · have := ih (c.set id v) s'
        simp only
        generalize loadVecs (tapeHyb denv) ids (c.set id v) s' = r at this
        rcases r with ⟨_ | _, _, _⟩ <;> exact this.trans e

theorem fetchMeta_tapeH (denv : DiskEnv M) (l : List (String × D)) :
    ∀ (s : Hyb V M × List (FsStep V M)), (fetchMeta (tapeHyb denv) l s).2.2 = s.2 := by
  induction l with
  | nil => intro s; rfl
  | cons x l ih =>
    obtain ⟨id, d⟩ := x
    intro s
    simp only [fetchMeta]
    have e : ((tapeHyb denv).retrieve s id).2.2 = s.2 := rfl
    generalize (tapeHyb denv).retrieve s id = r at e
    rcases r with ⟨_ | _ | ⟨v, m⟩, s'⟩
    · exact e
    · exact e
    · have := ih s'
      simp only
      generalize fetchMeta (tapeHyb denv) l s' = r at this
      rcases r with ⟨_ | _, _⟩ <;> exact this.trans e

theorem search_tapeH (env : FlatEnv V D) (denv : DiskEnv M) (nd : Nat) (q : V) (k : Int) (f : Flat V)
    (s : Hyb V M × List (FsStep V M)) :
    (Flat.search env (tapeHyb denv) nd q k f s).2.2.2 = s.2 := by
  simp only [Flat.search]
  split
  · rfl
  · split
    · rfl
    · split
      · rfl
      · have h1 := loadVecs_tapeH denv f.ids f.cache s
        generalize loadVecs (tapeHyb denv) f.ids f.cache s = r at h1
        rcases r with ⟨_ | vs, c, s'⟩
        · exact h1
        · simp only
          split
          · exact h1
          · split
            · exact h1
            · have h2 := fetchMeta_tapeH denv (Flat.ranked env q (min k (f.ids.length : Int)) vs) s'
              generalize fetchMeta (tapeHyb denv) (Flat.ranked env q (min k (f.ids.length : Int)) vs) s' = r at h2
              rcases r with ⟨_ | _, _⟩ <;> exact h2.trans h1

theorem tape_eqH (env : FlatEnv V D) (c : Client (Flat V × Hyb V M)) (db : Db V M)
    (ho : c.inited = db.isOpen)
    (hi : db.isOpen = true → (hybLawful (V := V) denv hg).inv c.w.2 ∧ c.w.1.inited = true)
    (hl : db.isOpen = true → ∀ id, sanitize denv id = id → c.w.2.disk.dir.vec.mem id = Live.has db.live id)
    (x : ClCall (IxCall V M))
    (hx : match x with
      | .request q => db.isOpen = true →
          Live.CallOk (OwnName denv) (fun m => denv.picklable m = true) db.live q
      | _ => True) :
    Client.tapeH env denv c x = seqSteps denv c.w.2.disk.dir (writesOf db x) := by
  obtain ⟨⟨f, s⟩, b⟩ := c
  obtain ⟨o, live⟩ := db
  simp only at ho hi hl
  subst ho
  cases x with
  | init =>
    simp only [Client.tapeH, Client.ask, Client.init, Client.steps, flatParts, writesOf, seqSteps, Flat.init,
      tapeHyb]
    simp only [Hyb.list, Hyb.init, Disk.list, Disk.init, Bool.not_true, Bool.false_eq_true, if_false]
  | close => rfl
  | request q =>
    cases b with
    | false => rfl
    | true =>
      obtain ⟨hs, hf⟩ := hi rfl
      obtain ⟨p1, p2, p3⟩ := hyb_parts hg hs
      have hx := hx rfl
      simp only [Client.tapeH, Client.ask, Client.request, writesOf, Bool.not_true, Bool.false_eq_true,
        if_false, if_true]
      cases q with
      | insert nd rows mds =>
        simp only [flatParts, fwd_state]
        simp only [Flat.insert, hf, Bool.not_true, Bool.false_eq_true, if_false]
        by_cases hnd : nd = 2
        · subst hnd
          simp only [ne_eq, not_true, if_false, if_true]
          have h1 := insertLoop_tapeH hg mds rows 0 f s [] hs (by
            obtain ⟨-, h2, h3⟩ := hx
            intro x hx
            obtain ⟨⟨r, k1, k2⟩, j, k3⟩ := items_mem rows 0 hx
            refine ⟨k2 ▸ (h2 r k1).2.1, k2 ▸ (h2 r k1).1, fun m hm => ?_⟩
            rw [k3] at hm
            obtain ⟨l, rfl, hl⟩ := mdAt_mem hm
            exact h3 l rfl m hl)
          rw [List.nil_append] at h1
          rw [← h1]
          generalize Flat.insertLoop (tapeHyb denv) mds 0 rows f (s, []) = r
          rcases r with ⟨_ | _, _, _⟩ <;> rfl
        · simp only [ne_eq, hnd, not_false_eq_true, if_true, if_false, seqSteps]
      | delete ids =>
        simp only [flatParts, fwd_state]
        simp only [Flat.delete, hf, Bool.not_true, Bool.false_eq_true, if_false]
        have h1 := deleteLoop_tapeH hg ids true f s [] hs hx
        rw [List.nil_append] at h1
        rw [← h1]
        generalize Flat.deleteLoop (tapeHyb denv) ids true f (s, []) = r
        rcases r with ⟨_ | _, _, _⟩ <;> rfl
      | update id v m =>
        simp only [flatParts, fwd_state]
        simp only [Flat.update, hf, Bool.not_true, Bool.false_eq_true, if_false]
        have e : ((tapeHyb denv).update (s, []) id v m).2.2 =
            (Disk.Write.update id v m).steps denv s.disk.dir := by
          simp only [tapeHyb, Disk.stepsOf, p1, p3, if_true, List.nil_append, Bool.true_eq_false, if_false]
        have h2 := hl rfl id hx.1
        have e2 : (Disk.Write.update id v m).steps denv s.disk.dir =
            seqSteps denv s.disk.dir (if Live.has live id = true then [Disk.Write.update id v m] else []) := by
          split
          · simp [seqSteps]
          · next hn =>
            have ho : sanitize denv id = id := hx.1
            simp only [Bool.not_eq_true] at hn
            simp [Disk.Write.steps, ho, h2, hn, seqSteps]
        rw [← e2, ← e]
        generalize (tapeHyb denv).update (s, []) id v m = r
        rcases r with ⟨_ | _ | _, _⟩ <;> rfl
      | search nd q k =>
        simp only [flatParts, fwd_state]
        rw [search_tapeH]
        rfl

end tape

/-! ## Directories and clients -/

section dirs
variable {denv : DiskEnv M} (hg : ∀ l, (denv.glob l).Perm l)

theorem shows_of_invH {s : Hyb V M} {live : List (Item V M)} (hi : (hybLawful (V := V) denv hg).inv s)
    (hn : (Live.idsOf live).Nodup)
    (hc : ∀ id, (hybLawful (V := V) denv hg).content s id = Live.find live id) :
    s.disk.dir.Shows denv live := by
  obtain ⟨h1, h2, h3, h4⟩ := hi
  have h1 : Hyb.Inv denv (OwnName denv) s := h1
  refine ⟨h1.disk.ok, hn, hc, ?_⟩
  intro id hid
  exact h4 id (by
    show (s.disk.dir.content id).isSome = true
    rw [Dir.content_isSome h1.disk.ok]; exact hid)

/-- Open hybrid storage on a directory, with a memory part that agrees with it. -/
theorem inv_of_showsH {d : Dir V M} {live : List (Item V M)} (h : d.Shows denv live) (m : Mem V M)
    (hm : m.Inv) (hi : m.inited = true) (hc : ∀ x y, m.at' x = some y → Live.find live x = some y)
    (limit : Int) : (hybLawful (V := V) denv hg).inv ⟨m, ⟨d, d.vec.length, true⟩, limit, true⟩ := by
  have own : ∀ id, (d.content id).isSome = true → sanitize denv id = id := by
    intro id hid
    rw [Dir.content_isSome h.ok] at hid
    exact h.own id hid
  refine ⟨⟨hm, ⟨h.ok, fun _ => rfl⟩, hi, rfl, ?_⟩, rfl, ⟨h.ok.vnd, ?_⟩, own⟩
  · intro x y hx
    have h1 := hc x y hx
    rw [← h.cont] at h1
    have h2 := own x (by rw [h1]; rfl)
    exact ⟨h2, by rw [h2]; exact h1⟩
  · intro id
    show id ∈ d.vec.keys ↔ (d.content id).isSome = true
    rw [Dir.content_isSome h.ok, Dict.mem_keys]; rfl

theorem sim_showsH {db : Db V M} {c : Client (Flat V × Hyb V M)}
    (h : Sim (hybLawful (V := V) denv hg) db c) :
    c.w.2.disk.dir.Shows denv db.live ∧
      (db.isOpen = true → (hybLawful (V := V) denv hg).inv c.w.2 ∧ c.w.1.inited = true) := by
  obtain ⟨h1, h2, h3⟩ := h
  cases ho : db.isOpen with
  | true =>
    obtain ⟨live, hp, hinv⟩ := h2 ho
    have hn : (Live.idsOf db.live).Nodup := (hp.map Item.id).nodup_iff.2 hinv.nd
    have hc : ∀ id, (hybLawful (V := V) denv hg).content c.w.2 id = Live.find db.live id := by
      intro id; rw [hinv.cont]; exact (find_of_perm hp hn id).symm
    exact ⟨shows_of_invH hg hinv.st hn hc, fun _ => ⟨hinv.st, hinv.inited⟩⟩
  | false =>
    obtain ⟨k1, k2, k3, k4⟩ := h3 ho
    have := shows_of_invH (s := (hybBackend denv).init c.w.2) hg k3 k2 k4
    exact ⟨this, fun h => by cases h⟩

/-! ## A directory with an unreadable file -/

/-- Open hybrid storage beside an unreadable file: nothing wrong is in memory. -/
structure SpoiledStore (denv : DiskEnv M) (d : Dir V M) (out : List (Item V M)) (limit : Int)
    (s : Hyb V M) : Prop where
  isOpen : s.inited = true
  disk : s.disk = ⟨d, d.vec.length, true⟩
  lim : s.limit = limit
  minv : s.mem.Inv
  mopen : s.mem.inited = true
  mcoh : ∀ x y, s.mem.at' x = some y → Live.find out x = some y

omit [ByteSize V] [ByteSize M] in
theorem left_absent {d : Dir V M} {id : String} {out : List (Item V M)}
    (hL : d.Left denv out (some id)) : Live.find out id = none := by
  obtain ⟨hv, hp, -, -, hs⟩ := hL
  rw [← hs.cont]
  simp [Dir.content, Dir.erased, Dict.get?_pop hv]

omit [ByteSize V] [ByteSize M] in
theorem mem_retrieve {m : Mem V M} (hi : m.inited = true) (id : String) :
    m.retrieve id = (.ok (m.at' id), m) := Mem.retrieve_ready hi id

theorem retrieveH_torn {d : Dir V M} {id : String} {out : List (Item V M)} {limit : Int} {s : Hyb V M}
    (hL : d.Left denv out (some id)) (h : SpoiledStore denv d out limit s) :
    s.retrieve denv id = (.error .storage, s) := by
  have hn : s.mem.at' id = none := by
    cases hc : s.mem.at' id with
    | none => rfl
    | some y => have := h.mcoh id y hc; rw [left_absent hL] at this; cases this
  have e := retrieve_torn (denv := denv) (s := s.disk) (id := id) (by rw [h.disk]) hL.2.2.2.1
    (by rw [h.disk]; exact hL.2.2.1)
  obtain ⟨m, dk, l, b⟩ := s
  have := h.isOpen
  simp only at this hn e
  subst this
  have hm := h.mopen
  simp only at hm
  simp only [Hyb.retrieve, Bool.not_true, Bool.false_eq_true, if_false, mem_retrieve hm, hn, e]

theorem retrieveH_beside {d : Dir V M} {id x : String} {out : List (Item V M)} {limit : Int} {s : Hyb V M}
    (hL : d.Left denv out (some id)) (h : SpoiledStore denv d out limit s) (hx : x ≠ id)
    (hox : sanitize denv x = x) :
    ∃ s', s.retrieve denv x = (.ok (Live.find out x), s') ∧ SpoiledStore denv d out limit s' := by
  have e := retrieve_beside (denv := denv) (s := s.disk) (id := id) (x := x) (out := out) (by rw [h.disk])
    (by rw [h.disk]; exact hL) hx hox
  obtain ⟨m, dk, l, b⟩ := s
  have hh := h
  obtain ⟨h1, h2, h3, h4, h5, h6⟩ := h
  simp only at h1 h2 h3 h4 h5 h6 e
  subst h1
  cases hc : m.at' x with
  | some y =>
    refine ⟨⟨m, dk, l, true⟩, ?_, hh⟩
    simp only [Hyb.retrieve, Bool.not_true, Bool.false_eq_true, if_false, mem_retrieve h5, hc, h6 x y hc]
  | none =>
    cases hf : Live.find out x with
    | none =>
      rw [hf] at e
      refine ⟨⟨m, dk, l, true⟩, ?_, hh⟩
      simp only [Hyb.retrieve, Bool.not_true, Bool.false_eq_true, if_false, mem_retrieve h5, hc, e]
    | some y =>
      obtain ⟨v, md⟩ := y
      rw [hf] at e
      obtain ⟨m', e2, i1, i2, i3, -⟩ := Hyb.remember_spec m h4 h5 l x v md
      refine ⟨⟨m', dk, l, true⟩, ?_, rfl, h2, h3, i1, i2, ?_⟩
      · simp only [Hyb.retrieve, Bool.not_true, Bool.false_eq_true, if_false, mem_retrieve h5, hc, e, e2]
      · intro z y hz
        rcases i3 z y hz with ⟨rfl, rfl⟩ | ⟨-, hz⟩
        · exact hf
        · exact h6 z y hz

/-- A client that met an unreadable file: nothing wrong is cached. -/
structure SpoiledH (denv : DiskEnv M) (d : Dir V M) (id : String) (out : List (Item V M)) (limit : Int)
    (c : Client (Flat V × Hyb V M)) : Prop where
  isOpen : c.inited = true
  store : SpoiledStore denv d out limit c.w.2
  fopen : c.w.1.inited = true
  ids : c.w.1.ids = denv.glob d.vec.keys
  fresh : c.w.1.cache.get? id = none
  cache : ∀ x v, c.w.1.cache.get? x = some v → ∃ m, Live.find out x = some (v, m)

theorem loadVecs_spoiledH {d : Dir V M} {id : String} {out : List (Item V M)} {limit : Int}
    (hL : d.Left denv out (some id)) (l : List String) :
    ∀ (c : Dict String V) (s : Hyb V M), SpoiledStore denv d out limit s → id ∈ l →
      (∀ x ∈ l, sanitize denv x = x) → c.get? id = none →
      (∀ x v, c.get? x = some v → ∃ m, Live.find out x = some (v, m)) →
      ∃ e c' s', loadVecs (hybBackend denv) l c s = (.error e, c', s') ∧ SpoiledStore denv d out limit s' ∧
        c'.get? id = none ∧ ∀ x v, c'.get? x = some v → ∃ m, Live.find out x = some (v, m) := by
  induction l with
  | nil => intro c s _ h; simp at h
  | cons x l ih =>
    intro c s hs hid ho hf hc
    by_cases hx : x = id
    · subst hx
      refine ⟨.storage, c, s, ?_, hs, hf, hc⟩
      have e : (hybBackend denv).retrieve s x = (.error .storage, s) := retrieveH_torn hL hs
      simp only [loadVecs, hf, e]
    · have hid' : id ∈ l := by
        rcases List.mem_cons.1 hid with h | h
        · exact absurd h.symm hx
        · exact h
      have ho' : ∀ y ∈ l, sanitize denv y = y := fun y hy => ho y (by simp [hy])
      cases hg : c.get? x with
      | some v =>
        obtain ⟨e, c', s', e1, e2, e3⟩ := ih c s hs hid' ho' hf hc
        exact ⟨e, c', s', by simp only [loadVecs, hg, e1], e2, e3⟩
      | none =>
        obtain ⟨s1, er, hs1⟩ := retrieveH_beside hL hs hx (ho x (by simp))
        have er : (hybBackend denv).retrieve s x = (.ok (Live.find out x), s1) := er
        cases hfd : Live.find out x with
        | none =>
          rw [hfd] at er
          obtain ⟨e, c', s', e1, e2, e3⟩ := ih c s1 hs1 hid' ho' hf hc
          exact ⟨e, c', s', by simp only [loadVecs, hg, er, e1], e2, e3⟩
        | some y =>
          obtain ⟨v, m⟩ := y
          rw [hfd] at er
          obtain ⟨e, c', s', e1, e2, e3⟩ := ih (c.set x v) s1 hs1 hid' ho'
            (by rw [Dict.get?_set, if_neg (fun h => hx h.symm)]; exact hf)
            (by
              intro y w hy
              rw [Dict.get?_set] at hy
              split at hy
              · next h => subst h; simp only [Option.some.injEq] at hy; subst hy; exact ⟨m, hfd⟩
              · exact hc y w hy)
          exact ⟨e, c', s', by simp only [loadVecs, hg, er, e1], e2, e3⟩

include hg in
/-- A search raises and changes nothing that matters. -/
theorem spoiledH_search (env : FlatEnv V D) {d : Dir V M} {id : String} {out : List (Item V M)} {limit : Int}
    (hL : d.Left denv out (some id)) {c : Client (Flat V × Hyb V M)} (h : SpoiledH denv d id out limit c)
    (nd : Nat) (q : V) (k : Int) :
    ∃ c', Client.ask (flatParts env (hybBackend denv)) c (.request (.search nd q k)) =
      (.reply (.error .index), c') ∧ SpoiledH denv d id out limit c' := by
  obtain ⟨⟨f, s⟩, b⟩ := c
  obtain ⟨h1, h3, h4, h5, h6, h7⟩ := h
  simp only at h1 h3 h4 h5 h6 h7
  subst h1
  have hmem : id ∈ f.ids := by
    rw [h5, (hg _).mem_iff, Dict.mem_keys]; exact torn_mem hL.2.2.1
  by_cases hnd : nd = 1
  · obtain ⟨e, c', s', e1, e0, e2, e3⟩ := loadVecs_spoiledH (denv := denv) hL f.ids f.cache s h3
      hmem (by
        intro x hx
        rw [h5, (hg _).mem_iff, Dict.mem_keys] at hx
        exact left_own hL x hx) h6 h7
    have hne : f.ids.isEmpty = false := by
      cases hf : f.ids with
      | nil => rw [hf] at hmem; simp at hmem
      | cons => rfl
    have es : Flat.search env (hybBackend denv) nd q k f s =
        (.error .index, { f with cache := c' }, s') := by
      simp [Flat.search, h4, hnd, hne, e1]
    refine ⟨⟨({ f with cache := c' }, s'), true⟩, ?_, rfl, e0, h4, h5, e2, e3⟩
    simp only [Client.ask, Client.request, Bool.not_true, Bool.false_eq_true, if_false, flatParts, es, fwd]
  · have es : Flat.search env (hybBackend denv) nd q k f s = (.error .index, f, s) := by
      simp [Flat.search, h4, hnd]
    refine ⟨⟨(f, s), true⟩, ?_, rfl, h3, h4, h5, h6, h7⟩
    simp only [Client.ask, Client.request, Bool.not_true, Bool.false_eq_true, if_false, flatParts, es, fwd]

/-- Deleting the unreadable item heals the database. -/
theorem spoiledH_heal (env : FlatEnv V D) {d : Dir V M} {id : String} {out : List (Item V M)} {limit : Int}
    (hL : d.Left denv out (some id)) {c : Client (Flat V × Hyb V M)} (h : SpoiledH denv d id out limit c) :
    ∃ c', Client.ask (flatParts env (hybBackend denv)) c (.request (.delete [id])) =
      (.reply (.ok (.flag true)), c') ∧ Sim (hybLawful (V := V) denv hg) ⟨true, out⟩ c' := by
  have hab := left_absent hL
  obtain ⟨⟨f, ⟨mm, dk, lim, si⟩⟩, b⟩ := c
  obtain ⟨h1, ⟨p1, p2, p3, p4, p5, p6⟩, h4, h5, h6, h7⟩ := h
  simp only at h1 p1 p2 p3 p4 p5 p6 h4 h5 h6 h7
  subst h1 p1 p2
  obtain ⟨hv, hp, ht, ho, hs⟩ := hL
  have hmem : id ∈ f.ids := by
    rw [h5, (hg _).mem_iff, Dict.mem_keys]; exact torn_mem ht
  have ed : Disk.delete denv (⟨d, d.vec.length, true⟩ : Disk V M) id =
      (.ok true, ⟨d.erased id, (d.erased id).vec.length, true⟩) := by
    have := Disk.delete_ready (env := denv) (s := (⟨d, d.vec.length, true⟩ : Disk V M)) rfl (id := id)
      (by rw [ho]; exact torn_mem ht)
    rw [ho] at this; exact this
  have em : mm.delete id = (.ok false, mm) := by
    refine Mem.delete_absent p5 ?_
    have := Mem.content_isSome mm.vectors mm.metadata id
    cases hc : mm.at' id with
    | none => rw [Mem.at'] at hc; rw [hc] at this; exact this.symm
    | some y => have := p6 id y hc; rw [hab] at this; cases this
  obtain ⟨s', hs'⟩ : ∃ s' : Hyb V M, s' = ⟨mm, ⟨d.erased id, (d.erased id).vec.length, true⟩, lim, true⟩ :=
    ⟨_, rfl⟩
  have eh : (hybBackend denv).delete (⟨mm, ⟨d, d.vec.length, true⟩, lim, true⟩ : Hyb V M) id =
      (.ok true, s') := by
    rw [hs']
    show Hyb.delete denv (⟨mm, ⟨d, d.vec.length, true⟩, lim, true⟩ : Hyb V M) id = _
    simp only [Hyb.delete, Bool.not_true, Bool.false_eq_true, if_false, em, ed, Bool.or_true]
  obtain ⟨f', hf'⟩ : ∃ f' : Flat V, f' = ⟨removeFirst f.ids id, f.cache.pop id, (removeFirst f.ids id).length,
    true⟩ := ⟨_, rfl⟩
  have ef : Flat.delete (hybBackend denv) [id] f ⟨mm, ⟨d, d.vec.length, true⟩, lim, true⟩ =
      (.ok true, f', s') := by
    rw [hf']
    simp [Flat.delete, Flat.deleteLoop, h4, eh, hmem]
  have hnd : (denv.glob d.vec.keys).Nodup := (hg _).nodup_iff.2 hv
  have hrem : f'.ids = (denv.glob d.vec.keys).filter (fun x => decide (x ≠ id)) := by
    rw [hf']
    simp only [removeFirst, h5]
    rw [hnd.erase_eq_filter]
    congr 1; funext x; simp [bne]
    rfl
  let live' : List (Item V M) := f'.ids.filterMap fun x => (Live.find out x).map fun y => ⟨x, y.1, y.2⟩
  have hids_mem : ∀ x, x ∈ f'.ids ↔ (Live.find out x).isSome = true := by
    intro x
    rw [hrem, List.mem_filter, (hg _).mem_iff, Dict.mem_keys, ← hs.cont, Dir.content_isSome hs.ok]
    simp only [Dir.erased, Dict.mem, Dict.get?_pop hv, decide_eq_true_eq]
    by_cases hx : x = id
    · simp [hx]
    · simp [hx]
  have hids : Live.idsOf live' = f'.ids := by
    simp only [live', Live.idsOf, List.map_filterMap]
    rw [filterMap_eq_map (g := fun x => x)]
    · simp
    · intro x hx
      obtain ⟨y, hy⟩ := Option.isSome_iff_exists.1 ((hids_mem x).1 hx)
      simp [hy]
  have hnd' : (Live.idsOf live').Nodup := by rw [hids, hrem]; exact hnd.filter _
  have hitem : ∀ x ∈ live', Live.find out x.id = some (x.vec, x.md) := by
    intro x hx
    simp only [live', List.mem_filterMap, Option.map_eq_some_iff] at hx
    obtain ⟨y, _, z, hz, rfl⟩ := hx
    exact hz
  have hfind : ∀ x, Live.find live' x = Live.find out x := by
    intro x
    cases hc : Live.find out x with
    | none => rw [Live.find_eq_none, hids, hids_mem, hc]; simp
    | some y =>
      have : x ∈ Live.idsOf live' := by rw [hids, hids_mem, hc]; rfl
      obtain ⟨z, hz, rfl⟩ := List.mem_map.1 this
      rw [Live.find_mem hnd' hz, ← hitem z hz, hc]
  refine ⟨⟨(f', s'), true⟩, ?_, rfl, fun _ => ⟨live', ?_, ⟨⟨?_, hids.symm, hnd', ?_, ?_, ?_⟩, ?_⟩⟩,
    fun h => by cases h⟩
  · simp only [Client.ask, Client.request, Bool.not_true, Bool.false_eq_true, if_false, flatParts, ef, fwd]
  · exact find_perm_of_eq hs.nd hnd' fun x => (hfind x).symm
  · rw [hf']
  · intro x hx w hw
    rw [hf'] at hw
    simp only at hw
    have hw' : f.cache.get? x.id = some w := by
      by_cases hxi : x.id = id
      · exfalso
        have := hitem x hx
        rw [hxi, hab] at this
        cases this
      · rw [Dict.get?_pop_ne _ hxi] at hw; exact hw
    obtain ⟨m, hm⟩ := h7 _ _ hw'
    rw [hitem x hx] at hm
    simp at hm
    exact hm.1.symm
  · rw [hs']; exact inv_of_showsH hg hs _ p4 p5 p6 _
  · rw [hs']
    funext x
    rw [hfind, ← hs.cont]
    rfl
  · rw [hf']
    simp only
    have := congrArg List.length hids
    rw [hf'] at this
    simp only [Live.idsOf, List.length_map] at this
    exact this.symm

end dirs

/-! ## What a new process finds -/

/-- A client on hybrid storage finds exactly these items: from the first call on all its answers are right
for them. -/
def FindsH [LinearOrder D] (env : FlatEnv V D) (denv : DiskEnv M) (c : Client (Flat V × Hyb V M))
    (out : List (Item V M)) : Prop :=
  ∀ h, Db.HistOk (OwnName denv) (fun m => denv.picklable m = true) false ⟨false, out⟩ h →
    Db.AllRight false env.dist (flatFails env) ⟨false, out⟩ h
      ((Client.converse (flatParts env (hybBackend denv)) c h).1.map seen)

/-- A client on hybrid storage cannot search: it opens, and every search raises.  When `id` is deleted,
which is answered with yes, it has exactly the given items, and from then on all its answers are right. -/
def FindsBrokenH [LinearOrder D] (env : FlatEnv V D) (denv : DiskEnv M) (c : Client (Flat V × Hyb V M))
    (id : String) (out : List (Item V M)) : Prop :=
  ∀ (qs : List (Nat × V × Int)) h,
    Db.HistOk (OwnName denv) (fun m => denv.picklable m = true) false ⟨true, out⟩ h →
    ∃ as, (Client.converse (flatParts env (hybBackend denv)) c
        (.init :: qs.map (fun q => .request (.search q.1 q.2.1 q.2.2)) ++
          .request (.delete [id]) :: h)).1.map seen =
        .done :: qs.map (fun _ => .raised) ++ .flag true :: as ∧
      Db.AllRight false env.dist (flatFails env) ⟨true, out⟩ h as

theorem finds_leftH [LinearOrder D] {denv : DiskEnv M} (hg : ∀ l, (denv.glob l).Perm l)
    (env : FlatEnv V D) (ha : IsArgsort env.argsort) {d : Dir V M} {out : List (Item V M)} (limit : Int)
    (h : d.Shows denv out) : FindsH env denv ⟨(Flat.new, Hyb.opened d limit), false⟩ out := by
  intro hist hok
  refine C194_exact_database (hybLawful denv hg) false (C194_hybrid denv hg) env ha (Hyb.opened d limit) out
    h.nd (inv_of_showsH hg h _ (Mem.Inv.empty true) rfl ?_ _) ?_ hist hok
  · intro x y hx; simp [Mem.at', Mem.contentOf] at hx
  · intro id
    exact h.cont id

theorem broken_leftH [LinearOrder D] {denv : DiskEnv M} (hg : ∀ l, (denv.glob l).Perm l)
    (env : FlatEnv V D) (ha : IsArgsort env.argsort) {d : Dir V M} {id : String} {out : List (Item V M)}
    (limit : Int) (hL : d.Left denv out (some id)) :
    FindsBrokenH env denv ⟨(Flat.new, Hyb.opened d limit), false⟩ id out := by
  intro qs h hok
  have key : ∀ (qs : List (Nat × V × Int)) (c : Client (Flat V × Hyb V M)), SpoiledH denv d id out limit c →
      ∃ as, (Client.converse (flatParts env (hybBackend denv)) c
          (qs.map (fun q => .request (.search q.1 q.2.1 q.2.2)) ++
            .request (.delete [id]) :: h)).1.map seen =
          qs.map (fun _ => .raised) ++ .flag true :: as ∧
        Db.AllRight false env.dist (flatFails env) ⟨true, out⟩ h as := by
    intro qs
    induction qs with
    | nil =>
      intro c hc
      obtain ⟨c', e, hs⟩ := spoiledH_heal hg env hL hc
      refine ⟨_, ?_, sim_history (C194_hybrid denv hg) env ha h _ c' hs hok⟩
      simp only [List.map_nil, List.nil_append, Client.converse, e, List.map_cons, seen]
    | cons q qs ih =>
      intro c hc
      obtain ⟨c', e, hs⟩ := spoiledH_search hg env hL hc q.1 q.2.1 q.2.2
      obtain ⟨as, e2, e3⟩ := ih c' hs
      refine ⟨as, ?_, e3⟩
      simp only [List.map_cons, List.cons_append, Client.converse, e, seen, e2]
  obtain ⟨c0, hc0⟩ : ∃ c0 : Client (Flat V × Hyb V M), c0 =
    ⟨(⟨denv.glob d.vec.keys, [], (denv.glob d.vec.keys).length, true⟩,
      ⟨Mem.new.init, ⟨d, d.vec.length, true⟩, limit, true⟩), true⟩ := ⟨_, rfl⟩
  have e : Client.ask (flatParts env (hybBackend denv)) ⟨(Flat.new, Hyb.opened d limit), false⟩ .init =
      (.unit (.ok ()), c0) := by rw [hc0]; rfl
  obtain ⟨as, e2, e3⟩ := key qs c0 (by
    rw [hc0]
    refine ⟨rfl, ⟨rfl, rfl, rfl, Mem.Inv.empty true, rfl, ?_⟩, rfl, rfl, rfl, fun x v h => by
      simp [Dict.get?] at h⟩
    intro x y hx; simp [Mem.at', Mem.contentOf, Mem.init] at hx)
  refine ⟨as, ?_, e3⟩
  simp only [List.cons_append, Client.converse, e, List.map_cons, seen, e2]

section main
variable [LinearOrder D] (denv : DiskEnv M) (hg : ∀ l, (denv.glob l).Perm l) (env : FlatEnv V D)
  (ha : IsArgsort env.argsort) (s : Hyb V M) (live : List (Item V M)) (hn : (live.map Item.id).Nodup)
  (hs : (hybLawful (V := V) denv hg).inv (Hyb.init s))
  (hl : ∀ id, (hybLawful (V := V) denv hg).content (Hyb.init s) id = Live.find live id)

/-- The client after a history that began on the hybrid storage `s` (harness). -/
def clientAfterH (env : FlatEnv V D) (denv : DiskEnv M) (s : Hyb V M) (h : List (ClCall (IxCall V M))) :
    Client (Flat V × Hyb V M) :=
  (Client.converse (flatParts env (hybBackend denv)) ⟨(Flat.new, s), false⟩ h).2

include ha hn hs hl in
theorem sim_clientAfterH (h : List (ClCall (IxCall V M)))
    (hok : Db.HistOk (OwnName denv) (fun m => denv.picklable m = true) false ⟨false, live⟩ h) :
    Sim (hybLawful (V := V) denv hg) (Db.after false ⟨false, live⟩ h) (clientAfterH env denv s h) :=
  sim_after_any (C194_hybrid denv hg) env ha h ⟨false, live⟩ ⟨(Flat.new, s), false⟩
    ⟨rfl, (fun h => by cases h), fun _ => ⟨rfl, hn, hs, hl⟩⟩ hok

include ha hn hs hl in
/-- **C224** (partial: what is left of the call, instead of all or nothing) A hybrid database after the death
of its process.  A client over a flat index on hybrid storage, with any memory limit, had any history `h` and
dies during a further call `x`, after any number of file steps.  Then all earlier calls are complete, also
those whose vectors had been evicted from memory or were only in memory, and the call `x` is done up to some
point of its sequence of edits.  Either a new client finds exactly these items, with all answers right from
then on; or one item of the call is half written: then the client opens but every search raises, until that
item is deleted, after which all answers are right. -/
theorem C224_after_death_partial (h : List (ClCall (IxCall V M))) (x : ClCall (IxCall V M))
    (hok : Db.HistOk (OwnName denv) (fun m => denv.picklable m = true) false ⟨false, live⟩ (h ++ [x]))
    (hnew : NewNames (clientAfterH env denv s h).w.2.disk.dir x) (n : Nat) :
    ∃ out bad, Edit.Interrupted (Db.after false ⟨false, live⟩ h).live
        (Edit.ofCall (Db.after false ⟨false, live⟩ h) x) out bad ∧
      match bad with
      | none => FindsH env denv (Client.diedH env denv (clientAfterH env denv s h) x n) out
      | some id => FindsBrokenH env denv (Client.diedH env denv (clientAfterH env denv s h) x n) id out := by
  obtain ⟨ok1, ok2⟩ := histOk_append h [x] _ hok
  have hsim := sim_clientAfterH denv hg env ha s live hn hs hl h ok1
  obtain ⟨hsh, hi⟩ := sim_showsH hg hsim
  have et := tape_eqH hg env (clientAfterH env denv s h) (Db.after false ⟨false, live⟩ h) hsim.1 hi
    (fun _ id _ => hsh.mem id) x ok2.1
  obtain ⟨out, bad, e1, e2⟩ := seq_cut (writesOf (Db.after false ⟨false, live⟩ h) x) hsh
    (writes_fit _ x ok2.1) (writes_clear _ hsh x hnew) n
  rw [writesOf_edit] at e1
  refine ⟨out, bad, e1, ?_⟩
  simp only [Client.diedH, et]
  cases bad with
  | none => exact finds_leftH hg env ha _ e2
  | some id => exact broken_leftH hg env ha _ e2

include ha hn hs hl in
/-- **C224, refuted:** a death leaves a hybrid database that can be searched.  Every insert of at least one
vector has a moment at which it does not: the new client opens, and every search raises until the first id
of the batch is deleted. -/
theorem C224_unsearchable_refuted (h : List (ClCall (IxCall V M))) (id : String) (v : V)
    (rows : List (String × V)) (mds : Option (List (Option M)))
    (hok : Db.HistOk (OwnName denv) (fun m => denv.picklable m = true) false ⟨false, live⟩
      (h ++ [.request (.insert 2 ((id, v) :: rows) mds)]))
    (hopen : (Db.after false ⟨false, live⟩ h).isOpen = true) :
    FindsBrokenH env denv (Client.diedH env denv (clientAfterH env denv s h)
      (.request (.insert 2 ((id, v) :: rows) mds)) 1) id (Db.after false ⟨false, live⟩ h).live := by
  obtain ⟨ok1, ok2⟩ := histOk_append h _ _ hok
  have hsim := sim_clientAfterH denv hg env ha s live hn hs hl h ok1
  obtain ⟨hsh, hi⟩ := sim_showsH hg hsim
  have et := tape_eqH hg env (clientAfterH env denv s h) (Db.after false ⟨false, live⟩ h) hsim.1 hi
    (fun _ id _ => hsh.mem id) (.request (.insert 2 ((id, v) :: rows) mds)) ok2.1
  obtain ⟨-, c2, -⟩ := ok2.1 hopen
  obtain ⟨n1, n2, n3⟩ := c2 (id, v) (by simp)
  simp only at n1 n2 n3
  have n2' : sanitize denv id = id := n2
  have e1 : ((seqSteps denv (clientAfterH env denv s h).w.2.disk.dir
      (writesOf (Db.after false ⟨false, live⟩ h)
      (.request (.insert 2 ((id, v) :: rows) mds)))).take 1) = [.vecTorn id] := by
    simp only [writesOf, hopen, if_true, storesOf, Live.items, List.map_cons, seqSteps, Disk.Write.steps,
      n1, if_false, n2', Disk.writeSteps]
    cases Live.mdAt mds 0 with
    | none => simp
    | some m => simp only; split <;> simp
  simp only [Client.diedH, et, e1]
  have e2 : Live.remove (Db.after false ⟨false, live⟩ h).live id = (Db.after false ⟨false, live⟩ h).live := by
    unfold Live.remove
    rw [List.filter_eq_self]
    intro y hy
    simp only [decide_eq_true_eq]
    intro e
    rw [Live.has_false_iff] at n3
    exact n3 (List.mem_map.2 ⟨y, hy, e⟩)
  have := hsh.torn_vec n2'
  rw [e2] at this
  exact broken_leftH hg env ha _ this

include ha hn hs hl in
/-- **C224, refuted:** a call that died is done or not done.  Every insert of several vectors has a moment
at which exactly the first one is in the database. -/
theorem C224_half_batch_refuted (h : List (ClCall (IxCall V M))) (id : String) (v : V)
    (rows : List (String × V)) (mds : Option (List (Option M)))
    (hok : Db.HistOk (OwnName denv) (fun m => denv.picklable m = true) false ⟨false, live⟩
      (h ++ [.request (.insert 2 ((id, v) :: rows) mds)]))
    (hopen : (Db.after false ⟨false, live⟩ h).isOpen = true) :
    ∃ n, FindsH env denv (Client.diedH env denv (clientAfterH env denv s h)
      (.request (.insert 2 ((id, v) :: rows) mds)) n)
      ((Db.after false ⟨false, live⟩ h).live ++ [⟨id, v, Live.mdAt mds 0⟩]) := by
  obtain ⟨ok1, ok2⟩ := histOk_append h _ _ hok
  have hsim := sim_clientAfterH denv hg env ha s live hn hs hl h ok1
  obtain ⟨hsh, hi⟩ := sim_showsH hg hsim
  have et := tape_eqH hg env (clientAfterH env denv s h) (Db.after false ⟨false, live⟩ h) hsim.1 hi
    (fun _ id _ => hsh.mem id) (.request (.insert 2 ((id, v) :: rows) mds)) ok2.1
  obtain ⟨-, c2, c3⟩ := ok2.1 hopen
  obtain ⟨n1, n2, n3⟩ := c2 (id, v) (by simp)
  simp only at n1 n2 n3
  have n2' : sanitize denv id = id := n2
  have hp : ∀ m, Live.mdAt mds 0 = some m → denv.picklable m = true := by
    intro m hm
    obtain ⟨l, rfl, hl⟩ := mdAt_mem hm
    exact c3 l rfl m hl
  refine ⟨((Disk.Write.store id v (Live.mdAt mds 0)).steps denv
    (clientAfterH env denv s h).w.2.disk.dir).length, ?_⟩
  simp only [Client.diedH, et]
  simp only [writesOf, hopen, if_true, storesOf, Live.items, List.map_cons, seqSteps, List.take_left']
  have e : runSteps (clientAfterH env denv s h).w.2.disk.dir
      ((Disk.Write.store id v (Live.mdAt mds 0)).steps denv (clientAfterH env denv s h).w.2.disk.dir) =
      (clientAfterH env denv s h).w.2.disk.dir.written id v (Live.mdAt mds 0) := by
    simp only [Disk.Write.steps, n1, if_false, n2']
    exact (Disk.writeSteps_done _ id v _ hp).2
  rw [e]
  have := hsh.written n2' v (Live.mdAt mds 0)
  rw [Edit.write, n3] at this
  exact finds_leftH hg env ha _ this

end main

/-- Two vectors, of which one fits into memory, are in the database; another is being inserted. -/
example :
    let s : Hyb Nat Nat := Hyb.opened (emptyDir Nat Nat) 1
    let h : List (ClCall (IxCall Nat Nat)) := [.init, .request (.insert 2 [("a", 3), ("d", 7)] (some [some 1]))]
    let x : ClCall (IxCall Nat Nat) := .request (.insert 2 [("b", 8), ("c", 9)] (some [some 2]))
    Db.HistOk (OwnName exEnv) (fun m => exEnv.picklable m = true) false (⟨false, []⟩ : Db Nat Nat) (h ++ [x]) ∧
    NewNames (clientAfterH exFlat exEnv s h).w.2.disk.dir x ∧
    (Db.after false ⟨false, []⟩ h).isOpen = true ∧
    (Client.tapeH exFlat exEnv (clientAfterH exFlat exEnv s h) x).length = 6 ∧
    (Client.converse (flatParts exFlat (hybBackend exEnv))
      (Client.diedH exFlat exEnv (clientAfterH exFlat exEnv s h) x 3)
      [.init, .request (.search 1 4 2), .request (.delete ["b"]), .request (.search 1 4 2)]).1.map seen =
      [.done, .raised, .flag true, .hits [⟨"a", 1, some 1⟩, ⟨"d", 3, none⟩]] := by
  refine ⟨?_, ?_, rfl, by decide +kernel, by decide +kernel⟩
  · simp [Db.HistOk, Db.next, Live.CallOk, Live.next, Live.items, Live.has, OwnName]
    decide +kernel
  · intro r hr
    simp at hr
    rcases hr with rfl | rfl <;> decide +kernel

end Valori.Props
