import Verif.Model.CrashIndices
import Verif.Props.Crash
import Verif.Props.ClientIndices

/-!
# Property C217: IVF and HNSW databases on disk after the death of their process
-/

namespace Valori.Props
open Valori Valori.Spec

variable {X V M D : Type}

/-! ## The file steps of a call -/

/-- A client over the index makes the file steps of its calls on the storage, and no others. -/
structure Taped (denv : DiskEnv M)
    (P : Parts (X × (Disk V M × List (FsStep V M))) (IxCall V M) (FwdReply D M)) (up : X → Prop) : Prop where
  init : ∀ f s b, (Client.ask P ⟨(f, (s, [])), b⟩ .init).2.w.2.2 = []
  close : ∀ f s b, (Client.ask P ⟨(f, (s, [])), b⟩ .close).2.w.2.2 = []
  request : ∀ (f : X) (s : Disk V M) (q : IxCall V M) (live : List (Item V M)), up f → s.inited = true →
    Live.CallOk (OwnName denv) (fun m => denv.picklable m = true) live q →
    (∀ id, sanitize denv id = id → s.dir.vec.mem id = Live.has live id) →
    (P.request q (f, (s, []))).2.2.2 = seqSteps denv s.dir (writesOf ⟨true, live⟩ (.request q))

theorem taped_eq {denv : DiskEnv M}
    {P : Parts (X × (Disk V M × List (FsStep V M))) (IxCall V M) (FwdReply D M)} {up : X → Prop}
    (hT : Taped denv P up) (c : Client (X × Disk V M)) (db : Db V M) (ho : c.inited = db.isOpen)
    (hi : db.isOpen = true → c.w.2.inited = true ∧ up c.w.1)
    (hl : db.isOpen = true → ∀ id, sanitize denv id = id → c.w.2.dir.vec.mem id = Live.has db.live id)
    (x : ClCall (IxCall V M))
    (hx : match x with
      | .request q => db.isOpen = true →
          Live.CallOk (OwnName denv) (fun m => denv.picklable m = true) db.live q
      | _ => True) :
    Client.tapeOf P c x = seqSteps denv c.w.2.dir (writesOf db x) := by
  obtain ⟨⟨f, s⟩, b⟩ := c
  obtain ⟨o, live⟩ := db
  simp only at ho hi hl
  subst ho
  cases x with
  | init => exact hT.init f s b
  | close => exact hT.close f s b
  | request q =>
    cases b with
    | false => rfl
    | true =>
      have := hT.request f s q live (hi rfl).2 (hi rfl).1 (hx rfl) (hl rfl)
      simp only [Client.tapeOf, Client.ask, Client.request, Bool.not_true, Bool.false_eq_true, if_false]
      exact this

/-- The rows of an insert fit. -/
theorem callOk_items {denv : DiskEnv M} {live : List (Item V M)} {nd : Nat} {rows : List (String × V)}
    {mds : Option (List (Option M))}
    (hx : Live.CallOk (OwnName denv) (fun m => denv.picklable m = true) live (.insert nd rows mds)) :
    ∀ x ∈ Live.items mds 0 rows, x.id ≠ "" ∧ ∀ m, x.md = some m → denv.picklable m = true := by
  obtain ⟨-, h2, h3⟩ := hx
  intro x hx
  obtain ⟨⟨r, k1, k2⟩, j, k3⟩ := items_mem rows 0 hx
  refine ⟨k2 ▸ (h2 r k1).1, fun m hm => ?_⟩
  rw [k3] at hm
  obtain ⟨l, rfl, hl⟩ := mdAt_mem hm
  exact h3 l rfl m hl

theorem update_tape {denv : DiskEnv M} {s : Disk V M} {live : List (Item V M)} {id : String} {v : V}
    {m : Option M} (hs : s.inited = true) (hx : sanitize denv id = id)
    (hl : s.dir.vec.mem id = Live.has live id) :
    ((tapeDisk denv).update (s, []) id v m).2.2 =
      seqSteps denv s.dir (if Live.has live id = true then [Disk.Write.update id v m] else []) := by
  have e : ((tapeDisk denv).update (s, []) id v m).2.2 =
      (Disk.Write.update id v m).steps denv s.dir := by
    simp only [tapeDisk, Disk.stepsOf, hs, if_true, List.nil_append]
  rw [e]
  split
  · simp [seqSteps]
  · next hn =>
    simp only [Bool.not_eq_true] at hn
    simp [Disk.Write.steps, hx, hl, hn, seqSteps]

/-! ### HNSW -/

section hnsw
variable [LinearOrder D]

theorem hnsw_insertLoop_tape (env : HnswEnv V D) (denv : DiskEnv M) (mds : Option (List (Option M)))
    (rows : List (String × V)) :
    ∀ (i : Nat) (f : Hnsw V) (s : Disk V M) (t : List (FsStep V M)), s.inited = true →
      (∀ x ∈ Live.items mds i rows, x.id ≠ "" ∧ ∀ m, x.md = some m → denv.picklable m = true) →
      (Hnsw.insertLoop env (tapeDisk denv) mds i rows f (s, t)).2.2.2 =
        t ++ seqSteps denv s.dir (storesOf mds i rows) := by
  induction rows with
  | nil => intro i f s t _ _; simp [Hnsw.insertLoop, storesOf, Live.items, seqSteps]
  | cons r rows ih =>
    obtain ⟨id, v⟩ := r
    intro i f s t hi hx
    have h0 := hx ⟨id, v, Live.mdAt mds i⟩ (by simp [Live.items])
    have e := Disk.store_ready (env := denv) hi h0.1 v (Live.mdAt mds i) h0.2
    have ed := Disk.Write.exec_dir (env := denv) s (.store id v (Live.mdAt mds i)) hi
    simp only [Disk.Write.exec] at ed
    have e2 : (tapeDisk denv).store (s, t) id v (rowMeta mds i) =
        (.ok true, ((s.store denv id v (Live.mdAt mds i)).2,
          t ++ (Disk.Write.store id v (Live.mdAt mds i)).steps denv s.dir)) := by
      simp only [tapeDisk, Live.mdAt_eq_rowMeta, Disk.stepsOf, hi, if_true, e]
    simp only [Hnsw.insertLoop, e2]
    have := ih (i + 1) (Hnsw.insertInternal env id v f)
      (s.store denv id v (Live.mdAt mds i)).2
      (t ++ (Disk.Write.store id v (Live.mdAt mds i)).steps denv s.dir) ed.2
      (fun x hx' => hx x (by simp [Live.items, hx']))
    rw [ed.1] at this
    simp only [storesOf, Live.items, List.map_cons, seqSteps] at this ⊢
    rw [← List.append_assoc, ← this]
    generalize Hnsw.insertLoop env (tapeDisk denv) mds (i + 1) rows _ _ = r
    rcases r with ⟨_ | _, _⟩ <;> rfl

theorem hnsw_deleteLoop_tape (denv : DiskEnv M) (dels : List String) :
    ∀ (ok : Bool) (f : Hnsw V) (s : Disk V M) (t : List (FsStep V M)), s.inited = true →
      (Hnsw.deleteLoop (tapeDisk denv) dels ok f (s, t)).2.2.2 =
        t ++ seqSteps denv s.dir (dels.map .delete) := by
  induction dels with
  | nil => intro ok f s t _; simp [Hnsw.deleteLoop, seqSteps]
  | cons id dels ih =>
    intro ok f s t hi
    have ed := Disk.Write.exec_dir (env := denv) s (.delete id) hi
    simp only [Disk.Write.exec] at ed
    obtain ⟨b, hb⟩ : ∃ b, (s.delete denv id).1 = .ok b := by
      simp only [Disk.delete, hi]
      simp only [Bool.not_true, Bool.false_eq_true, if_false]
      split <;> exact ⟨_, rfl⟩
    have e2 : (tapeDisk denv).delete (s, t) id =
        (.ok b, ((s.delete denv id).2, t ++ (Disk.Write.delete id).steps denv s.dir)) := by
      simp only [tapeDisk, Disk.stepsOf, hi, if_true, hb]
    simp only [Hnsw.deleteLoop, e2]
    rw [ih _ _ _ _ ed.2, ed.1]
    simp only [List.map_cons, seqSteps, List.append_assoc]

theorem hnsw_loadAll_tape (env : HnswEnv V D) (denv : DiskEnv M) (ids : List String) :
    ∀ (f : Hnsw V) (s : Disk V M × List (FsStep V M)),
      (Hnsw.loadAll env (tapeDisk denv) ids f s).2.2.2 = s.2 := by
  induction ids with
  | nil => intro f s; rfl
  | cons id ids ih =>
    intro f s
    simp only [Hnsw.loadAll]
    have e : ((tapeDisk denv).retrieve s id).2.2 = s.2 := rfl
    generalize (tapeDisk denv).retrieve s id = r at e
    rcases r with ⟨_ | _ | ⟨v, m⟩, s'⟩
    · exact e
    · exact (ih f s').trans e
    · exact (ih _ s').trans e

theorem hnsw_search_tape (env : HnswEnv V D) (denv : DiskEnv M) (nd : Nat) (q : V) (k : Int) (f : Hnsw V)
    (s : Disk V M × List (FsStep V M)) :
    (Hnsw.search env (tapeDisk denv) nd q k f s).2.2.2 = s.2 := by
  simp only [Hnsw.search]
  split
  · rfl
  · split
    · rfl
    · split
      · rfl
      · split
        · rfl
        · next c _ =>
          have h2 := fetchMeta_tape denv (sliceTo (pySortBy Prod.snd c) (min k (f.vectors.length : Int))) s
          generalize fetchMeta (tapeDisk denv)
            (sliceTo (pySortBy Prod.snd c) (min k (f.vectors.length : Int))) s = r at h2
          rcases r with ⟨_ | _, _⟩ <;> exact h2

theorem hnsw_init_tape (env : HnswEnv V D) (denv : DiskEnv M) (f : Hnsw V)
    (s : Disk V M × List (FsStep V M)) : (Hnsw.init env (tapeDisk denv) f s).2.2.2 = s.2 := by
  simp only [Hnsw.init]
  have e : ((tapeDisk denv).list s none).2.2 = s.2 := rfl
  generalize (tapeDisk denv).list s none = r at e
  rcases r with ⟨_ | l, s'⟩
  · exact e
  · simp only
    have h := hnsw_loadAll_tape env denv l { f with inited := true, levels := [[]] } s'
    generalize Hnsw.loadAll env (tapeDisk denv) l { f with inited := true, levels := [[]] } s' = r at h
    rcases r with ⟨_ | _, _, _⟩ <;> exact h.trans e

theorem hnsw_taped (env : HnswEnv V D) (denv : DiskEnv M) :
    Taped (V := V) denv (hnswParts env (tapeDisk denv)) (fun f => f.inited = true) where
  init f s b := by
    have h := hnsw_init_tape env denv f ((tapeDisk (V := V) denv).init (s, []))
    simp only [Client.ask, Client.init, Client.steps, hnswParts]
    generalize Hnsw.init env (tapeDisk denv) f ((tapeDisk (V := V) denv).init (s, [])) = r at h
    rcases r with ⟨_ | _, _, _⟩ <;> exact h
  close f s b := rfl
  request f s q live hf hs hx hl := by
    have hf : f.inited = true := hf
    simp only [writesOf, if_true]
    cases q with
    | insert nd rows mds =>
      simp only [hnswParts, fwd_state]
      simp only [Hnsw.insert, hf, Bool.not_true, Bool.false_eq_true, if_false]
      by_cases hnd : nd = 2
      · subst hnd
        simp only [ne_eq, not_true, if_false, if_true]
        have h1 := hnsw_insertLoop_tape env denv mds rows 0 f s [] hs (callOk_items hx)
        rw [List.nil_append] at h1
        rw [← h1]
        generalize Hnsw.insertLoop env (tapeDisk denv) mds 0 rows f (s, []) = r
        rcases r with ⟨_ | _, _, _⟩ <;> rfl
      · simp only [ne_eq, hnd, not_false_eq_true, if_true, if_false, seqSteps]
    | delete ids =>
      simp only [hnswParts, fwd_state]
      simp only [Hnsw.delete, hf, Bool.not_true, Bool.false_eq_true, if_false]
      have h1 := hnsw_deleteLoop_tape denv ids true f s [] hs
      rw [List.nil_append] at h1
      rw [← h1]
      generalize Hnsw.deleteLoop (tapeDisk denv) ids true f (s, []) = r
      rcases r with ⟨_ | _, _, _⟩ <;> rfl
    | update id v m =>
      simp only [hnswParts, fwd_state]
      simp only [Hnsw.update, hf, Bool.not_true, Bool.false_eq_true, if_false]
      rw [← update_tape hs hx.1 (hl id hx.1)]
      generalize (tapeDisk denv).update (s, []) id v m = r
      rcases r with ⟨_ | _ | _, _⟩ <;> rfl
    | search nd q k =>
      simp only [hnswParts, fwd_state]
      rw [hnsw_search_tape]
      rfl

/-! ### IVF -/

theorem ivf_insertLoop_tape (denv : DiskEnv M) (mds : Option (List (Option M)))
    (rows : List (String × V)) :
    ∀ (i : Nat) (f : Ivf V) (s : Disk V M) (t : List (FsStep V M)), s.inited = true →
      (∀ x ∈ Live.items mds i rows, x.id ≠ "" ∧ ∀ m, x.md = some m → denv.picklable m = true) →
      (Ivf.insertLoop (tapeDisk denv) mds i rows f (s, t)).2.2.2 =
        t ++ seqSteps denv s.dir (storesOf mds i rows) := by
  induction rows with
  | nil => intro i f s t _ _; simp [Ivf.insertLoop, storesOf, Live.items, seqSteps]
  | cons r rows ih =>
    obtain ⟨id, v⟩ := r
    intro i f s t hi hx
    have h0 := hx ⟨id, v, Live.mdAt mds i⟩ (by simp [Live.items])
    have e := Disk.store_ready (env := denv) hi h0.1 v (Live.mdAt mds i) h0.2
    have ed := Disk.Write.exec_dir (env := denv) s (.store id v (Live.mdAt mds i)) hi
    simp only [Disk.Write.exec] at ed
    have e2 : (tapeDisk denv).store (s, t) id v (rowMeta mds i) =
        (.ok true, ((s.store denv id v (Live.mdAt mds i)).2,
          t ++ (Disk.Write.store id v (Live.mdAt mds i)).steps denv s.dir)) := by
      simp only [tapeDisk, Live.mdAt_eq_rowMeta, Disk.stepsOf, hi, if_true, e]
    simp only [Ivf.insertLoop, e2]
    have := ih (i + 1) { f with ids := f.ids ++ [id], cache := f.cache.set id v }
      (s.store denv id v (Live.mdAt mds i)).2
      (t ++ (Disk.Write.store id v (Live.mdAt mds i)).steps denv s.dir) ed.2
      (fun x hx' => hx x (by simp [Live.items, hx']))
    rw [ed.1] at this
    simp only [storesOf, Live.items, List.map_cons, seqSteps] at this ⊢
    rw [← List.append_assoc, ← this]
    generalize Ivf.insertLoop (tapeDisk denv) mds (i + 1) rows _ _ = r
    rcases r with ⟨_ | _, _⟩ <;> rfl

theorem ivf_deleteLoop_tape (denv : DiskEnv M) (dels : List String) :
    ∀ (ok : Bool) (f : Ivf V) (s : Disk V M) (t : List (FsStep V M)), s.inited = true →
      (Ivf.deleteLoop (tapeDisk denv) dels ok f (s, t)).2.2.2 =
        t ++ seqSteps denv s.dir (dels.map .delete) := by
  induction dels with
  | nil => intro ok f s t _; simp [Ivf.deleteLoop, seqSteps]
  | cons id dels ih =>
    intro ok f s t hi
    have ed := Disk.Write.exec_dir (env := denv) s (.delete id) hi
    simp only [Disk.Write.exec] at ed
    obtain ⟨b, hb⟩ : ∃ b, (s.delete denv id).1 = .ok b := by
      simp only [Disk.delete, hi]
      simp only [Bool.not_true, Bool.false_eq_true, if_false]
      split <;> exact ⟨_, rfl⟩
    have e2 : (tapeDisk denv).delete (s, t) id =
        (.ok b, ((s.delete denv id).2, t ++ (Disk.Write.delete id).steps denv s.dir)) := by
      simp only [tapeDisk, Disk.stepsOf, hi, if_true, hb]
    simp only [Ivf.deleteLoop, e2]
    rw [ih _ _ _ _ ed.2, ed.1]
    simp only [List.map_cons, seqSteps, List.append_assoc]

omit [LinearOrder D] in
theorem scanVecs_tape (denv : DiskEnv M) (dist : V → Except Err D) (ids : List String) :
    ∀ (c : Dict String V) (s : Disk V M × List (FsStep V M)),
      (scanVecs (tapeDisk denv) dist ids c s).2.2.2 = s.2 := by
  induction ids with
  | nil => intro c s; rfl
  | cons id ids ih =>
    intro c s
    simp only [scanVecs]
    split
    · split
      · rfl
      · have := ih c s
        generalize scanVecs (tapeDisk denv) dist ids c s = r at this
        rcases r with ⟨_ | _, _, _⟩ <;> exact this
    · have e : ((tapeDisk denv).retrieve s id).2.2 = s.2 := rfl
      generalize (tapeDisk denv).retrieve s id = r at e
      rcases r with ⟨_ | _ | ⟨v, m⟩, s'⟩
      · exact e
      · exact (ih c s').trans e
      · simp only
        split
        · exact e
        · have := ih (c.set id v) s'
          generalize scanVecs (tapeDisk denv) dist ids (c.set id v) s' = r at this
          rcases r with ⟨_ | _, _, _⟩ <;> exact this.trans e

omit [LinearOrder D] in
theorem ivf_train_tape (env : IvfEnv V D) (denv : DiskEnv M) (f : Ivf V)
    (s : Disk V M × List (FsStep V M)) : (Ivf.train env (tapeDisk denv) f s).2.2.2 = s.2 := by
  simp only [Ivf.train]
  split
  · rfl
  · have h := loadVecs_tape denv f.ids f.cache s
    generalize loadVecs (tapeDisk denv) f.ids f.cache s = r at h
    rcases r with ⟨_ | vs, c, s'⟩
    · exact h
    · simp only
      split
      · exact h
      · split <;> exact h

theorem ivf_scanTop_tape (env : IvfEnv V D) (denv : DiskEnv M) (q : V) (k : Int) (cand : List String)
    (f : Ivf V) (s : Disk V M × List (FsStep V M)) :
    (Ivf.scanTop env (tapeDisk denv) q k cand f s).2.2.2 = s.2 := by
  simp only [Ivf.scanTop]
  have h := scanVecs_tape denv (env.dist q) cand f.cache s
  generalize scanVecs (tapeDisk denv) (env.dist q) cand f.cache s = r at h
  rcases r with ⟨_ | ds, c, s'⟩
  · exact h
  · simp only
    have h2 := fetchMeta_tape denv (sliceTo (pySortBy Prod.snd ds) k) s'
    generalize fetchMeta (tapeDisk denv) (sliceTo (pySortBy Prod.snd ds) k) s' = r at h2
    rcases r with ⟨_ | _, _⟩ <;> exact h2.trans h

theorem ivf_search_tape (env : IvfEnv V D) (denv : DiskEnv M) (nd : Nat) (q : V) (k : Int) (f : Ivf V)
    (s : Disk V M × List (FsStep V M)) :
    (Ivf.search env (tapeDisk denv) nd q k f s).2.2.2 = s.2 := by
  simp only [Ivf.search]
  split
  · rfl
  · split
    · rfl
    · split
      · rfl
      · split
        · exact ivf_scanTop_tape env denv q k f.ids f s
        · split
          · rfl
          · split
            · rfl
            · exact ivf_scanTop_tape env denv q k _ f s

theorem ivf_init_tape (env : IvfEnv V D) (denv : DiskEnv M) (f : Ivf V)
    (s : Disk V M × List (FsStep V M)) : (Ivf.init env (tapeDisk denv) f s).2.2.2 = s.2 := by
  simp only [Ivf.init]
  have e : ((tapeDisk denv).list s none).2.2 = s.2 := rfl
  generalize (tapeDisk denv).list s none = r at e
  rcases r with ⟨_ | l, s'⟩
  · exact e
  · simp only
    split
    · exact (ivf_train_tape env denv _ s').trans e
    · exact e

theorem ivf_taped (env : IvfEnv V D) (denv : DiskEnv M) :
    Taped (V := V) denv (ivfParts env (tapeDisk denv)) (fun f => f.inited = true) where
  init f s b := by
    have h := ivf_init_tape env denv f ((tapeDisk (V := V) denv).init (s, []))
    simp only [Client.ask, Client.init, Client.steps, ivfParts]
    generalize Ivf.init env (tapeDisk denv) f ((tapeDisk (V := V) denv).init (s, [])) = r at h
    rcases r with ⟨_ | _, _, _⟩ <;> exact h
  close f s b := rfl
  request f s q live hf hs hx hl := by
    have hf : f.inited = true := hf
    simp only [writesOf, if_true]
    cases q with
    | insert nd rows mds =>
      simp only [ivfParts, fwd_state]
      simp only [Ivf.insert, hf, Bool.not_true, Bool.false_eq_true, if_false]
      by_cases hnd : nd = 2
      · subst hnd
        simp only [ne_eq, not_true, if_false, if_true]
        have h1 := ivf_insertLoop_tape denv mds rows 0 f s [] hs (callOk_items hx)
        rw [List.nil_append] at h1
        rw [← h1]
        generalize Ivf.insertLoop (tapeDisk denv) mds 0 rows f (s, []) = r
        rcases r with ⟨_ | l, f1, s1⟩
        · rfl
        · simp only
          split
          · have h2 := ivf_train_tape env denv { f1 with count := f1.ids.length } s1
            generalize Ivf.train env (tapeDisk denv) { f1 with count := f1.ids.length } s1 = r at h2
            rcases r with ⟨_ | _, _, _⟩ <;> exact h2
          · split
            · generalize Ivf.addLoop env l { f1 with count := f1.ids.length } = r
              rcases r with ⟨_ | _, _⟩ <;> rfl
            · rfl
      · simp only [ne_eq, hnd, not_false_eq_true, if_true, if_false, seqSteps]
    | delete ids =>
      simp only [ivfParts, fwd_state]
      simp only [Ivf.delete, hf, Bool.not_true, Bool.false_eq_true, if_false]
      have h1 := ivf_deleteLoop_tape denv ids true f s [] hs
      rw [List.nil_append] at h1
      rw [← h1]
      generalize Ivf.deleteLoop (tapeDisk denv) ids true f (s, []) = r
      rcases r with ⟨_ | _, _, _⟩ <;> rfl
    | update id v m =>
      simp only [ivfParts, fwd_state]
      simp only [Ivf.update, hf, Bool.not_true, Bool.false_eq_true, if_false]
      rw [← update_tape hs hx.1 (hl id hx.1)]
      generalize (tapeDisk denv).update (s, []) id v m = r
      rcases r with ⟨_ | _ | _, s1⟩
      · rfl
      · rfl
      · simp only
        split
        · generalize Ivf.reassign env id v _ = r
          rcases r with ⟨_ | _, _⟩ <;> rfl
        · rfl
    | search nd q k =>
      simp only [ivfParts, fwd_state]
      rw [ivf_search_tape]
      rfl

end hnsw

/-! ## Clients and directories -/

section follows
variable {σ : Type} {B : Backend σ V M} {okId : Id → Prop} {okM : M → Prop} {L : Lawful B okId okM}
  {P : Parts (X × σ) (IxCall V M) (FwdReply D M)} {fresh : X → Prop}
  {Inv : List (Item V M) → X × σ → Prop} {may : List (Item V M) → IxCall V M → Prop}
  {good : List (Item V M) → V → Int → List (Hit D M) → Prop}

theorem follows_after (hS : Serves L P fresh Inv may good) {vol : Bool} (hR : Reopens L vol)
    (h : List (ClCall (IxCall V M))) : ∀ (db : Db V M) (c : Client (X × σ)),
    Follows L fresh Inv db c → Db.HistOk okId okM vol db h → Db.OpensClosed vol db h →
    Follows L fresh Inv (Db.after vol db h) (Client.converse P c h).2 := by
  induction h with
  | nil => intro db c hs _ _; exact hs
  | cons x h ih =>
    intro db c hs hok hop
    exact ih _ _ (follows_step hS hR hs x hok.1 hop.1).2 hok.2 hop.2

theorem opensClosed_append {vol : Bool} (h h' : List (ClCall (IxCall V M))) :
    ∀ (db : Db V M), Db.OpensClosed vol db (h ++ h') → Db.OpensClosed vol db h := by
  induction h with
  | nil => intro db _; trivial
  | cons x h ih => intro db hh; exact ⟨hh.1, ih _ hh.2⟩

end follows

section disk
variable {denv : DiskEnv M} {hg : ∀ l, (denv.glob l).Perm l}
  {P : Parts (X × Disk V M) (IxCall V M) (FwdReply D M)} {fresh : X → Prop}
  {Inv : List (Item V M) → X × Disk V M → Prop} {may : List (Item V M) → IxCall V M → Prop}
  {good : List (Item V M) → V → Int → List (Hit D M) → Prop}

theorem follows_shows (hS : Serves (diskLawful (V := V) denv hg) P fresh Inv may good) {db : Db V M}
    {c : Client (X × Disk V M)} (h : Follows (diskLawful (V := V) denv hg) fresh Inv db c) :
    c.w.2.dir.Shows denv db.live ∧ (db.isOpen = true → c.w.2.inited = true) := by
  obtain ⟨h1, h2, h3⟩ := h
  cases ho : db.isOpen with
  | true =>
    obtain ⟨live, hp, hinv⟩ := h2 ho
    have hn : (Live.idsOf db.live).Nodup := (hp.map Item.id).nodup_iff.2 (hS.nd hinv)
    have hc : ∀ id, (diskLawful (V := V) denv hg).content c.w.2 id = Live.find db.live id := by
      intro id; rw [hS.cont hinv]; exact (find_of_perm hp hn id).symm
    have := shows_of_inv hg (hS.st hinv) hn hc
    exact ⟨this.2, fun _ => this.1⟩
  | false =>
    obtain ⟨k1, k2, k3, k4⟩ := h3 ho
    have := shows_of_inv hg k3 k2 k4
    exact ⟨this.2, fun h => by cases h⟩

/-- The client finds exactly these items: from the first call on all its answers are right for them. -/
def FindsBy (denv : DiskEnv M) (P : Parts (X × Disk V M) (IxCall V M) (FwdReply D M))
    (may : List (Item V M) → IxCall V M → Prop)
    (good : List (Item V M) → V → Int → List (Hit D M) → Prop) (c : Client (X × Disk V M))
    (out : List (Item V M)) : Prop :=
  ∀ h, Db.HistOk (OwnName denv) (fun m => denv.picklable m = true) false ⟨false, out⟩ h →
    Db.OpensClosed false (⟨false, out⟩ : Db V M) h →
    Db.AllRightBy false may good ⟨false, out⟩ h ((Client.converse P c h).1.map seen)

/-- What a client that cannot be opened says to a call. -/
def lockedOut {Q R : Type} : ClCall Q → Client.Answer R
  | .init => .unit (.error .valori)
  | .close => .unit (.ok ())
  | .request _ => .reply (.error .valori)

/-- The client can never be opened: whatever is tried, `initialize` raises and requests are refused. -/
def Locked (P : Parts (X × Disk V M) (IxCall V M) (FwdReply D M)) (c : Client (X × Disk V M)) : Prop :=
  ∀ h, (Client.converse P c h).1 = h.map lockedOut

/-- The client opens and every search raises.  When `id` is deleted, which is answered with yes, it has
exactly the given items, and from then on all its answers are right. -/
def BrokenBy (denv : DiskEnv M) (P : Parts (X × Disk V M) (IxCall V M) (FwdReply D M))
    (may : List (Item V M) → IxCall V M → Prop)
    (good : List (Item V M) → V → Int → List (Hit D M) → Prop) (c : Client (X × Disk V M))
    (id : String) (out : List (Item V M)) : Prop :=
  ∀ (qs : List (Nat × V × Int)) h,
    Db.HistOk (OwnName denv) (fun m => denv.picklable m = true) false ⟨true, out⟩ h →
    Db.OpensClosed false (⟨true, out⟩ : Db V M) h →
    ∃ as, (Client.converse P c
        (.init :: qs.map (fun q => .request (.search q.1 q.2.1 q.2.2)) ++
          .request (.delete [id]) :: h)).1.map seen =
        .done :: qs.map (fun _ => .raised) ++ .flag true :: as ∧
      Db.AllRightBy false may good ⟨true, out⟩ h as

theorem findsBy_left (hS : Serves (diskLawful (V := V) denv hg) P fresh Inv may good) {x : X} (hx : fresh x)
    {d : Dir V M} {out : List (Item V M)} (h : d.Shows denv out) :
    FindsBy denv P may good ⟨(x, Disk.opened d), false⟩ out := by
  intro hist hok hop
  exact follows_all hS (C194_disk denv hg) hist ⟨false, out⟩ ⟨(x, Disk.opened d), false⟩
    ⟨rfl, (fun h => by cases h), fun _ => ⟨hx, h.nd, inv_of_shows hg h _ rfl, h.cont⟩⟩ hok hop

/-- What is left on disk when the client dies after `n` steps of a call. -/
theorem died_left (hS : Serves (diskLawful (V := V) denv hg) P fresh Inv may good)
    {P' : Parts (X × (Disk V M × List (FsStep V M))) (IxCall V M) (FwdReply D M)} {up : X → Prop}
    (hT : Taped denv P' up) (hup : ∀ live t, Inv live t → up t.1) {db : Db V M}
    {c : Client (X × Disk V M)} (hF : Follows (diskLawful (V := V) denv hg) fresh Inv db c)
    (x : ClCall (IxCall V M))
    (hx : match x with
      | .request q => db.isOpen = true →
          Live.CallOk (OwnName denv) (fun m => denv.picklable m = true) db.live q
      | _ => True)
    (hnew : NewNames c.w.2.dir x) (n : Nat) :
    ∃ out bad, Edit.Interrupted db.live (Edit.ofCall db x) out bad ∧
      (runSteps c.w.2.dir ((Client.tapeOf P' c x).take n)).Left denv out bad := by
  obtain ⟨hsh, hi⟩ := follows_shows hS hF
  have et := taped_eq hT c db hF.1
    (fun ho => ⟨hi ho, by obtain ⟨live, -, hinv⟩ := hF.2.1 ho; exact hup live _ hinv⟩)
    (fun _ id _ => hsh.mem id) x hx
  obtain ⟨out, bad, e1, e2⟩ := seq_cut (writesOf db x) hsh (writes_fit _ x hx) (writes_clear _ hsh x hnew) n
  rw [writesOf_edit] at e1
  exact ⟨out, bad, e1, by rw [et]; exact e2⟩

/-- The first file step of an insert leaves a torn file. -/
theorem died_torn (hS : Serves (diskLawful (V := V) denv hg) P fresh Inv may good)
    {P' : Parts (X × (Disk V M × List (FsStep V M))) (IxCall V M) (FwdReply D M)} {up : X → Prop}
    (hT : Taped denv P' up) (hup : ∀ live t, Inv live t → up t.1) {db : Db V M}
    {c : Client (X × Disk V M)} (hF : Follows (diskLawful (V := V) denv hg) fresh Inv db c)
    (hopen : db.isOpen = true) (id : String) (v : V) (rows : List (String × V))
    (mds : Option (List (Option M)))
    (hx : Live.CallOk (OwnName denv) (fun m => denv.picklable m = true) db.live
      (.insert 2 ((id, v) :: rows) mds)) :
    (runSteps c.w.2.dir ((Client.tapeOf P' c (.request (.insert 2 ((id, v) :: rows) mds))).take 1)).Left denv
      db.live (some id) := by
  obtain ⟨hsh, hi⟩ := follows_shows hS hF
  have et := taped_eq hT c db hF.1
    (fun ho => ⟨hi ho, by obtain ⟨live, -, hinv⟩ := hF.2.1 ho; exact hup live _ hinv⟩)
    (fun _ id _ => hsh.mem id) (.request (.insert 2 ((id, v) :: rows) mds)) (fun _ => hx)
  obtain ⟨-, c2, -⟩ := hx
  obtain ⟨n1, n2, n3⟩ := c2 (id, v) (by simp)
  simp only at n1 n2 n3
  have n2' : sanitize denv id = id := n2
  have e1 : (seqSteps denv c.w.2.dir (writesOf db
      (.request (.insert 2 ((id, v) :: rows) mds)))).take 1 = [.vecTorn id] := by
    simp only [writesOf, hopen, if_true, storesOf, Live.items, List.map_cons, seqSteps, Disk.Write.steps,
      n1, if_false, n2', Disk.writeSteps]
    cases Live.mdAt mds 0 with
    | none => simp
    | some m => simp only; split <;> simp
  rw [et, e1]
  have e2 : Live.remove db.live id = db.live := by
    unfold Live.remove
    rw [List.filter_eq_self]
    intro y hy
    simp only [decide_eq_true_eq]
    intro e
    rw [Live.has_false_iff] at n3
    exact n3 (List.mem_map.2 ⟨y, hy, e⟩)
  have := hsh.torn_vec n2'
  rw [e2] at this
  exact this

end disk

/-- The unreadable item is one more file. -/
theorem left_length {denv : DiskEnv M} {d : Dir V M} {id : String} {out : List (Item V M)}
    (hL : d.Left denv out (some id)) : d.vec.length = out.length + 1 := by
  obtain ⟨hv, hp, ht, ho, hs⟩ := hL
  have hm := torn_mem ht
  have hperm : d.vec.keys.Perm (id :: Live.idsOf out) := by
    have hnid : id ∉ Live.idsOf out := by
      intro h
      rw [← Live.has_iff, ← hs.mem] at h
      simp [Dir.erased, Dict.mem, Dict.get?_pop hv] at h
    rw [List.perm_ext_iff_of_nodup hv (List.nodup_cons.2 ⟨hnid, hs.nd⟩)]
    intro a
    rw [Dict.mem_keys, List.mem_cons, ← Live.has_iff, ← hs.mem]
    simp only [Dir.erased, Dict.mem, Dict.get?_pop hv]
    by_cases h : a = id
    · subst h; simpa [Dict.mem] using hm
    · simp [h]
  have := hperm.length_eq
  rw [Dict.length_keys] at this
  simpa [Live.idsOf] using this

/-! ## An unreadable file under an HNSW index -/

section locked
variable [LinearOrder D] {denv : DiskEnv M}

theorem hnsw_loadAll_torn (env : HnswEnv V D) {s : Disk V M} {id : String} (hi : s.inited = true)
    (ho : sanitize denv id = id) (ht : s.dir.TornAt id) (l : List String) :
    ∀ f : Hnsw V, id ∈ l → ∃ e f', Hnsw.loadAll env (diskBackend denv) l f s = (.error e, f', s) := by
  induction l with
  | nil => intro f h; simp at h
  | cons x l ih =>
    intro f hid
    have est : ((diskBackend denv).retrieve s x).2 = s := retrieve_state denv s x
    by_cases hx : x = id
    · subst hx
      have e : (diskBackend denv).retrieve s x = (.error .storage, s) := retrieve_torn hi ho ht
      exact ⟨.storage, f, by simp only [Hnsw.loadAll, e]⟩
    · have hid' : id ∈ l := by
        rcases List.mem_cons.1 hid with h | h
        · exact absurd h.symm hx
        · exact h
      simp only [Hnsw.loadAll]
      generalize (diskBackend denv).retrieve s x = r at est
      rcases r with ⟨e | _ | ⟨v, m⟩, s'⟩
      · simp only at est; subst est; exact ⟨e, f, rfl⟩
      · simp only at est; subst est; exact ih f hid'
      · simp only at est; subst est; exact ih _ hid'

theorem hnsw_locked (hg : ∀ l, (denv.glob l).Perm l) (env : HnswEnv V D) {d : Dir V M} {id : String}
    {out : List (Item V M)} (hL : d.Left denv out (some id)) (f : Hnsw V) :
    Locked (hnswParts env (diskBackend denv)) ⟨(f, Disk.opened d), false⟩ := by
  have key : ∀ (h : List (ClCall (IxCall V M))) (c : Client (Hnsw V × Disk V M)), c.inited = false →
      c.w.2.dir = d → (Client.converse (hnswParts env (diskBackend denv)) c h).1 = h.map lockedOut := by
    intro h
    induction h with
    | nil => intro c _ _; rfl
    | cons x h ih =>
      rintro ⟨⟨f, s⟩, b⟩ hb hd
      simp only at hb hd
      subst hb
      obtain ⟨c', e, e1, e2⟩ : ∃ c', Client.ask (hnswParts env (diskBackend denv)) ⟨(f, s), false⟩ x =
          (lockedOut x, c') ∧ c'.inited = false ∧ c'.w.2.dir = d := by
        cases x with
        | request q => exact ⟨_, rfl, rfl, hd⟩
        | close => exact ⟨_, rfl, rfl, hd⟩
        | init =>
          have hmem : id ∈ denv.glob s.dir.vec.keys := by
            rw [(hg _).mem_iff, Dict.mem_keys, hd]; exact torn_mem hL.2.2.1
          obtain ⟨e, f', e1⟩ := hnsw_loadAll_torn (denv := denv) env (s := s.init) rfl hL.2.2.2.1
            (show s.dir.TornAt id by rw [hd]; exact hL.2.2.1) _
            { f with inited := true, levels := [[]] } hmem
          have e2 : Hnsw.init env (diskBackend denv) f s.init = (.error .index, f', s.init) := by
            have el : (diskBackend denv).list s.init none = (.ok (denv.glob s.dir.vec.keys), s.init) := rfl
            simp only [Hnsw.init, el, e1]
          refine ⟨⟨(f', s.init), false⟩, ?_, rfl, hd⟩
          have e3 : (hnswParts env (diskBackend denv)).indexInit (f, s.init) = (.error .index, f', s.init) := e2
          have e4 : (hnswParts env (diskBackend denv)).storageInit (f, s) = (.ok (), (f, s.init)) := rfl
          simp only [Client.ask, Client.init, Client.steps, e4, e3, lockedOut]
      simp only [Client.converse, e, List.map_cons, ih c' e1 e2]
  exact fun h => key h _ rfl rfl

/-! ## An unreadable file under an IVF index -/

/-- Nothing is cached for the unreadable id, and nothing wrong for others. -/
def CleanCache (out : List (Item V M)) (id : String) (c : Dict String V) : Prop :=
  c.get? id = none ∧ ∀ x v, c.get? x = some v → ∃ m, Live.find out x = some (v, m)

theorem ivf_locked (hg : ∀ l, (denv.glob l).Perm l) (env : IvfEnv V D) {d : Dir V M} {id : String}
    {out : List (Item V M)} (hL : d.Left denv out (some id)) (hn : env.nClusters ≤ (out.length + 1 : Int)) :
    Locked (ivfParts env (diskBackend denv)) ⟨(Ivf.new, Disk.opened d), false⟩ := by
  have key : ∀ (h : List (ClCall (IxCall V M))) (c : Client (Ivf V × Disk V M)), c.inited = false →
      c.w.2.dir = d → CleanCache out id c.w.1.cache →
      (Client.converse (ivfParts env (diskBackend denv)) c h).1 = h.map lockedOut := by
    intro h
    induction h with
    | nil => intro c _ _ _; rfl
    | cons x h ih =>
      rintro ⟨⟨f, s⟩, b⟩ hb hd hc
      simp only at hb hd hc
      subst hb
      obtain ⟨c', e, e1, e2, e3⟩ : ∃ c', Client.ask (ivfParts env (diskBackend denv)) ⟨(f, s), false⟩ x =
          (lockedOut x, c') ∧ c'.inited = false ∧ c'.w.2.dir = d ∧ CleanCache out id c'.w.1.cache := by
        cases x with
        | request q => exact ⟨_, rfl, rfl, hd, hc⟩
        | close => exact ⟨_, rfl, rfl, hd, ⟨rfl, fun x v h => by cases h⟩⟩
        | init =>
          have hids : ∀ x, x ∈ denv.glob s.dir.vec.keys ↔ d.vec.mem x = true := by
            intro x; rw [(hg _).mem_iff, Dict.mem_keys, hd]; rfl
          have hlen : (denv.glob s.dir.vec.keys).length = d.vec.length := by
            rw [(hg _).length_eq, hd, Dict.length_keys]
          obtain ⟨e, c', e1, e2, e3⟩ := loadVecs_spoiled (denv := denv) (s := s.init) rfl
            (show s.dir.Left denv out (some id) by rw [hd]; exact hL) (denv.glob s.dir.vec.keys) f.cache
            ((hids id).2 (torn_mem hL.2.2.1)) (fun x hx => left_own hL x ((hids x).1 hx)) hc.1 hc.2
          have el : (diskBackend denv).list s.init none = (.ok (denv.glob s.dir.vec.keys), s.init) := rfl
          obtain ⟨f', hf', e4⟩ : ∃ f' : Ivf V, f'.cache = c' ∧
              Ivf.init env (diskBackend denv) f s.init = (.error .index, f', s.init) := by
            have h1 : env.nClusters ≤ ((denv.glob s.dir.vec.keys).length : Int) := by
              rw [hlen, left_length hL]; push_cast; exact hn
            exact ⟨{ f with ids := denv.glob s.dir.vec.keys, count := (denv.glob s.dir.vec.keys).length,
                            inited := true, cache := c' }, rfl,
              by simp only [Ivf.init, el, if_pos h1, Ivf.train, if_neg (not_lt.2 h1), e1]⟩
          refine ⟨⟨(f', s.init), false⟩, ?_, rfl, hd, by rw [hf']; exact ⟨e2, e3⟩⟩
          have e5 : (ivfParts env (diskBackend denv)).indexInit (f, s.init) = (.error .index, f', s.init) := e4
          have e6 : (ivfParts env (diskBackend denv)).storageInit (f, s) = (.ok (), (f, s.init)) := rfl
          simp only [Client.ask, Client.init, Client.steps, e6, e5, lockedOut]
      simp only [Client.converse, e, List.map_cons, ih c' e1 e2 e3]
  exact fun h => key h _ rfl rfl ⟨rfl, fun x v h => by cases h⟩

/-- A client over an untrained IVF index that met an unreadable file. -/
structure SpoiledIvf (denv : DiskEnv M) (d : Dir V M) (id : String) (out : List (Item V M))
    (c : Client (Ivf V × Disk V M)) : Prop where
  flat : Spoiled denv d id out ⟨(Ivf.toFlat c.w.1, c.w.2), c.inited⟩
  raw : c.w.1.trained = false
  cl : c.w.1.clusters = []

omit [LinearOrder D] in
theorem scanVecs_spoiled {s : Disk V M} {id : String} {out : List (Item V M)}
    (hi : s.inited = true) (hL : s.dir.Left denv out (some id)) (dist : V → Except Err D)
    (l : List String) :
    ∀ (c : Dict String V), id ∈ l → (∀ x ∈ l, sanitize denv x = x) → CleanCache out id c →
      ∃ e c', scanVecs (diskBackend denv) dist l c s = (.error e, c', s) ∧ CleanCache out id c' := by
  induction l with
  | nil => intro c h; simp at h
  | cons x l ih =>
    intro c hid ho hc
    by_cases hx : x = id
    · subst hx
      refine ⟨.storage, c, ?_, hc⟩
      have e : (diskBackend denv).retrieve s x = (.error .storage, s) :=
        retrieve_torn hi hL.2.2.2.1 hL.2.2.1
      simp only [scanVecs, hc.1, e]
    · have hid' : id ∈ l := by
        rcases List.mem_cons.1 hid with h | h
        · exact absurd h.symm hx
        · exact h
      have ho' : ∀ y ∈ l, sanitize denv y = y := fun y hy => ho y (by simp [hy])
      cases hg : c.get? x with
      | some v =>
        cases hd : dist v with
        | error e => exact ⟨e, c, by simp only [scanVecs, hg, hd], hc⟩
        | ok w =>
          obtain ⟨e, c', e1, e2⟩ := ih c hid' ho' hc
          exact ⟨e, c', by simp only [scanVecs, hg, hd, e1], e2⟩
      | none =>
        have er : (diskBackend denv).retrieve s x = (.ok (Live.find out x), s) :=
          retrieve_beside hi hL hx (ho x (by simp))
        cases hfd : Live.find out x with
        | none =>
          rw [hfd] at er
          obtain ⟨e, c', e1, e2⟩ := ih c hid' ho' hc
          exact ⟨e, c', by simp only [scanVecs, hg, er, e1], e2⟩
        | some y =>
          obtain ⟨v, m⟩ := y
          rw [hfd] at er
          have hc' : CleanCache out id (c.set x v) := by
            refine ⟨by rw [Dict.get?_set, if_neg (fun h => hx h.symm)]; exact hc.1, ?_⟩
            intro y w hy
            rw [Dict.get?_set] at hy
            split at hy
            · next h => subst h; simp only [Option.some.injEq] at hy; subst hy; exact ⟨m, hfd⟩
            · exact hc.2 y w hy
          cases hd : dist v with
          | error e => exact ⟨e, c.set x v, by simp only [scanVecs, hg, er, hd], hc'⟩
          | ok w =>
            obtain ⟨e, c', e1, e2⟩ := ih (c.set x v) hid' ho' hc'
            exact ⟨e, c', by simp only [scanVecs, hg, er, hd, e1], e2⟩

theorem spoiledIvf_search (hg : ∀ l, (denv.glob l).Perm l) (env : IvfEnv V D)
    {d : Dir V M} {id : String} {out : List (Item V M)} (hL : d.Left denv out (some id))
    {c : Client (Ivf V × Disk V M)} (h : SpoiledIvf denv d id out c) (nd : Nat) (q : V) (k : Int) :
    ∃ c', Client.ask (ivfParts env (diskBackend denv)) c (.request (.search nd q k)) =
      (.reply (.error .index), c') ∧ SpoiledIvf denv d id out c' := by
  obtain ⟨⟨f, s⟩, b⟩ := c
  obtain ⟨⟨h1, h2, hcnt, h3, h4, h5, h6, h7⟩, hr, hcl⟩ := h
  simp only [Ivf.toFlat] at h1 h2 hcnt h3 h4 h5 h6 h7 hr hcl
  subst h1
  have hmem : id ∈ f.ids := by
    rw [h5, (hg _).mem_iff, Dict.mem_keys]; exact torn_mem hL.2.2.1
  by_cases hnd : nd = 1
  · obtain ⟨e, c', e1, e2⟩ := scanVecs_spoiled (denv := denv) h3 (by rw [h2]; exact hL) (env.dist q) f.ids
      f.cache hmem (by
        intro x hx
        rw [h5, (hg _).mem_iff, Dict.mem_keys] at hx
        exact left_own hL x hx) ⟨h6, h7⟩
    have hne : f.ids.isEmpty = false := by
      cases hf : f.ids with
      | nil => rw [hf] at hmem; simp at hmem
      | cons => rfl
    have es : Ivf.search env (diskBackend denv) nd q k f s =
        (.error .index, { f with cache := c' }, s) := by
      simp [Ivf.search, h4, hnd, hne, hr, Ivf.scanTop, e1]
    refine ⟨⟨({ f with cache := c' }, s), true⟩, ?_, ⟨rfl, h2, hcnt, h3, h4, h5, e2.1, e2.2⟩, hr, hcl⟩
    simp only [Client.ask, Client.request, Bool.not_true, Bool.false_eq_true, if_false, ivfParts, es, fwd]
  · have es : Ivf.search env (diskBackend denv) nd q k f s = (.error .index, f, s) := by
      simp [Ivf.search, h4, hnd]
    refine ⟨⟨(f, s), true⟩, ?_, ⟨rfl, h2, hcnt, h3, h4, h5, h6, h7⟩, hr, hcl⟩
    simp only [Client.ask, Client.request, Bool.not_true, Bool.false_eq_true, if_false, ivfParts, es, fwd]

/-- Deleting the unreadable item heals the database. -/
theorem spoiledIvf_heal (hg : ∀ l, (denv.glob l).Perm l) (env : IvfEnv V D)
    {d : Dir V M} {id : String} {out : List (Item V M)} (hL : d.Left denv out (some id))
    {c : Client (Ivf V × Disk V M)} (h : SpoiledIvf denv d id out c) :
    ∃ c', Client.ask (ivfParts env (diskBackend denv)) c (.request (.delete [id])) =
      (.reply (.ok (.flag true)), c') ∧
      Follows (diskLawful (V := V) denv hg) (· = Ivf.new) (Ivf.Inv (diskLawful (V := V) denv hg))
        ⟨true, out⟩ c' := by
  obtain ⟨⟨f, s⟩, b⟩ := c
  obtain ⟨hsp, hr, hcl⟩ := h
  have hb : b = true := hsp.isOpen
  have hfi : f.inited = true := hsp.fopen
  subst hb
  simp only at hsp hr hcl
  obtain ⟨c', e, hs⟩ := spoiled_heal (D := Nat) hg ⟨true, fun _ => 0, fun _ => true, fun _ _ => 0, fun _ => []⟩ hL hsp
  obtain ⟨-, hs2, -⟩ := hs
  obtain ⟨live', hp, hinv⟩ := hs2 rfl
  have ed : (diskBackend denv).delete s id =
      (.ok true, ⟨d.erased id, (d.erased id).vec.length, true⟩) := by
    have h2 : s.dir = d := hsp.dir
    have ho := hL.2.2.2.1
    have := Disk.delete_ready (env := denv) (s := s) hsp.sopen (id := id)
      (by rw [ho, h2]; exact torn_mem hL.2.2.1)
    rw [ho, h2] at this; exact this
  obtain ⟨f', hf'⟩ : ∃ f' : Ivf V, f' = { f with
      ids := if id ∈ f.ids then removeFirst f.ids id else f.ids,
      count := (if id ∈ f.ids then removeFirst f.ids id else f.ids).length,
      cache := f.cache.pop id, clusters := [] } := ⟨_, rfl⟩
  have ec : c'.w = (Ivf.toFlat f', ⟨d.erased id, (d.erased id).vec.length, true⟩) := by
    have e0 : Client.ask (flatParts (D := Nat) ⟨true, fun _ => 0, fun _ => true, fun _ _ => 0, fun _ => []⟩ (diskBackend denv))
        ⟨(Ivf.toFlat f, s), true⟩ (.request (.delete [id])) =
        (.reply (.ok (.flag true)),
          (⟨(Ivf.toFlat f', ⟨d.erased id, (d.erased id).vec.length, true⟩), true⟩ :
            Client (Flat V × Disk V M))) := by
      simp only [Client.ask, Client.request, Bool.not_true, Bool.false_eq_true, if_false, flatParts,
        Flat.delete, Ivf.toFlat, hfi, Flat.deleteLoop, ed, fwd, hf', if_true]
    rw [e] at e0
    simp only [Prod.mk.injEq] at e0
    rw [e0.2]
  refine ⟨⟨(f', ⟨d.erased id, (d.erased id).vec.length, true⟩), true⟩, ?_, rfl,
    fun _ => ⟨live', hp, ?_, ?_, ?_⟩, fun h => by cases h⟩
  · simp only [Client.ask, Client.request, Bool.not_true, Bool.false_eq_true, if_false, ivfParts,
      Ivf.delete, hfi, Ivf.deleteLoop, ed, fwd, hf', if_true, hcl, Ivf.dropAll, List.map_nil]
  · have := hinv.toCore
    rw [ec] at this; exact this
  · refine ⟨?_, ?_, ?_, ?_⟩
    · rw [hf']; simp
    · rw [hf']; simp [Ivf.members]
    · rw [hf']; simp [Ivf.members]
    · intro h; rw [hf'] at h; simp only at h; rw [hr] at h; cases h
  · have := hinv.cnt
    rw [ec] at this; exact this

theorem ivf_broken (hg : ∀ l, (denv.glob l).Perm l) (env : IvfEnv V D) (hk : Ivf.KMeansOk env)
    (hK : ∀ vs, vs ≠ [] → ∃ r, env.kmeans vs = .ok r) (hp : 0 ≤ env.nProbes)
    {d : Dir V M} {id : String} {out : List (Item V M)} (hL : d.Left denv out (some id))
    (hn : (out.length + 1 : Int) < env.nClusters) :
    BrokenBy denv (ivfParts env (diskBackend denv)) (fun _ _ => ∃ a b e, env.dist a b = .error e)
      (HonestDistinct (partialDist env.dist)) ⟨(Ivf.new, Disk.opened d), false⟩ id out := by
  intro qs h hok hop
  have key : ∀ (qs : List (Nat × V × Int)) (c : Client (Ivf V × Disk V M)), SpoiledIvf denv d id out c →
      ∃ as, (Client.converse (ivfParts env (diskBackend denv)) c
          (qs.map (fun q => .request (.search q.1 q.2.1 q.2.2)) ++
            .request (.delete [id]) :: h)).1.map seen =
          qs.map (fun _ => .raised) ++ .flag true :: as ∧
        Db.AllRightBy false (fun _ _ => ∃ a b e, env.dist a b = .error e)
          (HonestDistinct (partialDist env.dist)) ⟨true, out⟩ h as := by
    intro qs
    induction qs with
    | nil =>
      intro c hc
      obtain ⟨c', e, hs⟩ := spoiledIvf_heal hg env hL hc
      refine ⟨_, ?_, follows_all (ivf_serves (diskLawful denv hg) env hk hK hp) (C194_disk denv hg) h _ c' hs
        hok hop⟩
      simp only [List.map_nil, List.nil_append, Client.converse, e, List.map_cons, seen]
    | cons q qs ih =>
      intro c hc
      obtain ⟨c', e, hs⟩ := spoiledIvf_search hg env hL hc q.1 q.2.1 q.2.2
      obtain ⟨as, e2, e3⟩ := ih c' hs
      refine ⟨as, ?_, e3⟩
      simp only [List.map_cons, List.cons_append, Client.converse, e, seen, e2]
  obtain ⟨f0, hf0⟩ : ∃ f0 : Ivf V, f0 = { (Ivf.new : Ivf V) with
    ids := denv.glob d.vec.keys, count := (denv.glob d.vec.keys).length, inited := true } := ⟨_, rfl⟩
  obtain ⟨c0, hc0⟩ : ∃ c0 : Client (Ivf V × Disk V M), c0 = ⟨(f0, ⟨d, d.vec.length, true⟩), true⟩ :=
    ⟨_, rfl⟩
  have e : Client.ask (ivfParts env (diskBackend denv)) ⟨(Ivf.new, Disk.opened d), false⟩ .init =
      (.unit (.ok ()), c0) := by
    have hlen : ¬ env.nClusters ≤ ((denv.glob d.vec.keys).length : Int) := by
      rw [(hg _).length_eq, Dict.length_keys, left_length hL]; push_cast; omega
    have e1 : Ivf.init env (diskBackend denv) Ivf.new (⟨d, d.vec.length, true⟩ : Disk V M) =
        (.ok (), f0, ⟨d, d.vec.length, true⟩) := by
      have el : (diskBackend denv).list (⟨d, d.vec.length, true⟩ : Disk V M) none =
        (.ok (denv.glob d.vec.keys), ⟨d, d.vec.length, true⟩) := rfl
      simp only [Ivf.init, el, if_neg hlen, hf0]
    have e2 : (ivfParts env (diskBackend denv)).storageInit (Ivf.new, Disk.opened d) =
      (.ok (), ((Ivf.new : Ivf V), (⟨d, d.vec.length, true⟩ : Disk V M))) := rfl
    have e3 : (ivfParts env (diskBackend denv)).indexInit (Ivf.new, (⟨d, d.vec.length, true⟩ : Disk V M)) =
      (.ok (), f0, ⟨d, d.vec.length, true⟩) := e1
    have e4 : (ivfParts env (diskBackend (V := V) denv)).quantInit = none := rfl
    have e5 : (ivfParts env (diskBackend (V := V) denv)).persInit = none := rfl
    simp only [Client.ask, Client.init, Client.steps, e2, e3, e4, e5, hc0]
  obtain ⟨as, e2, e3⟩ := key qs c0 (by
    rw [hc0, hf0]
    exact ⟨⟨rfl, rfl, rfl, rfl, rfl, rfl, rfl, fun x v h => by cases h⟩, rfl, rfl⟩)
  refine ⟨as, ?_, e3⟩
  simp only [List.cons_append, Client.converse, e, List.map_cons, seen, e2]

end locked

/-! ## The theorems -/

section main
variable [LinearOrder D] (denv : DiskEnv M) (hg : ∀ l, (denv.glob l).Perm l) (s : Disk V M)
  (live : List (Item V M)) (hn : (live.map Item.id).Nodup)
  (hs : (diskLawful (V := V) denv hg).inv (Disk.init s))
  (hl : ∀ id, (diskLawful (V := V) denv hg).content (Disk.init s) id = Live.find live id)

/-- A client over an HNSW index after a history that began on the storage `s` (harness). -/
def hnswThen (env : HnswEnv V D) (denv : DiskEnv M) (s : Disk V M) (h : List (ClCall (IxCall V M))) :
    Client (Hnsw V × Disk V M) :=
  (Client.converse (hnswParts env (diskBackend denv)) ⟨(Hnsw.new, s), false⟩ h).2

/-- A client over an IVF index after a history that began on the storage `s` (harness). -/
def ivfThen (env : IvfEnv V D) (denv : DiskEnv M) (s : Disk V M) (h : List (ClCall (IxCall V M))) :
    Client (Ivf V × Disk V M) :=
  (Client.converse (ivfParts env (diskBackend denv)) ⟨(Ivf.new, s), false⟩ h).2

/-- What a new process finds when the HNSW client dies after `n` file steps of a further call. -/
def hnswDied (env : HnswEnv V D) (denv : DiskEnv M) (s : Disk V M) (h : List (ClCall (IxCall V M)))
    (x : ClCall (IxCall V M)) (n : Nat) : Client (Hnsw V × Disk V M) :=
  Client.diedOf (hnswParts env (tapeDisk denv)) Hnsw.new (hnswThen env denv s h) x n

/-- What a new process finds when the IVF client dies after `n` file steps of a further call. -/
def ivfDied (env : IvfEnv V D) (denv : DiskEnv M) (s : Disk V M) (h : List (ClCall (IxCall V M)))
    (x : ClCall (IxCall V M)) (n : Nat) : Client (Ivf V × Disk V M) :=
  Client.diedOf (ivfParts env (tapeDisk denv)) Ivf.new (ivfThen env denv s h) x n

include hg hn hs hl in
/-- **C217** (partial: what is left, and whether it can be opened) An HNSW database on disk after the death
of its process.  The client had any history `h` and dies during a further call `x`, after any number of
file steps.  All earlier calls are complete and `x` is done up to some point of its sequence of edits.
Either a new client, with any random choices, finds exactly these items, with all answers right from then
on; or an item is half written, and the database cannot be opened any more, by whatever calls. -/
theorem C217_hnsw_after_death_partial (env env' : HnswEnv V D) (h : List (ClCall (IxCall V M)))
    (x : ClCall (IxCall V M))
    (hok : Db.HistOk (OwnName denv) (fun m => denv.picklable m = true) false ⟨false, live⟩ (h ++ [x]))
    (hop : Db.OpensClosed false (⟨false, live⟩ : Db V M) h)
    (hnew : NewNames (hnswThen env denv s h).w.2.dir x) (n : Nat) :
    ∃ out bad, Edit.Interrupted (Db.after false ⟨false, live⟩ h).live
        (Edit.ofCall (Db.after false ⟨false, live⟩ h) x) out bad ∧
      match bad with
      | none => FindsBy denv (hnswParts env' (diskBackend denv))
          (fun live c => ∃ q k, c = .search 1 q k ∧ ∃ y ∈ live, ∃ e, env'.dist q y.vec = .error e)
          (Db.Honest (partialDist env'.dist)) (hnswDied env denv s h x n) out
      | some _ => Locked (hnswParts env' (diskBackend denv)) (hnswDied env denv s h x n) := by
  obtain ⟨ok1, ok2⟩ := histOk_append h [x] _ hok
  have hF := follows_after (hnsw_serves (diskLawful (V := V) denv hg) env) (C194_disk denv hg) h
    ⟨false, live⟩ ⟨(Hnsw.new, s), false⟩
    ⟨rfl, (fun h => by cases h), fun _ => ⟨⟨0, rfl⟩, hn, hs, hl⟩⟩ ok1 hop
  obtain ⟨out, bad, e1, e2⟩ := died_left (hnsw_serves (diskLawful (V := V) denv hg) env)
    (hnsw_taped env denv) (fun live t hi => hi.gr.inited) hF x ok2.1 hnew n
  refine ⟨out, bad, e1, ?_⟩
  cases bad with
  | none => exact findsBy_left (hnsw_serves (diskLawful (V := V) denv hg) env') ⟨0, rfl⟩ e2
  | some id => exact hnsw_locked hg env' e2 Hnsw.new

include hg hn hs hl in
/-- **C217** (partial) An IVF database on disk after the death of its process: as for HNSW, but a database
with a half written item cannot be opened only when it holds as many files as the index wants clusters;
with fewer files it opens, every search raises until the item is deleted, and then all is right. -/
theorem C217_ivf_after_death_partial (env env' : IvfEnv V D) (hk : Ivf.KMeansOk env)
    (hK : ∀ vs, vs ≠ [] → ∃ r, env.kmeans vs = .ok r) (hp : 0 ≤ env.nProbes) (hk' : Ivf.KMeansOk env')
    (hK' : ∀ vs, vs ≠ [] → ∃ r, env'.kmeans vs = .ok r) (hp' : 0 ≤ env'.nProbes)
    (h : List (ClCall (IxCall V M))) (x : ClCall (IxCall V M))
    (hok : Db.HistOk (OwnName denv) (fun m => denv.picklable m = true) false ⟨false, live⟩ (h ++ [x]))
    (hop : Db.OpensClosed false (⟨false, live⟩ : Db V M) h)
    (hnew : NewNames (ivfThen env denv s h).w.2.dir x) (n : Nat) :
    ∃ out bad, Edit.Interrupted (Db.after false ⟨false, live⟩ h).live
        (Edit.ofCall (Db.after false ⟨false, live⟩ h) x) out bad ∧
      match bad with
      | none => FindsBy denv (ivfParts env' (diskBackend denv))
          (fun _ _ => ∃ a b e, env'.dist a b = .error e) (HonestDistinct (partialDist env'.dist))
          (ivfDied env denv s h x n) out
      | some id =>
        (env'.nClusters ≤ (out.length + 1 : Int) →
          Locked (ivfParts env' (diskBackend denv)) (ivfDied env denv s h x n)) ∧
        ((out.length + 1 : Int) < env'.nClusters →
          BrokenBy denv (ivfParts env' (diskBackend denv))
            (fun _ _ => ∃ a b e, env'.dist a b = .error e) (HonestDistinct (partialDist env'.dist))
            (ivfDied env denv s h x n) id out) := by
  obtain ⟨ok1, ok2⟩ := histOk_append h [x] _ hok
  have hF := follows_after (ivf_serves (diskLawful (V := V) denv hg) env hk hK hp) (C194_disk denv hg) h
    ⟨false, live⟩ ⟨(Ivf.new, s), false⟩
    ⟨rfl, (fun h => by cases h), fun _ => ⟨rfl, hn, hs, hl⟩⟩ ok1 hop
  obtain ⟨out, bad, e1, e2⟩ := died_left (ivf_serves (diskLawful (V := V) denv hg) env hk hK hp)
    (ivf_taped env denv) (fun live t hi => hi.core.inited) hF x ok2.1 hnew n
  refine ⟨out, bad, e1, ?_⟩
  cases bad with
  | none => exact findsBy_left (ivf_serves (diskLawful (V := V) denv hg) env' hk' hK' hp') rfl e2
  | some id =>
    exact ⟨fun hc => ivf_locked hg env' e2 hc, fun hc => ivf_broken hg env' hk' hK' hp' e2 hc⟩

include hg hn hs hl in
/-- **C217, refuted:** a death leaves an HNSW database that can be opened again.  Every insert of at least
one vector has a moment at which it does not: `initialize` raises for ever and every request is refused, so
that not even the half written item can be deleted through a client. -/
theorem C217_hnsw_locked_refuted (env env' : HnswEnv V D) (h : List (ClCall (IxCall V M))) (id : String)
    (v : V) (rows : List (String × V)) (mds : Option (List (Option M)))
    (hok : Db.HistOk (OwnName denv) (fun m => denv.picklable m = true) false ⟨false, live⟩
      (h ++ [.request (.insert 2 ((id, v) :: rows) mds)]))
    (hop : Db.OpensClosed false (⟨false, live⟩ : Db V M) h)
    (hopen : (Db.after false ⟨false, live⟩ h).isOpen = true) :
    Locked (hnswParts env' (diskBackend denv))
      (hnswDied env denv s h (.request (.insert 2 ((id, v) :: rows) mds)) 1) := by
  obtain ⟨ok1, ok2⟩ := histOk_append h _ _ hok
  have hF := follows_after (hnsw_serves (diskLawful (V := V) denv hg) env) (C194_disk denv hg) h
    ⟨false, live⟩ ⟨(Hnsw.new, s), false⟩
    ⟨rfl, (fun h => by cases h), fun _ => ⟨⟨0, rfl⟩, hn, hs, hl⟩⟩ ok1 hop
  exact hnsw_locked hg env' (died_torn (hnsw_serves (diskLawful (V := V) denv hg) env)
    (hnsw_taped env denv) (fun live t hi => hi.gr.inited) hF hopen id v rows mds (ok2.1 hopen)) Hnsw.new

include hg hn hs hl in
/-- **C217, refuted:** a death leaves an IVF database that can be opened again.  Every insert into a
database with at least as many vectors as clusters (one less is enough) has a moment at which it does
not. -/
theorem C217_ivf_locked_refuted (env env' : IvfEnv V D) (hk : Ivf.KMeansOk env)
    (hK : ∀ vs, vs ≠ [] → ∃ r, env.kmeans vs = .ok r) (hp : 0 ≤ env.nProbes)
    (h : List (ClCall (IxCall V M))) (id : String)
    (v : V) (rows : List (String × V)) (mds : Option (List (Option M)))
    (hok : Db.HistOk (OwnName denv) (fun m => denv.picklable m = true) false ⟨false, live⟩
      (h ++ [.request (.insert 2 ((id, v) :: rows) mds)]))
    (hop : Db.OpensClosed false (⟨false, live⟩ : Db V M) h)
    (hopen : (Db.after false ⟨false, live⟩ h).isOpen = true)
    (hc : env'.nClusters ≤ ((Db.after false ⟨false, live⟩ h).live.length + 1 : Int)) :
    Locked (ivfParts env' (diskBackend denv))
      (ivfDied env denv s h (.request (.insert 2 ((id, v) :: rows) mds)) 1) := by
  obtain ⟨ok1, ok2⟩ := histOk_append h _ _ hok
  have hF := follows_after (ivf_serves (diskLawful (V := V) denv hg) env hk hK hp) (C194_disk denv hg) h
    ⟨false, live⟩ ⟨(Ivf.new, s), false⟩
    ⟨rfl, (fun h => by cases h), fun _ => ⟨rfl, hn, hs, hl⟩⟩ ok1 hop
  exact ivf_locked hg env' (died_torn (ivf_serves (diskLawful (V := V) denv hg) env hk hK hp)
    (ivf_taped env denv) (fun live t hi => hi.core.inited) hF hopen id v rows mds (ok2.1 hopen)) hc

end main

/-- Two vectors are in the database, another is being inserted; the index wants two clusters. -/
example :
    let s : Disk Nat Nat := Disk.opened (emptyDir Nat Nat)
    let h : List (ClCall (IxCall Nat Nat)) := [.init, .request (.insert 2 [("a", 3), ("b", 30)] (some [some 1]))]
    let x : ClCall (IxCall Nat Nat) := .request (.insert 2 [("c", 8)] none)
    Db.HistOk (OwnName exEnv) (fun m => exEnv.picklable m = true) false (⟨false, []⟩ : Db Nat Nat) (h ++ [x]) ∧
    Db.OpensClosed false (⟨false, []⟩ : Db Nat Nat) h ∧
    NewNames (hnswThen exHnswAll exEnv s h).w.2.dir x ∧ NewNames (ivfThen exIvfAll exEnv s h).w.2.dir x ∧
    (Db.after false ⟨false, []⟩ h).isOpen = true ∧
    exIvfAll.nClusters ≤ ((Db.after false ⟨false, []⟩ h).live.length + 1 : Int) := by
  refine ⟨?_, ?_, ?_, ?_, rfl, by decide⟩
  · simp [Db.HistOk, Db.next, Live.CallOk, Live.next, Live.items, Live.has, OwnName]
    decide +kernel
  · simp [Db.OpensClosed]
  · intro r hr
    simp at hr
    subst hr; decide +kernel
  · intro r hr
    simp at hr
    subst hr; decide +kernel

end Valori.Props
