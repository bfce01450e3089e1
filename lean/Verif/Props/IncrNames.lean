import Verif.Props.PersistStats

/-!
# C247: names of index files and saved states
-/

namespace Valori.Props
open Valori Valori.Spec Valori.Incr

variable {S V I A : Type}

theorem init_files (f : Incr S V A) : (init f).disk = f.disk := by
  unfold init loadInfo
  cases f.disk.info with
  | none => rfl
  | some i => cases i <;> rfl

/-- Files are never removed. -/
theorem call_keeps (env : IpEnv S I A) (f : Incr S V A) (c : IpCall S V I) {x : String}
    (h : (f.disk.files.get? x).isSome) : ((call env f c).2.disk.files.get? x).isSome := by
  have hput : ∀ (g : Incr S V A) name c, (g.disk.files.get? x).isSome →
      ((put name c g).disk.files.get? x).isSome := by
    intro g name c hg
    rw [put_get]
    split
    · rfl
    · exact hg
  have hfile : ∀ op name q c pt, ((crashFile env op name q c pt f).files.get? x).isSome := by
    intro op name q c pt
    cases pt with
    | start => exact h
    | fileTorn => exact hput _ _ _ h
    | fileDone => exact hput _ _ _ h
    | logTorn => exact hput _ _ _ h
    | logDone => exact hput _ _ _ h
    | info2Torn =>
      simp only [crashFile, crashInfo2]
      split <;> exact hput _ _ _ h
  cases c with
  | saveState s p =>
    simp only [call, saveState]
    split
    · exact h
    split
    · exact hput _ _ _ h
    · rw [logOp_files]; exact hput _ _ _ h
  | saveVecs v ids p =>
    simp only [call, saveVecs]
    split
    · exact h
    cases env.idsArr ids with
    | none => exact h
    | some a =>
      dsimp only
      split
      · exact hput _ _ _ h
      · rw [logOp_files]; exact hput _ _ _ h
  | saveIndex s p =>
    simp only [call, saveIndex]
    split
    · exact h
    split
    · exact hput _ _ _ h
    · rw [logOp_files]; exact hput _ _ _ h
  | loadState p => exact h
  | loadVecs p => exact h
  | loadIndex p => exact h
  | close => exact h
  | reopen => show ((init f).disk.files.get? x).isSome; rw [init_files]; exact h
  | crashState s p pt =>
    show ((init (new (crashState env s p pt f))).disk.files.get? x).isSome
    rw [init_files]
    show ((crashState env s p pt f).files.get? x).isSome
    unfold crashState
    split
    · exact h
    · dsimp only
      split
      · exact h
      · exact hput _ _ _ h
      · exact hput _ _ _ h
      · exact hput _ _ _ h
      · exact hput _ _ _ h
      · exact hput _ _ _ h
      · exact hput _ _ _ h
      · simp only [crashInfo2]
        split <;> exact hput _ _ _ h
  | crashVecs v ids p pt =>
    show ((init (new (crashVecs env v ids p pt f))).disk.files.get? x).isSome
    rw [init_files]
    show ((crashVecs env v ids p pt f).files.get? x).isSome
    unfold crashVecs
    split
    · exact h
    · cases env.idsArr ids with
      | none => exact h
      | some a => exact hfile _ _ _ _ _
  | crashIndex s p pt =>
    show ((init (new (crashIndex env s p pt f))).disk.files.get? x).isSome
    rw [init_files]
    show ((crashIndex env s p pt f).files.get? x).isSome
    unfold crashIndex
    split
    · exact h
    · exact hfile _ _ _ _ _

theorem run_keeps (env : IpEnv S I A) (f : Incr S V A) (h : List (IpCall S V I)) {x : String}
    (hx : (f.disk.files.get? x).isSome) : ((Incr.run env f h).2.disk.files.get? x).isSome := by
  induction h with
  | nil => exact hx
  | cons c h ih => exact call_keeps env _ c ih

/-- **C247**, for names that are not those of checkpoints: saving an index, also one that does not pickle, does not
change what `load_state` gives.  As everywhere in `Model/Incr` a path stands for the file of that name: `./x`, which
is the same file as `x`, is not meant. -/
theorem C247_other_names_partial (env : IpEnv S I A) (f : Incr S V A) (s : S) (p q : String) (hp : globMatch p = false) :
    loadState env q (saveIndex env s p f).2 = loadState env q f := by
  have key : ∀ g : Incr S V A, g.inited = f.inited → (∃ c, g.disk.files = f.disk.files.set p c) →
      loadState env q g = loadState env q f := by
    rintro g hg ⟨c, hc⟩
    have hget : ∀ n, globMatch n = true → g.disk.files.get? n = f.disk.files.get? n := by
      intro n hn
      rw [hc, Dict.get?_set, if_neg]
      rintro rfl
      rw [hp] at hn; cases hn
    simp only [loadState, hg]
    rw [hc, filter_set_other p c hp, ← hc]
    split
    · rfl
    split
    · rfl
    cases hm : (f.disk.files.keys.filter globMatch).mapM (fun n => (ckptNo env.parse n).map fun i => (i, n)) with
    | none => rfl
    | some l =>
      dsimp only
      cases hl : (pySortBy (fun x : Int × String => x.1) l).getLast? with
      | none => rfl
      | some x =>
        obtain ⟨i, n⟩ := x
        dsimp only
        rw [hget n]
        have h1 : (i, n) ∈ l := (pySortBy_perm _ _).mem_iff.1 (List.mem_of_getLast? hl)
        have h2 : ∀ (ns : List String) (l : List (Int × String)),
            ns.mapM (fun n => (ckptNo env.parse n).map fun i => (i, n)) = some l → ∀ x ∈ l, x.2 ∈ ns := by
          intro ns
          induction ns with
          | nil => intro l hl; simp at hl; subst hl; simp
          | cons a ns ih =>
            intro l hl
            simp only [List.mapM_cons, Option.pure_def, Option.bind_eq_bind, Option.bind_eq_some_iff,
              Option.some.injEq, Option.map_eq_some_iff] at hl
            obtain ⟨_, ⟨j, _, rfl⟩, ys, h2, rfl⟩ := hl
            intro x hx
            rcases List.mem_cons.1 hx with rfl | hx
            · exact List.mem_cons_self
            · exact List.mem_cons_of_mem _ (ih _ h2 x hx)
        exact (List.mem_filter.1 (h2 _ _ hm _ h1)).2
  unfold saveIndex
  split
  · rfl
  split
  · exact key _ rfl ⟨_, rfl⟩
  · refine key _ ?_ ⟨.pickle s, by rw [logOp_files]; rfl⟩
    simp only [logOp, maybeCheckpoint]
    split <;> rfl

/-- **C247 (refuted)** An index saved under a name like `checkpoint_old.pkl`: `load_state` raises from then on, whatever is
saved later, also after restarts and crashes. -/
theorem C247_bad_name_refuted (env : IpEnv S I A) (f : Incr S V A) (hi : f.inited = true) (s : S) (p : String)
    (hp : globMatch p = true) (hn : ckptNo env.parse p = none) (h : List (IpCall S V I)) (q : String) :
    loadState env q (Incr.run env (saveIndex env s p f).2 h).2 = .error .persistence := by
  have h0 : ((saveIndex env s p f).2.disk.files.get? p).isSome := by
    simp only [saveIndex, hi]
    split
    · cases ‹_›
    split
    · simp [Incr.put, Dict.get?_set_self]
    · rw [logOp_files]; simp [Incr.put, Dict.get?_set_self]
  have h1 := run_keeps env _ h h0
  generalize (Incr.run env (saveIndex env s p f).2 h).2 = g at h1
  have hm : p ∈ g.disk.files.keys.filter globMatch := List.mem_filter.2 ⟨(Dict.mem_keys _ _).2 h1, hp⟩
  have hnone : ∀ ns : List String, p ∈ ns →
      ns.mapM (fun n => (ckptNo env.parse n).map fun i => (i, n)) = none := by
    intro ns
    induction ns with
    | nil => intro h; cases h
    | cons a ns ih =>
      intro h
      rw [List.mapM_cons]
      rcases List.mem_cons.1 h with rfl | h
      · simp [hn]
      · rw [ih h]
        cases ckptNo env.parse a <;> rfl
  simp only [loadState, hnone _ hm]
  split
  · rfl
  split
  · next he => rw [List.isEmpty_iff] at he; rw [he] at hm; cases hm
  · rfl

/-- **C247 (refuted)** An index saved under the name of a checkpoint whose number is above all others, such as
`checkpoint_1000.pkl`, is what `load_state` gives instead of the saved state. -/
theorem C247_taken_for_state_refuted (env : IpEnv S I A) (hpar : ∀ n : Nat, env.parse (toString n) = some (n : Int))
    (f : Incr S V A) (hi : f.inited = true) (s : S) (hs : env.picklable s = true) (n : Nat)
    (hg : ∀ x ∈ f.disk.files.keys, globMatch x = true → ∃ m, x = ckptName m ∧ m ≤ n) (q : String) :
    loadState env q (saveIndex env s (ckptName n) f).2 = .ok (some s) := by
  have he : (saveIndex env s (ckptName n) f).2 = logOp env.interval "save_index" (ckptName n) (put (ckptName n) (.pickle s) f) := by
    simp [saveIndex, hi, hs]
  rw [he]
  have hfiles := logOp_files env.interval "save_index" (ckptName n) (put (ckptName n) (.pickle s) f)
  have hin : (logOp env.interval "save_index" (ckptName n) (put (ckptName n) (.pickle s) f)).inited = true := by
    simp only [logOp, maybeCheckpoint]
    split <;> exact hi
  have hkeys : ∀ x ∈ (logOp env.interval "save_index" (ckptName n) (put (ckptName n) (.pickle s) f)).disk.files.keys,
      globMatch x = true → ∃ m, x = ckptName m ∧ m ≤ n := by
    intro x hx hgx
    rw [hfiles, Dict.mem_keys, put_get] at hx
    by_cases e : x = ckptName n
    · exact ⟨n, e, Nat.le_refl _⟩
    · rw [if_neg e, ← Dict.mem_keys] at hx
      exact hg x hx hgx
  rw [load_top hpar hin (fun x hx hgx => (hkeys x hx hgx).imp fun _ h => h.1) (n := n)
    (by rw [hfiles, Dict.mem_keys, put_get, if_pos rfl]; rfl)
    (fun m hm => by
      obtain ⟨k, hk, hle⟩ := hkeys _ hm (glob_ckpt m)
      rw [ckptName_inj hk]; exact hle)]
  rw [hfiles, put_get, if_pos rfl]

/-- **C247 (refuted)** An index saved under the name of the next checkpoint is lost with the next `save_state`: `load_index` then
gives the state. -/
theorem C247_overwritten_refuted (env : IpEnv S I A) (f : Incr S V A) (hi : f.inited = true) (s t : S)
    (hs : env.picklable s = true) (ht : env.picklable t = true) (q : String) :
    let g := (saveIndex env s (ckptName (f.count + 1)) f).2
    loadIndex (ckptName (f.count + 1)) g = .ok (some s) ∧
    loadIndex (ckptName (f.count + 1)) (saveState env t q g).2 = .ok (some t) := by
  intro g
  have he : g = logOp env.interval "save_index" (ckptName (f.count + 1)) (put (ckptName (f.count + 1)) (.pickle s) f) := by
    simp [g, saveIndex, hi, hs]
  have hin : ∀ (k : Int) op p (f : Incr S V A), (logOp k op p f).inited = f.inited := by
    intro k op p f; simp only [logOp, maybeCheckpoint]; split <;> rfl
  have hg : g.inited = true := by rw [he, hin]; exact hi
  have hc : g.count = f.count + 1 := by rw [he, (logOp_both _ _ _ _).2]; rfl
  constructor
  · simp only [loadIndex, hg]
    rw [he, logOp_files, put_get, if_pos rfl]
    rfl
  · have h2 : (saveState env t q g).2 = logOp env.interval "save_state" q
        (saveInfo { put (ckptName g.count) (.pickle t) g with last := (put (ckptName g.count) (.pickle t) g).count }) := by
      simp [saveState, hg, ht]
    have h3 : (saveState env t q g).2.inited = true := by rw [h2, hin]; exact hg
    simp only [loadIndex, h3]
    rw [h2, logOp_files]
    show (if (!true) = true then _ else match (put (ckptName g.count) (.pickle t) g).disk.files.get? _ with
      | none => _ | some (.pickle s) => _ | some _ => _) = _
    rw [put_get, hc, if_pos rfl]
    rfl

-- names: an ordinary one, one that is no number, one that is
example : globMatch "idx.pkl" = false ∧ globMatch "checkpoint_old.pkl" = true ∧
    ckptNo (exIp 3).parse "checkpoint_old.pkl" = none ∧ globMatch "checkpoint_7.pkl" = true ∧
    ckptName 7 = "checkpoint_7.pkl" := by decide +kernel

-- a manager with a saved state; the index hides it, and the other name makes loading impossible
example : let f : Incr String Nat (List Nat) := (ipRun (exIp 3) [.saveState "a" "p", .reopen]).2
    f.inited = true ∧ (exIp 3).picklable "i" = true ∧ loadState (exIp 3) "p" f = .ok (some "a") ∧
    (∀ x ∈ f.disk.files.keys, globMatch x = true → x = ckptName 0) ∧
    loadState (exIp 3) "p" (saveIndex (exIp 3) "i" (ckptName 7) f).2 = .ok (some "i") ∧
    loadState (exIp 3) "p" (saveIndex (exIp 3) "i" "checkpoint_old.pkl" f).2 = .error .persistence ∧
    loadState (exIp 3) "p" (saveIndex (exIp 3) "i" "idx.pkl" f).2 = .ok (some "a") := by decide +kernel

end Valori.Props
