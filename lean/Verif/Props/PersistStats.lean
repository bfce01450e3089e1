import Verif.Model.PersistStats
import Verif.Props.Tensor
import Verif.Props.IncrFiles
import Mathlib.Data.List.Dedup

/-!
# Properties C174 - C177: the log after a crash, replies and statistics of the persistence managers
-/

namespace Valori.Props
open Valori Valori.Spec Valori.Incr

variable {S V I A : Type}

/-! ## C174 -/

/-- **C174 (refuted).** A process that dies while it writes a log line leaves a piece without newline.
Whatever was done before on an open manager, the first save acknowledged after the restart has no
readable line in the log. -/
theorem C174_cut_log_refuted (env : IpEnv S I A) (f : Incr S V A) (hf : f.inited = true) (a b : S)
    (ha : env.picklable a = true) (hb : env.picklable b = true) (p q : String) :
    let g := (Incr.call env f (.crashIndex a p .logTorn : IpCall S V I)).2
    (Incr.saveIndex env b q g).1 = .ok true ∧
    (Incr.saveIndex env b q g).2.disk.log = f.disk.log ++ [none] := by
  have hc : (Incr.call env f (.crashIndex a p .logTorn : IpCall S V I)).2 =
      Incr.init (Incr.new (tornLog (Incr.put p (.pickle a) f)).disk) := by
    simp [Incr.call, crashIndex, hf, ha, crashFile]
  have hd : ∀ g : Incr S V A, (Incr.init g).disk = g.disk := by
    intro g; simp only [Incr.init, loadInfo]; split <;> rfl
  have hl : ∀ (op x : String) (g : Incr S V A), (logOp env.interval op x g).disk.log =
      g.disk.log ++ [if g.disk.cut then none else some ⟨op, x, g.count⟩] := by
    intro op x g; simp only [logOp, maybeCheckpoint]; split <;> rfl
  intro g
  have hg : g.inited = true := by simp [g, hc, Incr.init]
  have hgd : g.disk = (tornLog (Incr.put p (.pickle a) f)).disk := by simp [g, hc, hd, Incr.new]
  constructor
  · simp [Incr.saveIndex, hg, hb]
  · simp only [Incr.saveIndex, hg, hb, Bool.not_true, Bool.false_eq_true, if_false, hl]
    simp [Incr.put, hgd, tornLog]

/-- **C174**, weaker form: only one line is lost.  In a session on a manager whose log ends in a piece of
a line, every acknowledged save but the first has its line, with its number.  Missing: the first one. -/
theorem C174_cut_log_partial (env : IpEnv S I A) (f : Incr S V A) (hf : f.inited = true)
    (hcut : f.disk.cut = true) (h : List (IpCall S V I)) (hs : ∀ c ∈ h, c.inSession = true) :
    (Incr.run env f h).2.disk.log = f.disk.log ++
      (match numbered (Incr.run env f h).1 f.count with
        | [] => []
        | _ :: l => none :: l) := by
  rw [(session_log env f hf h hs).1, hcut]
  cases numbered (Incr.run env f h).1 f.count <;> rfl

/-- A save cut off in its log line, then two acknowledged saves: one line can be read. -/
example :
    let f := (ipRun (exIp 3) ([.crashIndex "a" "x" .logTorn, .reopen] : List (IpCall String Nat (List Nat)))).2
    f.inited = true ∧ f.disk.cut = true ∧
    (Incr.run (exIp 3) f [.saveIndex "c" "z", .saveIndex "b" "y"]).2.disk.log =
      [none, some ⟨"save_index", "z", 1⟩] := by
  refine ⟨?_, ?_, ?_⟩ <;> decide +kernel

/-! ## C175 -/

/-- **C175** Replies of tensor persistence.  A closed manager refuses every call with PersistenceError and
changes nothing.  On an open one a save answers True exactly if the file can be written and the data can
be encoded; otherwise it raises PersistenceError. -/
theorem C175_tensor_replies (env : TpEnv S I A) (f : Tensor S V A) (s : S) (v : V) (ids : I) (p : String)
    (io : Bool) :
    (f.inited = false →
      Tensor.saveState env s p io f = (.error .persistence, f) ∧
      Tensor.saveIndex env s p io f = (.error .persistence, f) ∧
      Tensor.saveVecs env v ids p io f = (.error .persistence, f) ∧
      Tensor.loadState p f = (.error .persistence, f) ∧
      Tensor.loadIndex p f = (.error .persistence, f) ∧
      Tensor.loadVecs env p f = (.error .persistence, f)) ∧
    (f.inited = true →
      (Tensor.saveState env s p io f).1 =
        (if io = true ∧ env.picklable s = true then .ok true else .error .persistence) ∧
      (Tensor.saveIndex env s p io f).1 =
        (if io = true ∧ env.picklable s = true then .ok true else .error .persistence) ∧
      (Tensor.saveVecs env v ids p io f).1 =
        (if io = true ∧ (env.idsArr ids).isSome = true then .ok true else .error .persistence)) := by
  refine ⟨fun h => ?_, fun h => ?_⟩
  · simp [Tensor.saveState, Tensor.saveIndex, Tensor.saveVecs, Tensor.loadState, Tensor.loadIndex,
      Tensor.loadVecs, h]
  · simp only [Tensor.saveState, Tensor.saveIndex, Tensor.saveVecs, h]
    cases io <;> cases env.picklable s <;> cases env.idsArr ids <;> simp

/-- **C175** Ids that cannot be turned back into a list make a load of vectors raise PersistenceError. -/
theorem C175_tensor_ids (env : TpEnv S I A) (f : Tensor S V A) (h : f.inited = true) (p : String) (v : V)
    (a : A) (hp : f.files.get? p = some (.npz v a)) (ha : env.idsList a = none) :
    Tensor.loadVecs env p f = (.error .persistence, f) := by
  simp [Tensor.loadVecs, h, hp, ha]

/-- **C175** A failing `save_index` breaks its own path and no other: afterwards `load_index` of the path
raises, whatever was there, and every other path loads as before. -/
theorem C175_index_failed (env : TpEnv S I A) (f : Tensor S V A) (h : f.inited = true) (s : S)
    (hs : env.picklable s = false) (p : String) :
    (Tensor.loadIndex p (Tensor.saveIndex env s p true f).2).1 = .error .persistence ∧
    ∀ q, q ≠ p → (Tensor.loadIndex q (Tensor.saveIndex env s p true f).2).1 = (Tensor.loadIndex q f).1 := by
  have e : (Tensor.saveIndex env s p true f).2 = { f with files := f.files.set p .torn } := by
    simp [Tensor.saveIndex, h, hs]
  rw [e]
  refine ⟨by simp [Tensor.loadIndex, h], fun q hq => ?_⟩
  simp only [Tensor.loadIndex, h, Dict.get?_set, if_neg hq]
  (repeat' split) <;> simp_all

example : exTp.picklable "" = false ∧ exTp.picklable "a" = true ∧ (exTp.idsArr [1, 2, 3]).isSome = false ∧
    (Tensor.init (Tensor.new (S := String) (V := Nat) (A := List Nat) [("i", .pickle "o")])).inited = true := by
  decide

/-- Ids that cannot be read back. -/
example : (({ exTp with idsList := fun _ => none } : TpEnv String (List Nat) (List Nat))).idsList [1] = none ∧
    (Tensor.init (Tensor.new (S := String) (V := Nat) (A := List Nat) [("i", .npz 1 [1])])).files.get? "i" =
      some (.npz 1 [1]) := by decide

/-! ## C176 -/

/-- The paths a history (newest first) has written to, with the ones whose contents could not be encoded:
saves of objects on an open manager that the operating system did not refuse, and acknowledged saves of
vectors, whose path gets the ending ".npz". -/
def writtenTo : List (TpCall S V I × TpReply S V I) → List String
  | [] => []
  | (.saveState _ p io, _) :: h => if io && opened h then p :: writtenTo h else writtenTo h
  | (.saveIndex _ p io, _) :: h => if io && opened h then p :: writtenTo h else writtenTo h
  | (.saveVecs _ _ p _, .saved) :: h => npzName p :: writtenTo h
  | _ :: h => writtenTo h

theorem set_keys {α : Type} {d : Dict String α} {l : List String} (hn : d.keys.Nodup)
    (hm : ∀ x, x ∈ d.keys ↔ x ∈ l) (p : String) (a : α) :
    (d.set p a).keys.Nodup ∧ ∀ x, x ∈ (d.set p a).keys ↔ x ∈ p :: l := by
  refine ⟨Dict.nodup_set hn p a, fun x => ?_⟩
  rw [Dict.mem_keys, Dict.get?_set, List.mem_cons, ← hm, Dict.mem_keys]
  by_cases h : x = p <;> simp [h]

theorem tp_keys (env : TpEnv S I A) (h : List (TpCall S V I)) :
    let R := Tensor.run (V := V) env (Tensor.new []) h
    R.2.files.keys.Nodup ∧ ∀ x, x ∈ R.2.files.keys ↔ x ∈ writtenTo R.1 := by
  induction h with
  | nil => simp [Tensor.run, Tensor.new, Dict.keys, writtenTo]
  | cons c h ih =>
    have ho := tp_opened (env := env) h (Tensor.new [] : Tensor S V A) rfl
    simp only [Tensor.run]
    generalize hR : Tensor.run (V := V) env (Tensor.new []) h = R at ih ho
    obtain ⟨tr, f⟩ := R
    simp only at ih ho ⊢
    obtain ⟨i1, i2⟩ := ih
    cases c with
    | init => exact ⟨i1, i2⟩
    | close => exact ⟨i1, i2⟩
    | reopen => exact ⟨i1, i2⟩
    | loadState q =>
      simp only [Tensor.call, Tensor.loadState, writtenTo]
      (repeat' split) <;> exact ⟨i1, i2⟩
    | loadIndex q =>
      simp only [Tensor.call, Tensor.loadIndex, writtenTo]
      (repeat' split) <;> exact ⟨i1, i2⟩
    | loadVecs q =>
      simp only [Tensor.call, Tensor.loadVecs, writtenTo]
      (repeat' split) <;> exact ⟨i1, i2⟩
    | saveState s q io =>
      simp only [Tensor.call, Tensor.saveState, writtenTo, ← ho]
      cases f.inited <;> cases io <;> cases env.picklable s <;>
        first | exact ⟨i1, i2⟩ | exact set_keys i1 i2 q _
    | saveIndex s q io =>
      simp only [Tensor.call, Tensor.saveIndex, writtenTo, ← ho]
      cases f.inited <;> cases io <;> cases env.picklable s <;>
        first | exact ⟨i1, i2⟩ | exact set_keys i1 i2 q _
    | saveVecs v ids q io =>
      simp only [Tensor.call, Tensor.saveVecs]
      cases f.inited <;> cases io <;> cases env.idsArr ids <;>
        first | exact ⟨i1, i2⟩ | exact set_keys i1 i2 (npzName q) _

theorem tp_stats_open (size : TFile S V A → Nat) (f : Tensor S V A) (h : f.inited = true) :
    Tensor.stats size f = some ⟨f.saves, f.loads, f.files.length, (f.files.map fun e => size e.2).sum⟩ := by
  simp [Tensor.stats, h]

theorem ip_stats_open (size : TFile S V A → Nat) (own : IDisk S V A → Nat) (f : Incr S V A)
    (h : f.inited = true) :
    Incr.stats size own f = some ⟨f.count, f.disk.log.length + (if f.disk.cut then 1 else 0),
      (f.disk.files.keys.filter Incr.globMatch).length, f.last,
      (f.disk.files.map fun e => size e.2).sum + own f.disk⟩ := by
  simp [Incr.stats, h]

/-- **C176** Statistics of tensor persistence: on an empty directory, after any history, a closed manager
reports only that it is not initialised; an open one reports the acknowledged saves and the loads that
handed out something since it was made, and as the number of files the number of different paths written
to.  Files that cannot be read any more count too. -/
theorem C176_tensor_stats (env : TpEnv S I A) (size : TFile S V A → Nat) (h : List (TpCall S V I)) :
    let R := Tensor.run (V := V) env (Tensor.new []) h
    (opened R.1 = false → Tensor.stats size R.2 = none) ∧
    (opened R.1 = true → ∃ t, Tensor.stats size R.2 = some t ∧
      t.saves = ((sinceReopen R.1).filter fun x => x.2.isSaved).length ∧
      t.loads = ((sinceReopen R.1).filter fun x => x.2.isLoaded).length ∧
      t.files = (writtenTo R.1).dedup.length ∧
      t.bytes = ((writtenTo R.1).dedup.map fun p => ((R.2.files.get? p).map size).getD 0).sum) := by
  intro R
  have ho : R.2.inited = opened R.1 := tp_opened h _ rfl
  obtain ⟨hc1, hc2⟩ := tp_counts (env := env) h (Tensor.new [] : Tensor S V A) rfl rfl
  obtain ⟨hn, hk⟩ := tp_keys (V := V) env h
  refine ⟨fun hx => by simp [Tensor.stats, ho, hx], fun hx => ?_⟩
  have hperm : R.2.files.keys.Perm (writtenTo R.1).dedup :=
    (List.perm_ext_iff_of_nodup hn (List.nodup_dedup _)).2 fun x => by rw [List.mem_dedup]; exact hk x
  refine ⟨_, tp_stats_open size R.2 (ho.trans hx), hc1, hc2, ?_, ?_⟩
  · show R.2.files.length = _
    rw [← Dict.length_keys]; exact hperm.length_eq
  · rw [← (hperm.map _).sum_nat]
    simp only [Dict.keys, List.map_map]
    congr 1
    refine List.map_congr_left fun e he => ?_
    show size e.2 = ((R.2.files.get? e.1).map size).getD 0
    rw [show R.2.files.get? e.1 = some e.2 from Dict.get?_of_mem hn he]
    rfl

example :
    let R := Tensor.run exTp (Tensor.new []) (.saveState "" "b" true :: exTpHist)
    opened R.1 = true ∧ writtenTo R.1 = ["b", "b", "a.npz", "a", "a"] ∧
    Tensor.stats (fun _ => 7) R.2 = some ⟨0, 0, 3, 21⟩ := by
  refine ⟨?_, ?_, ?_⟩ <;> decide +kernel

/-! ## C177 -/

/-- **C177 (refuted).** The two operation counts of incremental persistence drift apart: with an interval
above one, on every open manager whose counts agree, they disagree after a state save and a restart. -/
theorem C177_incr_counts_refuted (env : IpEnv S I A) (hk : 2 ≤ env.interval) (size : TFile S V A → Nat)
    (own : IDisk S V A → Nat) (f : Incr S V A) (hf : f.inited = true) (hcut : f.disk.cut = false) (t : IpStats)
    (ht : Incr.stats size own f = some t) (ha : t.operations = t.logged)
    (s : S) (hs : env.picklable s = true) (p : String) :
    ∃ t', Incr.stats size own (Incr.run env f ([.reopen, .saveState s p] : List (IpCall S V I))).2 = some t' ∧
      t'.operations = t.operations ∧ t'.logged = t.logged + 1 ∧ t'.operations ≠ t'.logged := by
  have h1 : ¬ env.interval ≤ (f.count : Int) + 1 - f.count := by omega
  rw [ip_stats_open size own f hf, hcut] at ht
  obtain rfl := Option.some.inj ht
  have e : (Incr.run env f ([.reopen, .saveState s p] : List (IpCall S V I))).2 =
      { disk := ⟨f.disk.files.set (ckptName f.count) (.pickle s), some (.info f.count f.count),
          f.disk.log ++ [some ⟨"save_state", p, f.count⟩], false⟩,
        inited := true, count := f.count, last := f.count } := by
    simp only [Incr.run, Incr.call, Incr.saveState, hf, hs, Bool.not_true, Bool.false_eq_true, if_false]
    rw [logOp_neg _ _ _ _ (by simpa [saveInfo, Incr.put] using h1)]
    simp [appendLog, saveInfo, Incr.put, Incr.init, loadInfo, hcut]
  rw [e, ip_stats_open size own _ rfl]
  refine ⟨_, rfl, rfl, by simp, ?_⟩
  simp at ha ⊢
  omega

example : ∃ t, Incr.stats (fun _ => 5) (fun _ => 1)
      (Incr.init (Incr.new emptyIDisk) : Incr String Nat (List Nat)) = some t ∧ t.operations = t.logged ∧
      2 ≤ (exIp 3).interval ∧ (exIp 3).picklable "a" = true :=
  ⟨⟨0, 0, 0, 0, 1⟩, by decide +kernel, rfl, by decide, by decide⟩

/-- What holds within the first session. -/
structure FirstSession (tr : List (IpCall S V I × IpReply S V I)) (f : Incr S V A) : Prop where
  open_ : f.inited = true
  nodup : f.disk.files.keys.Nodup
  below : ∀ n, ckptName n ∈ f.disk.files.keys → n < f.count
  names : ∀ x ∈ f.disk.files.keys, globMatch x = true → ∃ n, x = ckptName n
  ckpts : (f.disk.files.keys.filter globMatch).length =
    (tr.filter fun x => match x with | (.saveState _ _, .saved) => true | _ => false).length

theorem filter_set_other {α : Type} {d : Dict String α} (p : String) (a : α) (hp : globMatch p = false) :
    (d.set p a).keys.filter globMatch = d.keys.filter globMatch := by
  rw [Dict.keys_set]
  split
  · rfl
  · simp [List.filter_append, hp]

theorem logOp_both (k : Int) (op p : String) (f : Incr S V A) :
    (logOp k op p f).disk.files = f.disk.files ∧ (logOp k op p f).count = f.count + 1 := by
  simp only [logOp, maybeCheckpoint]
  split <;> exact ⟨rfl, rfl⟩

theorem logOp_more (k : Int) (op p : String) (f g : Incr S V A) (h : g.count = f.count) :
    f.count ≤ (logOp k op p g).count := by
  rw [(logOp_both k op p g).2, h]; exact Nat.le_succ _

theorem first_other {tr : List (IpCall S V I × IpReply S V I)} {f g : Incr S V A}
    (h : FirstSession tr f) (p : String) (hp : globMatch p = false) (a : TFile S V A)
    (hi : g.inited = true) (hg : g.disk.files = f.disk.files.set p a) (hc : f.count ≤ g.count)
    (c : IpCall S V I) (r : IpReply S V I) (hcr : ∀ s q, c ≠ .saveState s q) :
    FirstSession ((c, r) :: tr) g := by
  have hmem : ∀ x, x ∈ g.disk.files.keys → globMatch x = true → x ∈ f.disk.files.keys := by
    intro x hx hgx
    rw [hg, Dict.mem_keys, Dict.get?_set] at hx
    split at hx
    · rename_i e; rw [e, hp] at hgx; cases hgx
    · exact (Dict.mem_keys _ _).2 hx
  refine ⟨hi, hg ▸ Dict.nodup_set h.nodup p a, ?_, ?_, ?_⟩
  · intro n hn
    exact lt_of_lt_of_le (h.below n (hmem _ hn (glob_ckpt n))) hc
  · intro x hx hgx
    exact h.names x (hmem x hx hgx) hgx
  · rw [hg, filter_set_other p a hp, h.ckpts]
    cases c <;> first | rfl | exact absurd rfl (hcr _ _)

/-- **C177**, weaker form: in the first session on an empty directory (any calls, no file of the caller
named like a checkpoint, no state that does not pickle) the statistics are right: both operation counts
are the number of acknowledged saves, the checkpoint files are as many as the acknowledged state saves,
and the last checkpoint does not exceed the count.  Missing: later sessions, see
`C177_incr_counts_refuted`. -/
theorem C177_incr_stats_partial (env : IpEnv S I A) (size : TFile S V A → Nat)
    (own : IDisk S V A → Nat) (h : List (IpCall S V I)) (hs : ∀ c ∈ h, c.inSession = true)
    (hp : ∀ s p, IpCall.saveIndex s p ∈ h → globMatch p = false)
    (hk : ∀ s p, IpCall.saveState s p ∈ h → env.picklable s = true) :
    let R := Incr.run env (Incr.init (Incr.new emptyIDisk) : Incr S V A) h
    ∃ t, Incr.stats size own R.2 = some t ∧
      t.operations = (R.1.filterMap IpCall.logged).length ∧ t.logged = t.operations ∧
      t.checkpoints =
        (R.1.filter fun x => match x with | (.saveState _ _, .saved) => true | _ => false).length := by
  intro R
  have hF : FirstSession R.1 R.2 := by
    simp only [R]
    clear R
    induction h with
    | nil =>
      exact ⟨rfl, by simp [Incr.run, Incr.init, loadInfo, Incr.new, emptyIDisk, Dict.keys],
        by simp [Incr.run, Incr.init, loadInfo, Incr.new, emptyIDisk, Dict.keys],
        by simp [Incr.run, Incr.init, loadInfo, Incr.new, emptyIDisk, Dict.keys], rfl⟩
    | cons c h ih =>
      have hi := ih (fun c hc => hs c (by simp [hc])) (fun s p hc => hp s p (by simp [hc]))
        (fun s p hc => hk s p (by simp [hc]))
      have hc := hs c (by simp)
      simp only [Incr.run]
      generalize Incr.run env (Incr.init (Incr.new emptyIDisk) : Incr S V A) h = R at hi ⊢
      obtain ⟨tr, f⟩ := R
      simp only at hi ⊢
      have ho := hi.open_
      have same : ∀ (c : IpCall S V I) (r : IpReply S V I), (∀ s q, c ≠ .saveState s q) →
          FirstSession ((c, r) :: tr) f := by
        intro c r hcr
        refine ⟨hi.open_, hi.nodup, hi.below, hi.names, hi.ckpts.trans ?_⟩
        cases c <;> first | rfl | exact absurd rfl (hcr _ _)
      cases c with
      | close => cases hc
      | reopen => cases hc
      | crashState s p pt => cases hc
      | crashVecs v ids p pt => cases hc
      | crashIndex s p pt => cases hc
      | loadState p => exact same _ _ (by simp)
      | loadVecs p => exact same _ _ (by simp)
      | loadIndex p => exact same _ _ (by simp)
      | saveVecs v ids p =>
        simp only [Incr.call, saveVecs, ho, Bool.not_true, Bool.false_eq_true, if_false]
        split
        · exact same _ _ (by simp)
        · rename_i a _
          split
          · exact first_other (g := Incr.put (npzName p) (.npz v a) f) hi (npzName p) (glob_npz p) (.npz v a) ho rfl (le_refl _) _ _ (by simp)
          · exact first_other (g := logOp env.interval "save_vectors" p (Incr.put (npzName p) (.npz v a) f)) hi
              (npzName p) (glob_npz p) (.npz v a) ((logOp_inited _ _ _ _).trans ho) (logOp_both _ _ _ _).1
              (logOp_more _ _ _ _ _ rfl) _ _ (by simp)
      | saveIndex s p =>
        have hpp := hp s p (by simp)
        simp only [Incr.call, saveIndex, ho, Bool.not_true, Bool.false_eq_true, if_false]
        split
        · exact first_other (g := Incr.put p .torn f) hi p hpp .torn ho rfl (le_refl _) _ _ (by simp)
        · exact first_other (g := logOp env.interval "save_index" p (Incr.put p (.pickle s) f)) hi p hpp
            (.pickle s) ((logOp_inited _ _ _ _).trans ho)
            (logOp_both _ _ _ _).1 (logOp_more _ _ _ _ _ rfl) _ _ (by simp)
      | saveState s p =>
        have hks := hk s p (by simp)
        simp only [Incr.call, saveState, ho, hks, Bool.not_true, Bool.false_eq_true, if_false]
        have hnew : ckptName f.count ∉ f.disk.files.keys := fun hm => lt_irrefl _ (hi.below _ hm)
        have hkeys : (f.disk.files.set (ckptName f.count) (.pickle s)).keys =
            f.disk.files.keys ++ [ckptName f.count] := by
          rw [Dict.keys_set, if_neg hnew]
        obtain ⟨l1, l2⟩ := logOp_both env.interval "save_state" p (saveInfo
          { Incr.put (ckptName f.count) (.pickle s) f with last := f.count })
        have l1' : (logOp env.interval "save_state" p (saveInfo
            { Incr.put (ckptName f.count) (.pickle s) f with last := f.count })).disk.files =
            f.disk.files.set (ckptName f.count) (.pickle s) := l1
        have l2' : (logOp env.interval "save_state" p (saveInfo
            { Incr.put (ckptName f.count) (.pickle s) f with last := f.count })).count =
            f.count + 1 := l2
        refine ⟨(logOp_inited _ _ _ _).trans ho, ?_, ?_, ?_, ?_⟩
        · exact (congrArg (fun d => (Dict.keys d).Nodup) l1').mpr (Dict.nodup_set hi.nodup _ _)
        · intro n hn
          have hn' : n ∈ [n] ∧ ckptName n ∈ f.disk.files.keys ++ [ckptName f.count] := by
            refine ⟨by simp, ?_⟩
            rw [← hkeys, ← l1']; exact hn
          have : n < f.count + 1 := by
            rcases List.mem_append.1 hn'.2 with h | h
            · exact Nat.lt_succ_of_lt (hi.below n h)
            · rw [List.mem_singleton] at h
              rw [ckptName_inj h]; exact Nat.lt_succ_self _
          exact lt_of_lt_of_eq this l2'.symm
        · intro x hx hgx
          have hx' : x ∈ f.disk.files.keys ++ [ckptName f.count] := by
            rw [← hkeys, ← l1']; exact hx
          rcases List.mem_append.1 hx' with h | h
          · exact hi.names x h hgx
          · exact ⟨_, List.mem_singleton.1 h⟩
        · have : ((logOp env.interval "save_state" p (saveInfo
              { Incr.put (ckptName f.count) (.pickle s) f with last := f.count })).disk.files.keys.filter
              globMatch).length = (f.disk.files.keys.filter globMatch).length + 1 := by
            rw [l1', hkeys, List.filter_append]
            simp [glob_ckpt]
          refine (this.trans ?_)
          rw [hi.ckpts]
          rfl
  obtain ⟨h1, h2⟩ := session_log env (Incr.init (Incr.new emptyIDisk) : Incr S V A) rfl h hs
  have hcut : R.2.disk.cut = false := by
    have hu := uncut env (h ++ [.reopen]) (by
      intro c hc
      rcases List.mem_append.1 hc with hc | hc
      · have := hs c hc
        cases c <;> first | rfl | cases this
      · rw [List.mem_singleton.1 hc]; rfl)
    · have : ∀ h : List (IpCall S V I), (ipRun env (h ++ [.reopen])).2 =
          (Incr.run env (Incr.init (Incr.new emptyIDisk) : Incr S V A) h).2 := by
        intro h
        induction h with
        | nil => rfl
        | cons c h ih =>
          show (Incr.call env (ipRun env (h ++ [.reopen])).2 c).2 = _
          rw [ih]; rfl
      rw [this] at hu
      exact hu
  have e0 : (Incr.init (Incr.new emptyIDisk) : Incr S V A).count = 0 := rfl
  have e1 : (Incr.init (Incr.new emptyIDisk) : Incr S V A).disk = emptyIDisk := rfl
  refine ⟨_, ip_stats_open size own R.2 hF.open_, ?_, ?_, hF.ckpts⟩
  · show R.2.count = _
    rw [h2, e0, Nat.zero_add]
  · show R.2.disk.log.length + _ = R.2.count
    rw [h1, h2, e0, e1, hcut]
    simp [emptyIDisk, glued, numbered]

example :
    let h : List (IpCall String Nat (List Nat)) :=
      [.saveState "b" "p", .saveIndex "" "x", .loadState "p", .saveVecs 1 [2] "v", .saveState "a" "p"]
    (∀ c ∈ h, c.inSession = true) ∧
    Incr.stats (fun _ => 5) (fun _ => 1) (Incr.run (exIp 3) (Incr.init (Incr.new emptyIDisk)) h).2 =
      some ⟨3, 3, 2, 2, 21⟩ := by
  refine ⟨?_, ?_⟩ <;> decide +kernel

end Valori.Props
