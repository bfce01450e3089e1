import Verif.Model.Incr
import Verif.Lemmas.Dict
import Verif.Lemmas.Ivf
import Std.Data.String.ToNat
import Mathlib.Data.List.TakeWhile

namespace Valori
open Spec
namespace Incr
variable {S V I A : Type}

theorem toString_no (n : Nat) (c : Char) (hc : c.isDigit = false) : c ∉ (toString n).toList := by
  intro h
  have h' : c ∈ Nat.toDigits 10 n := by simpa [toString, Nat.repr] using h
  have := Nat.isDigit_of_mem_toDigits (by omega) (by omega) h'
  rw [hc] at this; cases this

theorem ckptName_toList (n : Nat) :
    (ckptName n).toList = "checkpoint_".toList ++ ((toString n).toList ++ ".pkl".toList) := by
  simp [ckptName]

theorem glob_ckpt (n : Nat) : globMatch (ckptName n) = true := by
  have h := ckptName_toList n
  have h1 : '/' ∉ (ckptName n).toList := by
    rw [h]
    have := toString_no n '/' (by decide)
    simp only [List.mem_append, not_or]
    exact ⟨by decide, this, by decide⟩
  have h2 : "checkpoint_".toList <+: (ckptName n).toList := by rw [h]; exact List.prefix_append _ _
  have h3 : ".pkl".toList <:+ (ckptName n).toList := by
    rw [h, ← List.append_assoc]; exact List.suffix_append _ _
  simp only [globMatch, Bool.and_eq_true, Bool.not_eq_true']
  refine ⟨⟨List.isPrefixOf_iff_prefix.2 h2, List.isSuffixOf_iff_suffix.2 h3⟩, ?_⟩
  simpa using h1

theorem ckptNo_ckpt (parse : String → Option Int) (n : Nat) :
    ckptNo parse (ckptName n) = parse (toString n) := by
  have hl : "checkpoint_".toList.length = 11 := by decide
  have hl2 : ".pkl".toList.length = 4 := by decide
  simp only [ckptNo]
  congr 1
  rw [ckptName_toList, List.drop_left' hl, List.length_append, List.length_append, hl, hl2,
    List.take_left' (by omega), List.takeWhile_eq_self_iff.2]
  · exact String.ofList_toList
  · intro c hc
    simp only [bne_iff_ne, ne_eq]
    rintro rfl
    exact toString_no n '_' (by decide) hc

theorem ckptName_inj {m n : Nat} (h : ckptName m = ckptName n) : m = n := by
  have := ckptNo_ckpt (fun s => if s = toString m then some 0 else none) m
  rw [h, ckptNo_ckpt] at this
  simp only [if_true] at this
  by_cases e : toString n = toString m
  · exact (Nat.repr_injective e).symm
  · rw [if_neg e] at this; cases this

/-- A `.npz` name is never a checkpoint. -/
theorem glob_npz (p : String) : globMatch (npzName p) = false := by
  have hs : ".npz".toList <:+ (npzName p).toList := by
    simp only [npzName]
    split
    · rename_i h; exact List.isSuffixOf_iff_suffix.1 h
    · rw [String.toList_append]; exact List.suffix_append _ _
  by_contra h
  simp only [Bool.not_eq_false, globMatch, Bool.and_eq_true] at h
  have h2 := List.isSuffixOf_iff_suffix.1 h.1.2
  have := List.suffix_of_suffix_length_le hs h2 (by decide)
  revert this; decide

/-! ## Loading the newest checkpoint -/

theorem mapM_ckpt {parse : String → Option Int} (hp : ∀ n : Nat, parse (toString n) = some (n : Int))
    (l : List String) (h : ∀ x ∈ l, ∃ n, x = ckptName n) :
    ∃ l' : List (Int × String), l.mapM (fun n => (ckptNo parse n).map fun i => (i, n)) = some l' ∧
      ∀ i x, (i, x) ∈ l' ↔ x ∈ l ∧ ∃ n : Nat, x = ckptName n ∧ i = n := by
  induction l with
  | nil => exact ⟨[], rfl, by simp⟩
  | cons x l ih =>
    obtain ⟨l', e, hl'⟩ := ih fun y hy => h y (by simp [hy])
    obtain ⟨n, rfl⟩ := h x (by simp)
    refine ⟨((n : Int), ckptName n) :: l', ?_, ?_⟩
    · simp only [List.mapM_cons, ckptNo_ckpt, hp]
      simp only [Option.map_some]
      rw [e]; rfl
    · intro i y
      simp only [List.mem_cons, Prod.mk.injEq, hl']
      constructor
      · rintro (⟨rfl, rfl⟩ | ⟨hy, m, rfl, rfl⟩)
        · exact ⟨Or.inl rfl, n, rfl, rfl⟩
        · exact ⟨Or.inr hy, m, rfl, rfl⟩
      · rintro ⟨hy | hy, m, rfl, rfl⟩
        · exact Or.inl ⟨by rw [ckptName_inj hy], hy⟩
        · exact Or.inr ⟨hy, m, rfl, rfl⟩

/-- With `n` the highest checkpoint number, `load_state` reads checkpoint `n`. -/
theorem load_top {env : IpEnv S I A} (hp : ∀ n : Nat, env.parse (toString n) = some (n : Int))
    {f : Incr S V A} (hi : f.inited = true)
    (hg : ∀ x ∈ f.disk.files.keys, globMatch x = true → ∃ n, x = ckptName n)
    {n : Nat} (hn : ckptName n ∈ f.disk.files.keys)
    (hm : ∀ m, ckptName m ∈ f.disk.files.keys → m ≤ n) (q : String) :
    loadState env q f =
      match f.disk.files.get? (ckptName n) with
      | some (.pickle s) => .ok (some s)
      | _ => .error .persistence := by
  have hmem : ∀ x, x ∈ f.disk.files.keys.filter globMatch ↔ x ∈ f.disk.files.keys ∧ globMatch x = true := by
    intro x; simp
  obtain ⟨l', e, hl'⟩ := mapM_ckpt hp (f.disk.files.keys.filter globMatch)
    fun x hx => hg x ((hmem x).1 hx).1 ((hmem x).1 hx).2
  have hne : (f.disk.files.keys.filter globMatch).isEmpty = false := by
    rw [List.isEmpty_eq_false_iff_exists_mem]
    exact ⟨_, (hmem _).2 ⟨hn, glob_ckpt n⟩⟩
  simp only [loadState]
  rw [if_neg (by simp [hi]), if_neg (by simp [hne]), e]
  have hin : ((n : Int), ckptName n) ∈ pySortBy (fun x : Int × String => x.1) l' :=
    (pySortBy_perm _ _).mem_iff.2 ((hl' _ _).2 ⟨(hmem _).2 ⟨hn, glob_ckpt n⟩, n, rfl, rfl⟩)
  have hsort := pySortBy_sorted (fun x : Int × String => x.1) l'
  cases hlast : (pySortBy (fun x : Int × String => x.1) l').getLast? with
  | none => rw [List.getLast?_eq_none_iff] at hlast; rw [hlast] at hin; cases hin
  | some x =>
    obtain ⟨i, y⟩ := x
    obtain ⟨ini, hini⟩ := List.getLast?_eq_some_iff.1 hlast
    have hy : (i, y) ∈ l' := (pySortBy_perm _ _).mem_iff.1 (by rw [hini]; simp)
    obtain ⟨hy1, m, rfl, rfl⟩ := (hl' _ _).1 hy
    have h1 : m ≤ n := hm m ((hmem _).1 hy1).1
    have h2 : (n : Int) ≤ m := by
      rw [hini] at hin hsort
      rcases List.mem_append.1 hin with hin | hin
      · exact (List.pairwise_append.1 hsort).2.2 _ hin (↑m, ckptName m) (by simp)
      · simp only [List.mem_singleton, Prod.mk.injEq] at hin; exact le_of_eq hin.1
    have : m = n := by omega
    subst this
    simp only [hlast]
    cases f.disk.files.get? (ckptName m) with
    | none => rfl
    | some t => cases t <;> rfl

/-- Without checkpoints `load_state` gives nothing. -/
theorem load_none {env : IpEnv S I A} {f : Incr S V A} (hi : f.inited = true)
    (hg : ∀ x ∈ f.disk.files.keys, globMatch x = false) (q : String) :
    loadState env q f = .ok none := by
  have : f.disk.files.keys.filter globMatch = [] := by
    rw [List.filter_eq_nil_iff]; intro x hx; simp [hg x hx]
  simp only [loadState]
  rw [if_neg (by simp [hi]), this]
  rfl

/-! ## The invariant -/

/-- The operation count in the counter file. -/
def stored (d : IDisk S V A) : Nat :=
  match d.info with
  | some (.info _ c) => c
  | _ => 0

/-- The directory: checkpoints are numbered up to the stored count, the highest holds `o`. -/
structure DInv (d : IDisk S V A) (o : Option S) : Prop where
  glob : ∀ x ∈ d.files.keys, globMatch x = true → ∃ n, x = ckptName n ∧ n ≤ stored d
  info : d.info ≠ some .torn
  eq : ∀ l c, d.info = some (.info l c) → l = c
  top : match o with
    | none => ∀ x ∈ d.files.keys, globMatch x = false
    | some s => ∃ n, d.files.get? (ckptName n) = some (.pickle s) ∧
        ∀ m, ckptName m ∈ d.files.keys → m ≤ n

/-- The manager: its counters are at or past the stored one. -/
structure Inv (interval : Int) (f : Incr S V A) (o : Option S) : Prop where
  disk : DInv f.disk o
  cnt : f.inited = true → stored f.disk ≤ f.count
  le : f.inited = true → f.last ≤ f.count
  near : f.inited = true → 1 ≤ interval → (f.count : Int) - f.last < interval

theorem DInv.log {d : IDisk S V A} {o : Option S} (h : DInv d o) (l : List (Option LogLine))
    (b : Bool) : DInv { d with log := l, cut := b } o := ⟨h.glob, h.info, h.eq, h.top⟩

theorem DInv.put {d : IDisk S V A} {o : Option S} (h : DInv d o) {x : String} (hx : globMatch x = false)
    (c : TFile S V A) : DInv { d with files := d.files.set x c } o := by
  have hk : ∀ y ∈ (d.files.set x c).keys, globMatch y = true → y ∈ d.files.keys := by
    intro y hy hg
    rw [Dict.mem_keys, Dict.get?_set] at hy
    rw [Dict.mem_keys]
    split at hy
    · subst_vars; rw [hx] at hg; cases hg
    · exact hy
  refine ⟨fun y hy hg => h.glob y (hk y hy hg) hg, h.info, h.eq, ?_⟩
  have := h.top
  cases o with
  | none =>
    intro y hy
    by_contra hg
    simp only [Bool.not_eq_false] at hg
    have := this y (hk y hy hg)
    rw [hg] at this; cases this
  | some s =>
    obtain ⟨n, h1, h2⟩ := this
    refine ⟨n, ?_, fun m hm => h2 m (hk _ hm (glob_ckpt m))⟩
    rw [Dict.get?_set, if_neg, h1]
    rintro rfl
    rw [glob_ckpt] at hx; cases hx

/-- Storing higher counters. -/
theorem DInv.setInfo {d : IDisk S V A} {o : Option S} (h : DInv d o) {n : Nat} (hn : stored d ≤ n) :
    DInv { d with info := some (.info n n) } o := by
  refine ⟨?_, by simp, ?_, h.top⟩
  · intro x hx hg
    obtain ⟨m, rfl, hm⟩ := h.glob x hx hg
    exact ⟨m, rfl, by simp only [stored]; omega⟩
  · intro l c he
    simp only [Option.some.injEq, CkInfo.info.injEq] at he
    omega

/-- Writing the checkpoint and then the counters. -/
theorem DInv.ckpt {d : IDisk S V A} {o : Option S} (h : DInv d o) {n : Nat} (hn : stored d ≤ n) (s : S) :
    DInv { d with files := d.files.set (ckptName n) (.pickle s), info := some (.info n n) } (some s) := by
  have hk : ∀ y ∈ (d.files.set (ckptName n) (.pickle s)).keys, y = ckptName n ∨ y ∈ d.files.keys := by
    intro y hy
    rw [Dict.mem_keys, Dict.get?_set] at hy
    rw [Dict.mem_keys]
    split at hy
    · exact Or.inl (by assumption)
    · exact Or.inr hy
  have hle : ∀ y ∈ (d.files.set (ckptName n) (.pickle s)).keys, globMatch y = true →
      ∃ m, y = ckptName m ∧ m ≤ n := by
    intro y hy hg
    rcases hk y hy with rfl | hy
    · exact ⟨n, rfl, le_refl _⟩
    · obtain ⟨m, rfl, hm⟩ := h.glob y hy hg
      exact ⟨m, rfl, by omega⟩
  refine ⟨hle, by simp, ?_, n, Dict.get?_set_self _ _ _, ?_⟩
  · intro l c he
    simp only [Option.some.injEq, CkInfo.info.injEq] at he
    omega
  · intro m hm
    obtain ⟨m', e, hm'⟩ := hle _ hm (glob_ckpt m)
    rw [ckptName_inj e]; exact hm'

theorem Inv.init {k : Int} {f : Incr S V A} {o : Option S} (h : DInv f.disk o) :
    Inv k (Incr.init f) o := by
  cases hf : f.disk.info with
  | none =>
    have e : Incr.init f = { f with last := 0, count := 0, inited := true } := by
      simp [Incr.init, loadInfo, hf]
    rw [e]
    exact ⟨h, by simp [stored, hf], by simp, by simp; omega⟩
  | some i =>
    cases i with
    | torn => exact absurd hf h.info
    | info l c =>
      have e : Incr.init f = { f with last := l, count := c, inited := true } := by
        simp [Incr.init, loadInfo, hf]
      have := h.eq l c hf
      subst this
      rw [e]
      exact ⟨h, by simp [stored, hf], by simp, by simp; omega⟩

theorem Inv.maybe {k : Int} {f : Incr S V A} {o : Option S} (h : DInv f.disk o)
    (h1 : stored f.disk ≤ f.count) (h2 : f.last ≤ f.count) : Inv k (maybeCheckpoint k f) o := by
  simp only [maybeCheckpoint]
  split
  · exact ⟨h.setInfo h1, fun _ => by simp [createCheckpoint, saveInfo, stored],
      fun _ => by simp [createCheckpoint, saveInfo],
      fun _ hk => by simp [createCheckpoint, saveInfo]; omega⟩
  · exact ⟨h, fun _ => h1, fun _ => h2, fun _ _ => by omega⟩

theorem Inv.logOp {k : Int} {f : Incr S V A} {o : Option S} (h : DInv f.disk o)
    (h1 : stored f.disk ≤ f.count) (h2 : f.last ≤ f.count) (op p : String) :
    Inv k (logOp k op p f) o := by
  refine Inv.maybe (h.log _ _) ?_ ?_
  · have : stored (appendLog op p f).disk = stored f.disk := rfl
    rw [this]; simp only [appendLog]; omega
  · simp only [appendLog]; omega

theorem logOp_neg (k : Int) (op p : String) (f : Incr S V A) (h : ¬ k ≤ (f.count : Int) + 1 - f.last) :
    Incr.logOp k op p f = appendLog op p f := by
  simp only [Incr.logOp, maybeCheckpoint]
  rw [if_neg (by simpa [appendLog] using h)]

theorem logOp_inited (k : Int) (op p : String) (f : Incr S V A) :
    (Incr.logOp k op p f).inited = f.inited := by
  simp only [Incr.logOp, maybeCheckpoint]
  split <;> rfl

/-! ## Every call -/

/-- A call whose own file is not one of the manager's checkpoints. -/
def PathOk : IpCall S V I → Prop
  | .saveIndex _ p => globMatch p = false
  | .crashIndex _ p _ => globMatch p = false
  | _ => True

/-- A crashing save of a state that pickles. -/
def Picks (env : IpEnv S I A) : IpCall S V I → Prop
  | .crashState s _ _ => env.picklable s = true
  | _ => True

theorem crashFile_inv {env : IpEnv S I A} {f : Incr S V A} {o : Option S} (h : DInv f.disk o)
    {x : String} (hx : globMatch x = false) (op p : String) (c : TFile S V A) {pt : FileCrash}
    (hs : pt.safe = true) : DInv (crashFile env op x p c pt f) o := by
  cases pt with
  | start => exact h
  | fileTorn => exact h.put hx _
  | fileDone => exact h.put hx _
  | logTorn => exact (h.put hx c).log _ _
  | logDone => exact (h.put hx c).log _ _
  | info2Torn => cases hs

/-- How a call changes the last state. -/
def nextState (opened : Bool) (o : Option S) : IpCall S V I → Option S
  | .saveState s _ => if opened then some s else o
  | .crashState s _ pt => if pt.kept && opened then some s else o
  | _ => o

/-- The invariant is kept by every call that is no harmful crash; `o` follows `lastState`. -/
theorem Inv.call {env : IpEnv S I A} {f : Incr S V A} {o : Option S} (h : Inv env.interval f o)
    (c : IpCall S V I) (hp : PathOk c) (hk : Picks env c) (hs : c.safe = true)
    (ha : ∀ s p, c = .saveState s p → f.inited = true → (Incr.call env f c).1 = .saved) :
    Inv env.interval (Incr.call env f c).2
      (nextState f.inited o c) := by
  cases c with
  | saveState s p =>
    have ha' := ha s p rfl
    cases hi : f.inited with
    | false =>
      have e : (Incr.call env f (.saveState s p : IpCall S V I)).2 = f := by
        simp [Incr.call, saveState, hi]
      rw [e]; simpa [nextState] using h
    | true =>
      have hpick : env.picklable s = true := by
        by_contra hn
        have := ha' hi
        simp only [Incr.call, saveState] at this
        rw [if_neg (by simp [hi]), if_pos (by simp [hn])] at this
        simp [repSave] at this
      have e : (Incr.call env f (.saveState s p : IpCall S V I)).2 =
          Incr.logOp env.interval "save_state" p (saveInfo { put (ckptName f.count) (.pickle s) f with
            last := f.count }) := by
        simp only [Incr.call, saveState]
        rw [if_neg (by simp [hi]), if_neg (by simp [hpick])]
        rfl
      rw [e]
      simp only [nextState, if_true]
      exact Inv.logOp (h.disk.ckpt (h.cnt hi) s) (by simp [saveInfo, stored, put]) (by simp [saveInfo, put]) _ _
  | saveVecs v ids p =>
    simp only [Incr.call, saveVecs]
    split
    · exact h
    · rename_i hi
      simp only [Bool.not_eq_true', Bool.not_eq_false] at hi
      split
      · exact h
      · split
        · exact ⟨h.disk.put (glob_npz p) _, h.cnt, h.le, h.near⟩
        · exact Inv.logOp (f := put _ _ f) (h.disk.put (glob_npz p) _) (h.cnt hi) (h.le hi) _ _
  | saveIndex s p =>
    simp only [Incr.call, saveIndex]
    split
    · exact h
    · rename_i hi
      simp only [Bool.not_eq_true', Bool.not_eq_false] at hi
      split
      · exact ⟨h.disk.put hp _, h.cnt, h.le, h.near⟩
      · exact Inv.logOp (f := put _ _ f) (h.disk.put hp _) (h.cnt hi) (h.le hi) _ _
  | loadState p => exact h
  | loadVecs p => exact h
  | loadIndex p => exact h
  | close => exact ⟨h.disk, by simp [Incr.call, Incr.close], by simp [Incr.call, Incr.close],
      by simp [Incr.call, Incr.close]⟩
  | reopen => exact Inv.init h.disk
  | crashVecs v ids p pt =>
    refine Inv.init ?_
    simp only [new, crashVecs]
    split
    · exact h.disk
    · split
      · exact h.disk
      · refine crashFile_inv h.disk (glob_npz p) _ _ _ ?_
        split
        · exact hs
        · cases pt <;> first | rfl | exact hs
  | crashIndex s p pt =>
    refine Inv.init ?_
    simp only [new, crashIndex]
    split
    · exact h.disk
    · refine crashFile_inv h.disk hp _ _ _ ?_
      split
      · exact hs
      · cases pt <;> first | rfl | exact hs
  | crashState s p pt =>
    refine Inv.init ?_
    simp only [new, crashState]
    simp only [Picks] at hk
    cases hi : f.inited with
    | false => simpa [nextState] using h.disk
    | true =>
      simp only [nextState, Bool.not_true, Bool.false_eq_true, if_false, hk, if_true, Bool.and_true]
      have hd := h.disk.ckpt (h.cnt hi) s
      cases pt with
      | start => exact h.disk
      | ckptTorn => cases hs
      | ckptDone => cases hs
      | infoTorn => cases hs
      | infoDone => exact hd
      | logTorn => exact hd.log _ _
      | logDone => exact hd.log _ _
      | info2Torn => cases hs

theorem run_opened {env : IpEnv S I A} (h : List (IpCall S V I)) (f : Incr S V A)
    (hf : f.inited = false) : (run env f h).2.inited = ipOpened (run env f h).1 := by
  induction h with
  | nil => simpa [run, ipOpened] using hf
  | cons c h ih =>
    simp only [run]
    cases c <;> simp only [Incr.call, ipOpened] <;> (try rw [← ih]) <;>
      simp only [saveState, saveVecs, saveIndex, Incr.close, Incr.init] <;>
      (repeat' split) <;> simp_all [logOp_inited, put, saveInfo]

/-- After every history without harmful crashes or failing state saves, the invariant holds for the
last state saved. -/
theorem Inv.run {env : IpEnv S I A} (h : List (IpCall S V I)) {f : Incr S V A} (hf : f.inited = false)
    (h0 : Inv env.interval f none) (hp : ∀ c ∈ h, PathOk c) (hk : ∀ c ∈ h, Picks env c)
    (hs : ∀ c ∈ h, c.safe = true)
    (ha : ∀ x ∈ (Incr.run env f h).1, ∀ s p, x.1 = .saveState s p → x.2 = .saved) :
    Inv env.interval (Incr.run env f h).2 (lastState (Incr.run env f h).1) := by
  induction h with
  | nil => exact h0
  | cons c h ih =>
    have hi := ih (fun x hx => hp x (by simp [hx])) (fun x hx => hk x (by simp [hx]))
      (fun x hx => hs x (by simp [hx])) (fun x hx => ha x (by simp [Incr.run, hx]))
    have hr := ha _ (by simp only [Incr.run]; exact List.mem_cons_self)
    have hst := hi.call c (hp c (by simp)) (hk c (by simp)) (hs c (by simp))
      (fun s p hc _ => hr s p hc)
    have ho := run_opened h f hf (env := env)
    simp only [Incr.run]
    cases c with
    | saveState s p =>
      have e : (Incr.call env (Incr.run env f h).2 (.saveState s p)).1 = .saved := hr s p rfl
      have hin : (Incr.run env f h).2.inited = true := by
        by_contra hn
        simp only [Incr.call, saveState] at e
        rw [if_pos (by simp [hn])] at e
        simp [repSave] at e
      simp only [nextState, hin, if_true] at hst
      rw [e]
      exact hst
    | crashState s p pt => rw [ho] at hst; simpa only [nextState, lastState] using hst
    | saveVecs v ids p => exact hst
    | saveIndex s p => exact hst
    | loadState p => exact hst
    | loadVecs p => exact hst
    | loadIndex p => exact hst
    | close => exact hst
    | reopen => exact hst
    | crashVecs v ids p pt => exact hst
    | crashIndex s p pt => exact hst

theorem Inv.load {env : IpEnv S I A} (hpar : ∀ n : Nat, env.parse (toString n) = some (n : Int))
    {f : Incr S V A} {o : Option S} (h : Inv env.interval f o) (hi : f.inited = true) (q : String) :
    loadState env q f = .ok o := by
  have ht := h.disk.top
  cases o with
  | none => exact load_none hi ht q
  | some s =>
    obtain ⟨n, h1, h2⟩ := ht
    rw [load_top hpar hi (fun x hx hg => (h.disk.glob x hx hg).imp fun _ a => a.1)
      ((Dict.mem_keys _ _).2 (by simp [h1])) h2, h1]

end Incr
end Valori
