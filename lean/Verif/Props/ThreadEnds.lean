import Verif.Lemmas.ThreadEnds
import Verif.Lemmas.IvfTrainedInv
import Verif.Props.FlatConc
import Verif.Props.IvfTrainedCases

/-!
# C238: a call comes to its end whatever other threads do
-/

namespace Valori.Props

open Valori Valori.Spec

variable {V M D : Type}

/-- Thread `t` of an index has come to its end. -/
def EndedF (s : FConc V M D) (t : Nat) : Prop := ∃ r, s.thr t = .done r

/-- The same for a trained IVF index. -/
def EndedT (s : TConc V M D) (t : Nat) : Prop := ∃ r, s.thr t = .done r

/-! ## Flat -/

namespace FEnds
open FConc

theorem others_stay (env : FlatEnv V D) (ops : Nat → FOp V M) (s : FConc V M D) {t u : Nat} (hu : u ≠ t) :
    (s.step env ops u).thr t = s.thr t := by
  unfold FConc.step
  cases ops u <;> cases s.thr u <;> simp only [stepInsert, stepSearch, stepUpdate, stepDelete] <;>
    (try split) <;> (try split) <;> (try split) <;>
    first
      | rfl
      | exact Function.update_of_ne (Ne.symm hu) ..

theorem ins_next {env : FlatEnv V D} {ops : Nat → FOp V M} {s : FConc V M D} {t : Nat} {rows : List (FRow V M)}
    (ho : ops t = .insert rows) (hf : insFits rows.length (s.thr t)) :
    insFits rows.length ((s.step env ops t).thr t) ∧
      insLeft rows.length ((s.step env ops t).thr t) ≤ insLeft rows.length (s.thr t) - 1 := by
  unfold FConc.step
  simp only [ho]
  cases hp : s.thr t <;> rw [hp] at hf <;> simp only [insFits] at hf
  case row i =>
    simp only [stepInsert]
    cases hr : rows[i]? with
    | none => simp [insFits, insLeft]
    | some r =>
      have := (List.getElem?_eq_some_iff.1 hr).1
      simp only [Function.update_self, insFits, insLeft]
      omega
  case append i =>
    obtain ⟨r, hr⟩ : ∃ r, rows[i]? = some r := ⟨_, List.getElem?_eq_getElem hf⟩
    simp [stepInsert, hr, insFits, insLeft, hf]
  case cache i =>
    obtain ⟨r, hr⟩ : ∃ r, rows[i]? = some r := ⟨_, List.getElem?_eq_getElem hf⟩
    simp [stepInsert, hr, insFits, insLeft]
  all_goals simp [stepInsert, insFits, insLeft, hp]

theorem upd_next {env : FlatEnv V D} {ops : Nat → FOp V M} {s : FConc V M D} {t : Nat} {id : Id} {v : V} {m : Option M}
    (ho : ops t = .update id v m) (hf : updFits (s.thr t)) :
    updFits ((s.step env ops t).thr t) ∧ updLeft ((s.step env ops t).thr t) ≤ updLeft (s.thr t) - 1 := by
  unfold FConc.step
  simp only [ho]
  cases hp : s.thr t <;> rw [hp] at hf <;> simp only [updFits] at hf <;> simp only [stepUpdate]
  case start => split <;> simp [updFits, updLeft]
  all_goals simp [updFits, updLeft, hp]

theorem del_next {env : FlatEnv V D} {ops : Nat → FOp V M} {s : FConc V M D} {t : Nat} {dels : List Id}
    (ho : ops t = .delete dels) (hf : delFits dels.length (s.thr t)) :
    delFits dels.length ((s.step env ops t).thr t) ∧
      delLeft dels.length ((s.step env ops t).thr t) ≤ delLeft dels.length (s.thr t) - 1 := by
  unfold FConc.step
  simp only [ho]
  cases hp : s.thr t <;> rw [hp] at hf <;> simp only [delFits] at hf
  case del i ok =>
    simp only [stepDelete]
    cases hr : dels[i]? with
    | none => simp [delFits, delLeft]
    | some r =>
      have := (List.getElem?_eq_some_iff.1 hr).1
      simp only [Function.update_self, delFits, delLeft]
      omega
  case delTest i ok =>
    obtain ⟨r, hr⟩ : ∃ r, dels[i]? = some r := ⟨_, List.getElem?_eq_getElem hf⟩
    simp only [stepDelete, hr]
    split <;> simp [delFits, delLeft, hf]
  case delRemove i ok =>
    obtain ⟨r, hr⟩ : ∃ r, dels[i]? = some r := ⟨_, List.getElem?_eq_getElem hf⟩
    simp only [stepDelete, hr]
    split <;> simp [delFits, delLeft, hf]
  case delPop i ok =>
    obtain ⟨r, hr⟩ : ∃ r, dels[i]? = some r := ⟨_, List.getElem?_eq_getElem hf⟩
    simp [stepDelete, hr, delFits, delLeft]
  all_goals simp [stepDelete, delFits, delLeft, hp]

/-- The argsort makes no more positions than it was given. -/
def ShortSort (env : FlatEnv V D) : Prop := ∀ ds, (env.argsort ds).length ≤ ds.length

theorem ranked_short {env : FlatEnv V D} (he : ShortSort env) (q : V) (k : Int) (got : List (Id × V)) :
    (Flat.ranked env q k got).length ≤ got.length := by
  unfold Flat.ranked
  refine (List.length_filterMap_le _ _).trans ?_
  refine (sliceTo_sublist _ _).length_le.trans ?_
  simpa using he (got.map fun x => env.dist q x.2)

theorem sr_next {env : FlatEnv V D} (he : ShortSort env) {ops : Nat → FOp V M} {s : FConc V M D} {t : Nat} {q : V}
    {k : Int} {n : Nat} (ho : ops t = .search q k) (hn : s.ids.length ≤ n) (hf : srFits n (s.thr t)) :
    srFits n ((s.step env ops t).thr t) ∧ srLeft n ((s.step env ops t).thr t) ≤ srLeft n (s.thr t) - 1 := by
  unfold FConc.step
  simp only [ho]
  cases hp : s.thr t <;> rw [hp] at hf <;> simp only [srFits] at hf
  case start =>
    simp only [stepSearch, Function.update_self]
    split <;> simp [srFits, srLeft]
  case limit => simp [stepSearch, srFits, srLeft]
  case scan k' i got =>
    simp only [stepSearch]
    cases hr : s.ids[i]? with
    | none =>
      have := ranked_short he q k' got
      simp only [Function.update_self, rank]
      split
      · simp [srFits, srLeft]
      · split
        · simp [srFits, srLeft]
        · simp only [srFits, srLeft, true_and]; omega
    | some id =>
      have := (List.getElem?_eq_some_iff.1 hr).1
      simp only [Function.update_self]
      split <;> simp only [srFits, srLeft] <;> omega
  case read k' i got id =>
    simp only [stepSearch]
    cases s.cache.get? id with
    | none => simp [srFits, srLeft]
    | some v =>
      simp only [Function.update_self, srFits, srLeft, List.length_append, List.length_singleton, true_and]
      omega
  case fetch k' i got id =>
    simp only [stepSearch]
    rcases s.store.get? id with _ | ⟨v, m⟩
    · simp only [Function.update_self, srFits, srLeft, true_and]; omega
    · simp [srFits, srLeft, hf]
  case put k' i got id v =>
    simp only [stepSearch, Function.update_self, srFits, srLeft, List.length_append, List.length_singleton, true_and]
    omega
  case info todo acc =>
    rcases todo with _ | ⟨⟨id, d⟩, todo⟩
    · simp [stepSearch, srFits, srLeft]
    · simp only [stepSearch]
      rcases s.store.get? id with _ | ⟨v, m⟩ <;> simp [srFits, srLeft]
  case done r => simp [stepSearch, srFits, srLeft, hp]

end FEnds

/-- The number of statements an insertion, update or deletion on a flat index has at most. -/
def flatSteps : FOp V M → Nat
  | .insert rows => 3 * rows.length + 4
  | .update _ _ _ => 2
  | .delete dels => 4 * dels.length + 4
  | .search _ _ => 0

open FConc FEnds in
/-- **C238**, insertion, update and deletion on a flat index: whatever state the index is in and whatever the other
threads do, the call is over after so many of its own statements. -/
theorem C238_flat (env : FlatEnv V D) (ops : Nat → FOp V M) (s : FConc V M D) (t : Nat) (hs : s.thr t = .start)
    (hop : ∀ q k, ops t ≠ .search q k) (sched : List Nat) (hc : flatSteps (ops t) ≤ sched.count t) :
    EndedF (s.run env ops sched) t := by
  cases ho : ops t with
  | search q k => exact absurd ho (hop q k)
  | insert rows =>
    rw [ho] at hc
    obtain ⟨h1, h2⟩ := left_after (FConc.step env ops) t (fun _ => True) (fun s => insFits rows.length (s.thr t))
      (fun s => insLeft rows.length (s.thr t)) (fun s _ hf => ins_next ho hf)
      (fun s t' _ hf h => by rw [others_stay env ops s h]; exact ⟨hf, le_rfl⟩) sched s (by rw [hs]; trivial)
      (fun _ _ => trivial)
    change insFits _ ((s.run env ops sched).thr t) at h1
    change insLeft _ ((s.run env ops sched).thr t) ≤ _ at h2
    simp only [hs, insLeft, flatSteps] at h2 hc
    unfold EndedF
    cases hp : (s.run env ops sched).thr t <;> rw [hp] at h1 h2 <;> simp only [insFits, insLeft] at h1 h2 <;>
      first | exact ⟨_, rfl⟩ | omega
  | update id v m =>
    rw [ho] at hc
    obtain ⟨h1, h2⟩ := left_after (FConc.step env ops) t (fun _ => True) (fun s => updFits (s.thr t))
      (fun s => updLeft (s.thr t)) (fun s _ hf => upd_next ho hf)
      (fun s t' _ hf h => by rw [others_stay env ops s h]; exact ⟨hf, le_rfl⟩) sched s (by rw [hs]; trivial)
      (fun _ _ => trivial)
    change updFits ((s.run env ops sched).thr t) at h1
    change updLeft ((s.run env ops sched).thr t) ≤ _ at h2
    simp only [hs, updLeft, flatSteps] at h2 hc
    unfold EndedF
    cases hp : (s.run env ops sched).thr t <;> rw [hp] at h1 h2 <;> simp only [updFits, updLeft] at h1 h2 <;>
      first | exact ⟨_, rfl⟩ | omega
  | delete dels =>
    rw [ho] at hc
    obtain ⟨h1, h2⟩ := left_after (FConc.step env ops) t (fun _ => True) (fun s => delFits dels.length (s.thr t))
      (fun s => delLeft dels.length (s.thr t)) (fun s _ hf => del_next ho hf)
      (fun s t' _ hf h => by rw [others_stay env ops s h]; exact ⟨hf, le_rfl⟩) sched s (by rw [hs]; trivial)
      (fun _ _ => trivial)
    change delFits _ ((s.run env ops sched).thr t) at h1
    change delLeft _ ((s.run env ops sched).thr t) ≤ _ at h2
    simp only [hs, delLeft, flatSteps] at h2 hc
    unfold EndedF
    cases hp : (s.run env ops sched).thr t <;> rw [hp] at h1 h2 <;> simp only [delFits, delLeft] at h1 h2 <;>
      first | exact ⟨_, rfl⟩ | omega

open FConc FEnds in
/-- **C238**, search of a flat index: if the list of ids has at no moment more than `n` entries, the search is over
after `4 n + 4` of its own statements. -/
theorem C238_flat_search_partial (env : FlatEnv V D) (he : ShortSort env) (ops : Nat → FOp V M) (s : FConc V M D)
    (t : Nat) (hs : s.thr t = .start) (q : V) (k : Int) (ho : ops t = .search q k) (n : Nat) (sched : List Nat)
    (hn : ∀ pre, pre <+: sched → (s.run env ops pre).ids.length ≤ n) (hc : 4 * n + 4 ≤ sched.count t) :
    EndedF (s.run env ops sched) t := by
  obtain ⟨h1, h2⟩ := left_after (FConc.step env ops) t (fun s => s.ids.length ≤ n) (fun s => srFits n (s.thr t))
    (fun s => srLeft n (s.thr t)) (fun s hn hf => sr_next he ho hn hf)
    (fun s t' _ hf h => by rw [others_stay env ops s h]; exact ⟨hf, le_rfl⟩) sched s (by rw [hs]; trivial) hn
  change srFits _ ((s.run env ops sched).thr t) at h1
  change srLeft _ ((s.run env ops sched).thr t) ≤ _ at h2
  simp only [hs, srLeft] at h2
  unfold EndedF
  cases hp : (s.run env ops sched).thr t <;> rw [hp] at h1 h2 <;> simp only [srFits, srLeft] at h1 h2 <;>
    first | exact ⟨_, rfl⟩ | omega

/-! ## Trained IVF -/

namespace TEnds
open TConc
variable [LinearOrder D]

theorem ins_next {env : IConcEnv V D} {ops : Nat → FOp V M} {s : TConc V M D} {t : Nat} {rows : List (FRow V M)}
    (ho : ops t = .insert rows) (hf : insFits rows.length (s.thr t)) :
    insFits rows.length ((s.step env ops t).thr t) ∧
      insLeft rows.length ((s.step env ops t).thr t) ≤ insLeft rows.length (s.thr t) - 1 := by
  unfold TConc.step
  simp only [ho]
  cases hp : s.thr t with
  | start => simp [insFits, insLeft]; omega
  | done r => simp [insFits, insLeft, hp]
  | ins p =>
    rw [hp] at hf
    have key : ∀ {i : Nat}, i < rows.length → ∃ r, rows[i]? = some r := fun h => ⟨_, List.getElem?_eq_getElem h⟩
    cases p with
    | store i =>
      simp only [stepIns]
      cases hr : rows[i]? with
      | none => simp [insFits, insLeft]
      | some r =>
        have := (List.getElem?_eq_some_iff.1 hr).1
        simp only [Function.update_self, insFits, insLeft]
        omega
    | ids i =>
      simp only [insFits] at hf
      obtain ⟨r, hr⟩ := key hf
      simp [stepIns, hr, insFits, insLeft, hf]
    | cache i =>
      simp only [insFits] at hf
      obtain ⟨r, hr⟩ := key hf
      simp [stepIns, hr, insFits, insLeft]
    | len => simp [stepIns, insFits, insLeft]
    | count n => simp [stepIns, insFits, insLeft]
    | choose j =>
      simp only [stepIns]
      cases hr : rows[j]? with
      | none => simp [insFits, insLeft]
      | some r =>
        have := (List.getElem?_eq_some_iff.1 hr).1
        cases hg : s.cache.get? r.id with
        | none => simp [insFits, insLeft, hg]
        | some v =>
          simp only [hg, Function.update_self, insFits, insLeft]
          omega
    | has j k =>
      simp only [insFits] at hf
      simp only [stepIns, Function.update_self]
      split <;> simp only [insFits, insLeft] <;> omega
    | new j k =>
      simp only [insFits] at hf
      simp [stepIns, insFits, insLeft, hf]
    | push j k =>
      simp only [insFits] at hf
      obtain ⟨r, hr⟩ := key hf
      simp only [stepIns, hr]
      cases s.clusters.get? k <;> simp [insFits, insLeft]
  | srch p => rw [hp] at hf; simp [insFits] at hf
  | upd p => rw [hp] at hf; simp [insFits] at hf
  | del i ok p => rw [hp] at hf; simp [insFits] at hf
  | delLen ok => rw [hp] at hf; simp [insFits] at hf
  | delCount ok n => rw [hp] at hf; simp [insFits] at hf

theorem upd_next {env : IConcEnv V D} {ops : Nat → FOp V M} {s : TConc V M D} {t : Nat} {id : Id} {v : V}
    {m : Option M} {c : Nat} (ho : ops t = .update id v m) (hc : s.clusters.length ≤ c) (hf : updFits c (s.thr t)) :
    updFits c ((s.step env ops t).thr t) ∧ updLeft c ((s.step env ops t).thr t) ≤ updLeft c (s.thr t) - 1 := by
  unfold TConc.step
  simp only [ho]
  cases hp : s.thr t with
  | start => dsimp only; split <;> simp [updFits, updLeft]
  | done r => simp [updFits, updLeft, hp]
  | upd p =>
    rw [hp] at hf
    cases p with
    | loop n p =>
      simp only [stepUpd]
      split
      · simp [updFits, updLeft]
      · cases hr : s.clusters[p]? with
        | none => simp [updFits, updLeft]
        | some e =>
          have := (List.getElem?_eq_some_iff.1 hr).1
          simp only [Function.update_self, updFits, updLeft]
          omega
    | test n p r =>
      simp only [updFits] at hf
      simp only [stepUpd, Function.update_self]
      split <;> simp [updFits, updLeft]
    | remL r => simp only [stepUpd]; split <;> simp [updFits, updLeft]
    | has k => simp only [stepUpd, Function.update_self]; split <;> simp [updFits, updLeft]
    | push k => simp only [stepUpd]; cases s.clusters.get? k <;> simp [updFits, updLeft]
    | cache => simp [stepUpd, updFits, updLeft]
    | iter => simp [stepUpd, updFits, updLeft]
    | choose => simp [stepUpd, updFits, updLeft]
    | new k => simp [stepUpd, updFits, updLeft]
  | srch p => rw [hp] at hf; simp [updFits] at hf
  | ins p => rw [hp] at hf; simp [updFits] at hf
  | del i ok p => rw [hp] at hf; simp [updFits] at hf
  | delLen ok => rw [hp] at hf; simp [updFits] at hf
  | delCount ok n => rw [hp] at hf; simp [updFits] at hf

theorem del_next {env : IConcEnv V D} {ops : Nat → FOp V M} {s : TConc V M D} {t : Nat} {dels : List Id} {c : Nat}
    (ho : ops t = .delete dels) (hc : s.clusters.length ≤ c) (hf : delFits dels.length c (s.thr t)) :
    delFits dels.length c ((s.step env ops t).thr t) ∧
      delLeft dels.length c ((s.step env ops t).thr t) ≤ delLeft dels.length c (s.thr t) - 1 := by
  unfold TConc.step
  simp only [ho]
  cases hp : s.thr t with
  | start => simp [delFits, delLeft]
  | done r => simp [delFits, delLeft, hp]
  | delLen ok => simp [delFits, delLeft]
  | delCount ok n => simp [delFits, delLeft]
  | del i ok p =>
    rw [hp] at hf
    simp only [stepDel]
    cases hr : dels[i]? with
    | none =>
      cases p <;> simp [delFits, delLeft] <;> omega
    | some id =>
      have hi := (List.getElem?_eq_some_iff.1 hr).1
      have hm : (3 * c + 6) * (dels.length - i) = (3 * c + 6) * (dels.length - (i + 1)) + (3 * c + 6) := by
        rw [← Nat.mul_succ]; congr 1; omega
      cases p with
      | stor => simp only [Function.update_self, delFits, delLeft, hm]; omega
      | has => simp only [Function.update_self]; split <;> simp only [delFits, delLeft] <;> omega
      | rem => simp only; split <;> simp only [Function.update_self, delFits, delLeft] <;> first | omega | simp
      | pop => simp only [Function.update_self, delFits, delLeft]; omega
      | iter => simp only [Function.update_self, delFits, delLeft]; omega
      | loop n p =>
        simp only
        split
        · simp [delFits, delLeft]
        · cases hq : s.clusters[p]? with
          | none => simp only [Function.update_self, delFits, delLeft, true_and]; omega
          | some e =>
            have := (List.getElem?_eq_some_iff.1 hq).1
            simp only [Function.update_self, delFits, delLeft]
            omega
      | test n p r =>
        simp only [delFits] at hf
        simp only [Function.update_self]
        split <;> simp only [delFits, delLeft] <;> omega
      | remL n p r =>
        simp only [delFits] at hf
        simp only
        split <;> simp only [Function.update_self, delFits, delLeft] <;> first | omega | simp
  | srch p => rw [hp] at hf; simp [delFits] at hf
  | ins p => rw [hp] at hf; simp [delFits] at hf
  | upd p => rw [hp] at hf; simp [delFits] at hf

theorem probes_short {env : IConcEnv V D} {q : V} {cs : List V} {ps : List Nat}
    (h : IConc.probesOf env q cs = .ok ps) : ps.length ≤ cs.length := by
  have hn : ∀ (cs : List V) (i : Nat) (ds : List (Nat × D)), numberedDists (env.dist q) i cs = .ok ds →
      ds.length = cs.length := by
    intro cs
    induction cs with
    | nil => intro i ds h; cases h; rfl
    | cons c cs ih =>
      intro i ds h
      simp only [numberedDists] at h
      cases hd : env.dist q c with
      | error e => rw [hd] at h; cases h
      | ok d =>
        rw [hd] at h
        simp only at h
        cases hr : numberedDists (env.dist q) (i + 1) cs with
        | error e => rw [hr] at h; cases h
        | ok l => rw [hr] at h; cases h; simp [ih _ _ hr]
  unfold IConc.probesOf at h
  cases hd : numberedDists (env.dist q) 0 cs with
  | error e => rw [hd] at h; cases h
  | ok ds =>
    rw [hd] at h
    cases h
    rw [List.length_map, ← hn _ _ _ hd]
    exact (sliceTo_sublist _ _).length_le.trans (pySortBy_perm _ _).length_eq.le

theorem sr_next {env : IConcEnv V D} {ops : Nat → FOp V M} {s : TConc V M D} {t : Nat} {q : V} {k : Int} {n c : Nat}
    (ho : ops t = .search q k) (hn : ∀ r, (s.content r).length ≤ n) (hc : s.cents.length ≤ c)
    (hf : srFits n (s.thr t)) :
    srFits n ((s.step env ops t).thr t) ∧ srLeft n c ((s.step env ops t).thr t) ≤ srLeft n c (s.thr t) - 1 := by
  unfold TConc.step
  simp only [ho]
  cases hp : s.thr t with
  | start =>
    simp only [Function.update_self]
    split <;> simp [srFits, srLeft]
  | done r => simp [srFits, srLeft, hp]
  | srch p =>
    rw [hp] at hf
    simp only [Function.update_self]
    cases p with
    | cents =>
      simp only [stepSr]
      cases hps : IConc.probesOf env q s.cents with
      | error e => simp [srFits, srLeft]
      | ok ps =>
        have h1 := (probes_short hps).trans hc
        have h2 := Nat.mul_le_mul_left (4 * n + 3) h1
        simp only [srFits, srLeft, List.length_nil, true_and]
        omega
    | probe todo got =>
      cases todo with
      | nil =>
        have h1 := (sliceTo_sublist (pySortBy Prod.snd got) k).length_le
        rw [(pySortBy_perm Prod.snd got).length_eq] at h1
        simp only [stepSr, srFits, srLeft, List.length_nil, true_and]
        omega
      | cons p todo =>
        simp only [stepSr]
        split <;> simp only [srFits, srLeft, List.length_cons, Nat.mul_succ, true_and] <;> omega
    | take p todo got =>
      simp only [stepSr]
      cases s.clusters.get? p with
      | none => simp [srFits, srLeft]
      | some r => simp only [srFits, srLeft, true_and]; omega
    | walk r todo i got =>
      simp only [stepSr]
      cases hr : (s.content r)[i]? with
      | none => simp only [srFits, srLeft, true_and]; omega
      | some id =>
        have h1 := (List.getElem?_eq_some_iff.1 hr).1
        have h2 := hn r
        simp only
        split <;> simp only [srFits, srLeft] <;> omega
    | vec r todo i got id =>
      simp only [stepSr]
      cases s.cache.get? id with
      | none => simp [srFits, srLeft]
      | some v =>
        simp only
        cases env.dist q v with
        | error e => simp [srFits, srLeft]
        | ok d => simp only [srFits, srLeft, List.length_append, List.length_singleton, true_and]; omega
    | fetch r todo i got id =>
      simp only [stepSr]
      simp only [srFits] at hf
      rcases s.store.get? id with _ | ⟨v, m⟩
      · simp only [srFits, srLeft, true_and]; omega
      · simp only [srFits, srLeft]; omega
    | put r todo i got id v =>
      simp only [stepSr]
      cases env.dist q v with
      | error e => simp [srFits, srLeft]
      | ok d => simp only [srFits, srLeft, List.length_append, List.length_singleton, true_and]; omega
    | info todo acc =>
      rcases todo with _ | ⟨⟨id, d⟩, todo⟩
      · simp [stepSr, srFits, srLeft]
      · simp only [stepSr]
        rcases s.store.get? id with _ | ⟨v, m⟩ <;> simp [srFits, srLeft]
  | del i ok p => rw [hp] at hf; simp [srFits] at hf
  | delLen ok => rw [hp] at hf; simp [srFits] at hf
  | delCount ok n => rw [hp] at hf; simp [srFits] at hf
  | ins p => rw [hp] at hf; simp [srFits] at hf
  | upd p => rw [hp] at hf; simp [srFits] at hf

end TEnds

namespace TEnds
open TConc

/-- The clusters and the places of the threads have numbers below `c`. -/
def numOk (c : Nat) : TAt V M D → Prop
  | .ins (.has _ k) | .ins (.new _ k) | .ins (.push _ k) => k < c
  | .upd (.has k) | .upd (.new k) | .upd (.push k) => k < c
  | _ => True

/-- Every cluster has the number of a centroid, and only one list. -/
structure NumInv (ce : List V) (s : TConc V M D) : Prop where
  cents : s.cents = ce
  keys : s.clusters.keys.Nodup
  below : ∀ k ∈ s.clusters.keys, k < ce.length
  places : ∀ u, numOk ce.length (s.thr u)

theorem NumInv.short {ce : List V} {s : TConc V M D} (h : NumInv ce s) : s.clusters.length ≤ ce.length := by
  have h1 := (h.keys.subperm (l₂ := List.range ce.length) fun k hk => List.mem_range.2 (h.below k hk)).length_le
  simpa [Dict.keys] using h1

theorem NumInv.go {ce : List V} {s : TConc V M D} (h : NumInv ce s) {t : Nat} {a : TAt V M D} (ha : numOk ce.length a)
    (u : Nat) : numOk ce.length (Function.update s.thr t a u) := by
  by_cases hu : u = t
  · subst hu; rw [Function.update_self]; exact ha
  · rw [Function.update_of_ne hu]; exact h.places u

theorem NumInv.newKeys {ce : List V} {s : TConc V M D} (h : NumInv ce s) {k : Nat} (hk : k < ce.length) (a : Nat) :
    (s.clusters.set k a).keys.Nodup ∧ ∀ k' ∈ (s.clusters.set k a).keys, k' < ce.length := by
  refine ⟨Dict.nodup_set h.keys _ _, fun k' h' => ?_⟩
  rw [Dict.keys_set] at h'
  split at h'
  · exact h.below k' h'
  · rcases List.mem_append.1 h' with h1 | h1
    · exact h.below k' h1
    · rw [List.mem_singleton.1 h1]; exact hk

variable [LinearOrder D]

theorem NumInv.next {env : IConcEnv V D} {ops : Nat → FOp V M} {ce : List V} (hn : ∀ v, env.near ce v < ce.length)
    {s : TConc V M D} (h : NumInv ce s) (t : Nat) : NumInv ce (s.step env ops t) := by
  have hp := h.places t
  have stay : ∀ {a : TAt V M D} (s' : TConc V M D), numOk ce.length a → s'.cents = s.cents → s'.clusters = s.clusters →
      s'.thr = Function.update s.thr t a → NumInv ce s' := by
    intro a s' ha h1 h2 h3
    exact ⟨h1.trans h.cents, by rw [h2]; exact h.keys, by rw [h2]; exact h.below, by rw [h3]; exact h.go ha⟩
  have grow : ∀ {a : TAt V M D} {k o : Nat} (s' : TConc V M D), numOk ce.length a → k < ce.length → s'.cents = s.cents →
      s'.clusters = s.clusters.set k o → s'.thr = Function.update s.thr t a → NumInv ce s' := by
    intro a k o s' ha hk h1 h2 h3
    obtain ⟨h4, h5⟩ := h.newKeys hk o
    exact ⟨h1.trans h.cents, by rw [h2]; exact h4, by rw [h2]; exact h5, by rw [h3]; exact h.go ha⟩
  have near : ∀ v, env.near s.cents v < ce.length := by rw [h.cents]; exact hn
  unfold TConc.step
  cases ops t with
  | insert rows =>
    cases hq : s.thr t with
    | start => exact stay _ (by trivial) rfl rfl rfl
    | ins p =>
      rw [hq] at hp
      cases p with
      | store i =>
        simp only [stepIns]
        cases rows[i]? <;> exact stay _ (by trivial) rfl rfl rfl
      | ids i =>
        simp only [stepIns]
        cases rows[i]? with
        | none => exact h
        | some r => exact stay _ (by trivial) rfl rfl rfl
      | cache i =>
        simp only [stepIns]
        cases rows[i]? with
        | none => exact h
        | some r => exact stay _ (by trivial) rfl rfl rfl
      | len => exact stay _ (by trivial) rfl rfl rfl
      | count n => exact stay _ (by trivial) rfl rfl rfl
      | choose j =>
        simp only [stepIns]
        cases rows[j]? with
        | none => exact stay (a := .done (.ids (rows.map FRow.id))) _ trivial rfl rfl rfl
        | some r =>
          simp only
          cases s.cache.get? r.id with
          | none => exact stay (a := .done .raised) _ trivial rfl rfl rfl
          | some v => exact stay (a := .ins (.has j (env.near s.cents v))) _ (near v) rfl rfl rfl
      | has j k =>
        refine stay (a := .ins (if s.clusters.mem k then .push j k else .new j k)) _ ?_ rfl rfl rfl
        split <;> exact hp
      | new j k => exact grow (a := .ins (.push j k)) _ hp hp rfl rfl rfl
      | push j k =>
        simp only [stepIns]
        cases rows[j]? with
        | none => exact h
        | some r => cases s.clusters.get? k <;> exact stay _ (by trivial) rfl rfl rfl
    | _ => exact h
  | search q k =>
    cases hq : s.thr t with
    | start =>
      refine stay (a := if s.ids.isEmpty then .done (.hits []) else .srch .cents) _ ?_ rfl rfl rfl
      split <;> trivial
    | srch p =>
      refine stay (a := (stepSr env q k s p).1) _ ?_ rfl rfl rfl
      unfold stepSr
      repeat' split
      all_goals trivial
    | _ => exact h
  | update id v m =>
    cases hq : s.thr t with
    | start =>
      dsimp only
      split <;> exact stay _ (by trivial) rfl rfl rfl
    | upd p =>
      rw [hq] at hp
      cases p with
      | cache => exact stay _ (by trivial) rfl rfl rfl
      | iter => exact stay _ (by trivial) rfl rfl rfl
      | loop n p =>
        simp only [stepUpd]
        split
        · exact stay (a := .done .raised) _ trivial rfl rfl rfl
        · cases s.clusters[p]? with
          | none => exact stay (a := .upd .choose) _ trivial rfl rfl rfl
          | some e => exact stay (a := .upd (.test n p e.2)) _ trivial rfl rfl rfl
      | test n p r =>
        refine stay (a := .upd (if id ∈ s.content r then .remL r else .loop n (p + 1))) _ ?_ rfl rfl rfl
        split <;> trivial
      | remL r =>
        simp only [stepUpd]
        split <;> exact stay _ (by trivial) rfl rfl rfl
      | choose => exact stay (a := .upd (.has (env.near s.cents v))) _ (near v) rfl rfl rfl
      | has k =>
        refine stay (a := .upd (if s.clusters.mem k then .push k else .new k)) _ ?_ rfl rfl rfl
        split <;> exact hp
      | new k => exact grow (a := .upd (.push k)) _ hp hp rfl rfl rfl
      | push k =>
        simp only [stepUpd]
        cases s.clusters.get? k <;> exact stay _ (by trivial) rfl rfl rfl
    | _ => exact h
  | delete dels =>
    cases hq : s.thr t with
    | start => exact stay _ (by trivial) rfl rfl rfl
    | delLen ok => exact stay _ (by trivial) rfl rfl rfl
    | delCount ok n => exact stay _ (by trivial) rfl rfl rfl
    | del i ok p =>
      simp only [stepDel]
      cases dels[i]? with
      | none => exact stay (a := .delLen ok) _ trivial rfl rfl rfl
      | some id =>
        cases p with
        | loop n p =>
          simp only
          split
          · exact stay (a := .done .raised) _ trivial rfl rfl rfl
          · cases s.clusters[p]? with
            | none => exact stay (a := .del (i + 1) ok .stor) _ trivial rfl rfl rfl
            | some e => exact stay (a := .del i ok (.test n p e.2)) _ trivial rfl rfl rfl
        | _ =>
          simp only
          first
            | exact stay _ (by trivial) rfl rfl rfl
            | (split <;> exact stay _ (by trivial) rfl rfl rfl)
    | _ => exact h

theorem cents_stay (env : IConcEnv V D) (ops : Nat → FOp V M) (s : TConc V M D) (t : Nat) :
    (s.step env ops t).cents = s.cents := by
  unfold step stepIns stepUpd stepDel
  repeat' split
  all_goals rfl

theorem NumInv.run {env : IConcEnv V D} {ops : Nat → FOp V M} {ce : List V} (hn : ∀ v, env.near ce v < ce.length) :
    ∀ (sched : List Nat) {s : TConc V M D}, NumInv ce s → NumInv ce (s.run env ops sched)
  | [], _, h => h
  | t :: sched, _, h => NumInv.run hn sched (h.next hn t)

end TEnds

/-- The number of statements an insertion, update or deletion on a trained IVF index with `c` centroids has at
most. -/
def ivfSteps (c : Nat) : FOp V M → Nat
  | .insert rows => 7 * rows.length + 5
  | .update _ _ _ => 3 * c + 8
  | .delete dels => (3 * c + 6) * dels.length + 4
  | .search _ _ => 0

variable [LinearOrder D]

open TConc TEnds in
/-- **C238**, insertion, update and deletion on a trained IVF index whose clusters have numbers of centroids: whatever
the other threads do (all begin with this index), the call is over after so many of its own statements. -/
theorem C238_ivf (env : IConcEnv V D) (ops : Nat → FOp V M) (s : TConc V M D)
    (hn : ∀ v, env.near s.cents v < s.cents.length) (hk : s.clusters.keys.Nodup)
    (hb : ∀ k ∈ s.clusters.keys, k < s.cents.length) (hs : ∀ u, s.thr u = .start) (t : Nat)
    (hop : ∀ q k, ops t ≠ .search q k) (sched : List Nat) (hc : ivfSteps s.cents.length (ops t) ≤ sched.count t) :
    EndedT (s.run env ops sched) t := by
  have hI : NumInv s.cents s := ⟨rfl, hk, hb, fun u => by rw [hs u]; trivial⟩
  have hQ : ∀ pre, pre <+: sched → NumInv s.cents (pre.foldl (TConc.step env ops) s) :=
    fun pre _ => hI.run hn pre
  cases ho : ops t with
  | search q k => exact absurd ho (hop q k)
  | insert rows =>
    rw [ho] at hc
    obtain ⟨h1, h2⟩ := left_after (TConc.step env ops) t (fun _ => True) (fun s => insFits rows.length (s.thr t))
      (fun s => insLeft rows.length (s.thr t)) (fun s _ hf => ins_next ho hf)
      (fun s t' _ hf h => by rw [step_others env ops s (Ne.symm h)]; exact ⟨hf, le_rfl⟩) sched s
      (by rw [hs]; trivial) (fun _ _ => trivial)
    change insFits _ ((s.run env ops sched).thr t) at h1
    change insLeft _ ((s.run env ops sched).thr t) ≤ _ at h2
    simp only [hs, insLeft, ivfSteps] at h2 hc
    unfold EndedT
    cases hp : (s.run env ops sched).thr t with
    | done r => exact ⟨r, rfl⟩
    | start => rw [hp] at h2; simp only [insLeft] at h2; omega
    | ins p => rw [hp] at h2; cases p <;> simp only [insLeft] at h2 <;> omega
    | _ => rw [hp] at h1; exact h1.elim
  | update id v m =>
    rw [ho] at hc
    obtain ⟨h1, h2⟩ := left_after (TConc.step env ops) t (NumInv s.cents) (fun x => updFits s.cents.length (x.thr t))
      (fun x => updLeft s.cents.length (x.thr t)) (fun x hx hf => upd_next ho hx.short hf)
      (fun x t' _ hf h => by rw [step_others env ops x (Ne.symm h)]; exact ⟨hf, le_rfl⟩) sched s
      (by rw [hs]; trivial) hQ
    change updFits _ ((s.run env ops sched).thr t) at h1
    change updLeft _ ((s.run env ops sched).thr t) ≤ _ at h2
    simp only [hs, updLeft, ivfSteps] at h2 hc
    unfold EndedT
    cases hp : (s.run env ops sched).thr t with
    | done r => exact ⟨r, rfl⟩
    | start => rw [hp] at h2; simp only [updLeft] at h2; omega
    | upd p => rw [hp] at h2; cases p <;> simp only [updLeft] at h2 <;> omega
    | _ => rw [hp] at h1; exact h1.elim
  | delete dels =>
    rw [ho] at hc
    obtain ⟨h1, h2⟩ := left_after (TConc.step env ops) t (NumInv s.cents)
      (fun x => delFits dels.length s.cents.length (x.thr t))
      (fun x => delLeft dels.length s.cents.length (x.thr t)) (fun x hx hf => del_next ho hx.short hf)
      (fun x t' _ hf h => by rw [step_others env ops x (Ne.symm h)]; exact ⟨hf, le_rfl⟩) sched s
      (by rw [hs]; trivial) hQ
    change delFits _ _ ((s.run env ops sched).thr t) at h1
    change delLeft _ _ ((s.run env ops sched).thr t) ≤ _ at h2
    simp only [hs, delLeft, ivfSteps] at h2 hc
    unfold EndedT
    cases hp : (s.run env ops sched).thr t with
    | done r => exact ⟨r, rfl⟩
    | start => rw [hp] at h2; simp only [delLeft] at h2; omega
    | delLen ok => rw [hp] at h2; simp only [delLeft] at h2; omega
    | delCount ok n => rw [hp] at h2; simp only [delLeft] at h2; omega
    | del i ok p => rw [hp] at h2; cases p <;> simp only [delLeft] at h2 <;> omega
    | _ => rw [hp] at h1; exact h1.elim

open TConc TEnds in
/-- **C238**, search of a trained IVF index: if no list has at any moment more than `n` entries, the search is over
after so many of its own statements. -/
theorem C238_ivf_search_partial (env : IConcEnv V D) (ops : Nat → FOp V M) (s : TConc V M D) (t : Nat)
    (hs : s.thr t = .start) (q : V) (k : Int) (ho : ops t = .search q k) (n : Nat) (sched : List Nat)
    (hn : ∀ pre, pre <+: sched → ∀ r, ((s.run env ops pre).content r).length ≤ n)
    (hc : (4 * n + 3) * s.cents.length + 4 ≤ sched.count t) : EndedT (s.run env ops sched) t := by
  have hce : ∀ pre : List Nat, (s.run env ops pre).cents = s.cents := by
    intro pre
    induction pre using List.reverseRecOn with
    | nil => rfl
    | append_singleton pre u ih =>
      rw [← ih]
      simp only [TConc.run, List.foldl_append, List.foldl_cons, List.foldl_nil]
      exact cents_stay env ops _ u
  obtain ⟨h1, h2⟩ := left_after (TConc.step env ops) t
    (fun x => (∀ r, (x.content r).length ≤ n) ∧ x.cents.length ≤ s.cents.length) (fun x => srFits n (x.thr t))
    (fun x => srLeft n s.cents.length (x.thr t)) (fun x hx hf => sr_next ho hx.1 hx.2 hf)
    (fun x t' _ hf h => by rw [step_others env ops x (Ne.symm h)]; exact ⟨hf, le_rfl⟩) sched s
    (by rw [hs]; trivial) (fun pre hp => ⟨hn pre hp, by rw [show (pre.foldl (TConc.step env ops) s).cents = s.cents from hce pre]⟩)
  change srFits _ ((s.run env ops sched).thr t) at h1
  change srLeft _ _ ((s.run env ops sched).thr t) ≤ _ at h2
  simp only [hs, srLeft] at h2
  unfold EndedT
  cases hp : (s.run env ops sched).thr t with
  | done r => exact ⟨r, rfl⟩
  | start => rw [hp] at h2; simp only [srLeft] at h2; omega
  | srch p => rw [hp] at h2; cases p <;> simp only [srLeft] at h2 <;> omega
  | _ => rw [hp] at h1; exact h1.elim
