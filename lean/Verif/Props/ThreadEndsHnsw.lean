import Verif.Lemmas.ThreadEnds
import Verif.Lemmas.HnswConc

/-!
# C238: calls on an HNSW index come to their end
-/

namespace Valori.Props

open Valori Valori.Spec

variable {V M D : Type}

/-- Thread `t` of an HNSW index has come to its end. -/
def EndedG (s : GConc V M D) (t : Nat) : Prop := ∃ r, s.thr t = .done r

namespace GEnds
open GConc

/-- The statements an insertion has left for row `i` of `n` and the later ones, before the connections: at most `m`
neighbours are picked on each level; `len` is the number of levels. -/
def rowLeft (m n i : Nat) : Nat := (44 * m + 64) * (n - (i + 1)) + 1

/-- The statements an insertion of `n` rows has left at most. -/
def insLeft (m n len : Nat) : GAt M D → Nat
  | .start => (44 * m + 64) * n + 2
  | .ins i p =>
    match p with
    | .store => (44 * m + 64) * (n - i) + 1
    | .vec => rowLeft m n i + 44 * m + 63
    | .len => rowLeft m n i + 44 * m + 62
    | .count _ => rowLeft m n i + 44 * m + 61
    | .test => rowLeft m n i + 44 * m + 37 + 2 * (11 - len) + 1
    | .grow => rowLeft m n i + 44 * m + 37 + max (2 * (11 - len)) 2
    | .node l => rowLeft m n i + 44 * m + 25 + (12 - l)
    | .readMax => rowLeft m n i + 44 * m + 25
    | .setMax _ => rowLeft m n i + 44 * m + 24
    | .sample l => rowLeft m n i + (4 * m + 2) * (11 - l) + 1
    | .has l todo => rowLeft m n i + (4 * m + 2) * (11 - (l + 1)) + 1 + 4 * todo.length + 1
    | .push l _ todo => rowLeft m n i + (4 * m + 2) * (11 - (l + 1)) + 1 + 4 * todo.length + 4
    | .backHas l _ todo => rowLeft m n i + (4 * m + 2) * (11 - (l + 1)) + 1 + 4 * todo.length + 3
    | .backPush l _ todo => rowLeft m n i + (4 * m + 2) * (11 - (l + 1)) + 1 + 4 * todo.length + 2
  | _ => 0

/-- The places of an insertion. -/
def insFits : GAt M D → Prop
  | .start | .done _ => True
  | .ins _ p =>
    match p with
    | .node l | .sample l => l ≤ 11
    | .has l _ | .push l _ _ | .backHas l _ _ | .backPush l _ _ => l ≤ 10
    | _ => True
  | _ => False

/-- The statements a deletion of `n` ids has left at most, with `lv` levels and lists of `b` ids at most. -/
def delLeft (lv b n : Nat) : GAt M D → Nat
  | .start => (lv * (4 * b + 4) + 6) * n + 2
  | .del i _ p =>
    let next := (lv * (4 * b + 4) + 6) * (n - (i + 1)) + 1
    match p with
    | .stor => (lv * (4 * b + 4) + 6) * (n - i) + 1
    | .test => next + lv * (4 * b + 4) + 5
    | .del => next + lv * (4 * b + 4) + 4
    | .len => next + lv * (4 * b + 4) + 3
    | .count _ => next + lv * (4 * b + 4) + 2
    | .level l => next + (lv - l) * (4 * b + 4) + 1
    | .take l => next + (lv - (l + 1)) * (4 * b + 4) + 1 + 4 * b + 3
    | .nbr l _ j => next + (lv - (l + 1)) * (4 * b + 4) + 1 + 4 * (b - j) + 2
    | .nbTest l _ j _ => next + (lv - (l + 1)) * (4 * b + 4) + 1 + 4 * (b - (j + 1)) + 5
    | .nbHas l _ j _ => next + (lv - (l + 1)) * (4 * b + 4) + 1 + 4 * (b - (j + 1)) + 4
    | .nbDel l _ j _ => next + (lv - (l + 1)) * (4 * b + 4) + 1 + 4 * (b - (j + 1)) + 3
    | .drop l => next + (lv - (l + 1)) * (4 * b + 4) + 1 + 1
  | _ => 0

/-- The places of a deletion. -/
def delFits : GAt M D → Prop
  | .start | .done _ | .del _ _ _ => True
  | _ => False

/-- The statements an update has left at most. -/
def updLeft : GAt M D → Nat
  | .start => 3
  | .updTest => 2
  | .updSet => 1
  | _ => 0

/-- The places of an update. -/
def updFits : GAt M D → Prop
  | .start | .done _ | .updTest | .updSet => True
  | _ => False

/-- A round of a search through at most `e` candidates. -/
def roundLeft (b e : Nat) : Nat := e * (3 * b + 3) + e + 1

/-- The statements a search has left at most, with `lv` levels, lists of `b` ids and `e` candidates at most. -/
def srLeft (lv b e : Nat) : GAt M D → Nat
  | .start => lv * roundLeft b e + (3 * b + 3) + 11
  | .srch p =>
    match p with
    | .limit => lv * roundLeft b e + (3 * b + 3) + 10
    | .topMax _ => lv * roundLeft b e + (3 * b + 3) + 9
    | .topLen _ _ => lv * roundLeft b e + (3 * b + 3) + 8
    | .top _ cl => cl * roundLeft b e + (3 * b + 3) + 7
    | .iter _ cl => cl * roundLeft b e + (3 * b + 3) + 6
    | .next _ cl _ => cl * roundLeft b e + (3 * b + 3) + 5
    | .entry _ cl _ => cl * roundLeft b e + (3 * b + 3) + 4
    | .walk _ cl cands todo found =>
      cl * roundLeft b e + todo.length * (3 * b + 3) + found.length + cands.length + 2
    | .nbrs _ cl cands todo found _ =>
      cl * roundLeft b e + todo.length * (3 * b + 3) + found.length + cands.length + 2 + 3 * b + 2
    | .nbr _ cl cands todo found _ j =>
      cl * roundLeft b e + todo.length * (3 * b + 3) + found.length + cands.length + 2 + 3 * (b - j) + 1
    | .vec _ cl cands todo found _ j _ =>
      cl * roundLeft b e + todo.length * (3 * b + 3) + found.length + cands.length + 2 + 3 * (b - (j + 1)) + 3
    | .info todo _ => todo.length + 1
  | _ => 0

/-- The places of a search. -/
def srFits : GAt M D → Prop
  | .start | .done _ | .srch _ => True
  | _ => False

variable [LinearOrder D] {env : HParEnv V D} {ops : Nat → FOp V M} {s : GConc V M D} {t : Nat}

theorem others_stay (env : HParEnv V D) (ops : Nat → FOp V M) (s : GConc V M D) {t u : Nat} (hu : u ≠ t) :
    (s.step env ops u).thr t = s.thr t := by
  unfold GConc.step GConc.stepIns GConc.stepDel
  repeat' split
  all_goals first
    | rfl
    | exact Function.update_of_ne (Ne.symm hu) ..

theorem levels_grow (env : HParEnv V D) (ops : Nat → FOp V M) (s : GConc V M D) (u : Nat) :
    s.levels.length ≤ (s.step env ops u).levels.length := by
  unfold GConc.step GConc.stepIns GConc.stepDel
  repeat' split
  all_goals first
    | exact le_rfl
    | (simp only [List.length_append, List.length_set]; omega)
    | (simp only [List.length_set]; exact le_rfl)

theorem insLeft_mono {m n a b : Nat} (h : a ≤ b) (p : GAt M D) : insLeft m n b p ≤ insLeft m n a p := by
  cases p with
  | ins i p => cases p <;> simp only [insLeft] <;> omega
  | _ => exact le_rfl

theorem level_le (env : HParEnv V D) (t i : Nat) : env.level t i ≤ 10 := Nat.min_le_right ..

theorem ins_next {rows : List (FRow V M)} {m : Nat} (hm : ∀ i l ks, ((env.rnd t i).pick l ks).length ≤ m)
    (ho : ops t = .insert rows) (hf : insFits (s.thr t)) :
    insFits ((s.step env ops t).thr t) ∧
      insLeft m rows.length (s.step env ops t).levels.length ((s.step env ops t).thr t) ≤
        insLeft m rows.length s.levels.length (s.thr t) - 1 := by
  unfold GConc.step
  simp only [ho]
  cases hp : s.thr t with
  | start => simp [insFits, insLeft]
  | done r => simp [insFits, insLeft, hp]
  | ins i p =>
    rw [hp] at hf
    simp only [stepIns]
    cases hr : rows[i]? with
    | none => cases p <;> simp [insFits, insLeft]
    | some r =>
      have hi := (List.getElem?_eq_some_iff.1 hr).1
      have hlev := level_le env t i
      have hmul : (44 * m + 64) * (rows.length - i) = (44 * m + 64) * (rows.length - (i + 1)) + (44 * m + 64) := by
        rw [← Nat.mul_succ]; congr 1; omega
      cases p with
      | store => simp only [Function.update_self, insFits, insLeft, rowLeft, hmul, true_and]; omega
      | vec => simp only [Function.update_self, insFits, insLeft, true_and]; omega
      | len => simp only [Function.update_self, insFits, insLeft, true_and]; omega
      | count n => simp only [Function.update_self, insFits, insLeft, true_and]; omega
      | test =>
        simp only [Function.update_self]
        split
        · simp only [insFits, insLeft, true_and]; omega
        · simp only [insFits, insLeft]; omega
      | grow =>
        simp only [Function.update_self, insFits, insLeft, List.length_append, List.length_singleton, true_and]
        omega
      | node l =>
        simp only [insFits] at hf
        simp only
        split
        · simp only [Function.update_self, insFits, insLeft, true_and]; omega
        · cases s.levels[l]? with
          | none => simp [insFits, insLeft]
          | some d =>
            simp only
            split <;> simp only [Function.update_self, insFits, insLeft, List.length_set] <;> omega
      | readMax => simp only [Function.update_self, insFits, insLeft, true_and]; omega
      | setMax n =>
        simp only [Function.update_self, insFits, insLeft]
        refine ⟨by omega, ?_⟩
        have : (4 * m + 2) * (11 - 0) = 44 * m + 22 := by omega
        omega
      | sample l =>
        simp only [insFits] at hf
        simp only
        split
        · simp only [Function.update_self, insFits, insLeft, rowLeft, true_and]; omega
        · rename_i hl
          cases s.levels[l]? with
          | none => simp [insFits, insLeft]
          | some d =>
            have h1 : (((env.rnd t i).pick l d.keys).filter (· ∈ d.keys)).length ≤ m :=
              (List.length_filter_le _ _).trans (hm i l d.keys)
            have h2 : (4 * m + 2) * (11 - l) = (4 * m + 2) * (11 - (l + 1)) + (4 * m + 2) := by
              rw [← Nat.mul_succ]; congr 1; omega
            simp only [Function.update_self, insFits, insLeft, h2]
            omega
      | has l todo =>
        simp only [insFits] at hf
        cases todo with
        | nil =>
          simp only [Function.update_self, insFits, insLeft, List.length_nil]
          omega
        | cons nb todo =>
          simp only
          split
          · simp only [Function.update_self, insFits, insLeft, List.length_cons]; omega
          · cases s.nodeRef l nb with
            | none => simp [insFits, insLeft]
            | some o =>
              simp only [Function.update_self]
              split <;> simp only [insFits, insLeft, List.length_cons] <;> omega
      | push l nb todo =>
        simp only [insFits] at hf
        simp only
        cases hg : s.nodeRef l nb with
        | none => simp [insFits, insLeft, hg]
        | some o => simp only [hg, Function.update_self, insFits, insLeft]; omega
      | backHas l nb todo =>
        simp only [insFits] at hf
        simp only
        cases hg : s.nodeRef l r.id with
        | none => simp [insFits, insLeft, hg]
        | some o =>
          simp only [hg, Function.update_self]
          split <;> simp only [insFits, insLeft] <;> omega
      | backPush l nb todo =>
        simp only [insFits] at hf
        simp only
        cases hg : s.nodeRef l r.id with
        | none => simp [insFits, insLeft, hg]
        | some o => simp only [hg, Function.update_self, insFits, insLeft]; omega
  | srch p => rw [hp] at hf; simp [insFits] at hf
  | del i ok p => rw [hp] at hf; simp [insFits] at hf
  | updTest => rw [hp] at hf; simp [insFits] at hf
  | updSet => rw [hp] at hf; simp [insFits] at hf

theorem upd_next {id : Id} {v : V} {m : Option M} (ho : ops t = .update id v m) (hf : updFits (s.thr t)) :
    updFits ((s.step env ops t).thr t) ∧ updLeft ((s.step env ops t).thr t) ≤ updLeft (s.thr t) - 1 := by
  unfold GConc.step
  simp only [ho]
  cases hp : s.thr t with
  | start => dsimp only; split <;> simp [updFits, updLeft]
  | done r => simp [updFits, updLeft, hp]
  | updTest => simp only [Function.update_self]; split <;> simp [updFits, updLeft]
  | updSet => simp [updFits, updLeft]
  | srch p => rw [hp] at hf; simp [updFits] at hf
  | ins i p => rw [hp] at hf; simp [updFits] at hf
  | del i ok p => rw [hp] at hf; simp [updFits] at hf

theorem del_next {dels : List Id} {lv b : Nat} (ho : ops t = .delete dels) (hl : s.levels.length ≤ lv)
    (hb : ∀ r, (s.content r).length ≤ b) (hf : delFits (s.thr t)) :
    delFits ((s.step env ops t).thr t) ∧
      delLeft lv b dels.length ((s.step env ops t).thr t) ≤ delLeft lv b dels.length (s.thr t) - 1 := by
  unfold GConc.step
  simp only [ho]
  cases hp : s.thr t with
  | start => simp [delFits, delLeft]
  | done r => simp [delFits, delLeft, hp]
  | del i ok p =>
    simp only [stepDel]
    cases hr : dels[i]? with
    | none => cases p <;> simp [delFits, delLeft]
    | some id =>
      have hi := (List.getElem?_eq_some_iff.1 hr).1
      generalize hk : lv * (4 * b + 4) + 6 = w
      have hmul : w * (dels.length - i) = w * (dels.length - (i + 1)) + w := by
        rw [← Nat.mul_succ]; congr 1; omega
      cases p with
      | stor => simp only [Function.update_self, delFits, delLeft, hk, hmul, true_and]; omega
      | test =>
        simp only [Function.update_self]
        split
        · simp only [delFits, delLeft, hk, true_and]; omega
        · simp only [delFits, delLeft, hk, true_and, Nat.sub_zero]; omega
      | del =>
        simp only
        split
        · simp only [Function.update_self, delFits, delLeft, hk, true_and]; omega
        · simp [delFits, delLeft]
      | len => simp only [Function.update_self, delFits, delLeft, hk, true_and]; omega
      | count n => simp only [Function.update_self, delFits, delLeft, hk, true_and, Nat.sub_zero]; omega
      | level l =>
        simp only
        cases hd : s.levels[l]? with
        | none => simp only [Function.update_self, delFits, delLeft, hk, true_and]; omega
        | some d =>
          have hlt := (List.getElem?_eq_some_iff.1 hd).1
          have h2 : (lv - l) * (4 * b + 4) = (lv - (l + 1)) * (4 * b + 4) + (4 * b + 4) := by
            rw [← Nat.succ_mul]; congr 1; omega
          simp only [Function.update_self]
          split <;> simp only [delFits, delLeft, hk, h2, true_and] <;> omega
      | take l =>
        simp only
        cases s.nodeRef l id with
        | none => simp [delFits, delLeft]
        | some r => simp only [Function.update_self, delFits, delLeft, hk, true_and]; omega
      | nbr l r j =>
        simp only
        cases hj : (s.content r)[j]? with
        | none => simp only [Function.update_self, delFits, delLeft, hk, true_and]; omega
        | some nb =>
          have h1 := (List.getElem?_eq_some_iff.1 hj).1
          have h2 := hb r
          simp only [Function.update_self, delFits, delLeft, hk, true_and]
          omega
      | nbTest l r j nb =>
        simp only [Function.update_self]
        split <;> simp only [delFits, delLeft, hk, true_and] <;> omega
      | nbHas l r j nb =>
        simp only
        cases s.nodeRef l nb with
        | none => simp [delFits, delLeft]
        | some o =>
          simp only [Function.update_self]
          split <;> simp only [delFits, delLeft, hk, true_and] <;> omega
      | nbDel l r j nb =>
        simp only
        cases s.nodeRef l nb with
        | none => simp [delFits, delLeft]
        | some o =>
          simp only
          split
          · simp only [Function.update_self, delFits, delLeft, hk, true_and]; omega
          · simp [delFits, delLeft]
      | drop l =>
        simp only
        cases s.levels[l]? with
        | none => simp [delFits, delLeft]
        | some d =>
          simp only
          split
          · simp only [Function.update_self, delFits, delLeft, hk, true_and]; omega
          · simp [delFits, delLeft]
  | srch p => rw [hp] at hf; simp [delFits] at hf
  | ins i p => rw [hp] at hf; simp [delFits] at hf
  | updTest => rw [hp] at hf; simp [delFits] at hf
  | updSet => rw [hp] at hf; simp [delFits] at hf

theorem sr_next {q : V} {k : Int} {lv b e : Nat} (ho : ops t = .search q k) (hl : s.levels.length ≤ lv)
    (hb : ∀ r, (s.content r).length ≤ b) (he0 : 0 ≤ env.efSearch) (he : env.efSearch ≤ e) (hf : srFits (s.thr t)) :
    srFits ((s.step env ops t).thr t) ∧
      srLeft lv b e ((s.step env ops t).thr t) ≤ srLeft lv b e (s.thr t) - 1 := by
  unfold GConc.step
  simp only [ho]
  cases hp : s.thr t with
  | start => simp only [Function.update_self]; split <;> simp [srFits, srLeft]
  | done r => simp [srFits, srLeft, hp]
  | srch p =>
    simp only [Function.update_self]
    cases p with
    | limit => simp [stepSr, srFits, srLeft]
    | topMax k => simp [stepSr, srFits, srLeft]
    | topLen k mx =>
      have h1 : min mx (s.levels.length - 1) ≤ lv := by omega
      have h2 := Nat.mul_le_mul_right (roundLeft b e) h1
      simp only [stepSr, srFits, srLeft, true_and]
      omega
    | top k cl =>
      simp only [stepSr]
      cases s.levels[cl]? with
      | none => simp [srFits, srLeft]
      | some d =>
        simp only
        split
        · simp only [srFits, srLeft, List.length_nil, true_and]; omega
        · simp [srFits, srLeft]
    | iter k cl =>
      simp only [stepSr]
      cases s.levels[cl]? <;> simp [srFits, srLeft]
    | next k cl n =>
      simp only [stepSr]
      cases s.levels[cl]? with
      | none => simp [srFits, srLeft]
      | some d =>
        simp only
        split
        · simp [srFits, srLeft]
        · cases d <;> simp [srFits, srLeft]
    | entry k cl x =>
      simp only [stepSr]
      cases s.vectors.get? x with
      | none => simp [srFits, srLeft]
      | some v =>
        simp only
        cases env.dist q v with
        | error _ => simp [srFits, srLeft]
        | ok d => simp only [srFits, srLeft, List.length_nil, List.length_singleton, true_and]; omega
    | walk k cl cands todo found =>
      cases todo with
      | nil =>
        simp only [stepSr, roundEnd]
        cases cl with
        | zero =>
          have h1 := (sliceTo_sublist (pySortBy Prod.snd (cands ++ found)) k).length_le
          rw [(pySortBy_perm Prod.snd (cands ++ found)).length_eq, List.length_append] at h1
          simp only [srFits, srLeft, true_and]
          omega
        | succ cl =>
          have h1 : (sliceTo (pySortBy Prod.snd found) env.efSearch).length ≤ e := by
            rw [sliceTo_nonneg _ he0, List.length_take]; omega
          generalize sliceTo (pySortBy Prod.snd found) env.efSearch = c at h1 ⊢
          have h2 := Nat.mul_le_mul_right (3 * b + 3) h1
          have h3 : (cl + 1) * roundLeft b e = cl * roundLeft b e + (e * (3 * b + 3) + e + 1) := by
            rw [Nat.succ_mul]; rfl
          simp only [srFits, srLeft, h3, List.length_nil, true_and]
          omega
      | cons x todo =>
        obtain ⟨n, d0⟩ := x
        simp only [stepSr]
        have h3 : (todo.length + 1) * (3 * b + 3) = todo.length * (3 * b + 3) + (3 * b + 3) := Nat.succ_mul ..
        cases s.levels[cl]? with
        | none => simp [srFits, srLeft]
        | some d =>
          simp only
          split <;> simp only [srFits, srLeft, List.length_cons, h3, true_and] <;> omega
    | nbrs k cl cands todo found n =>
      simp only [stepSr]
      cases s.nodeRef cl n with
      | none => simp [srFits, srLeft]
      | some r => simp only [srFits, srLeft, true_and]; omega
    | nbr k cl cands todo found r j =>
      simp only [stepSr]
      cases hj : (s.content r)[j]? with
      | none => simp only [srFits, srLeft, true_and]; omega
      | some nb =>
        have h1 := (List.getElem?_eq_some_iff.1 hj).1
        have h2 := hb r
        simp only
        split <;> simp only [srFits, srLeft, true_and] <;> omega
    | vec k cl cands todo found r j nb =>
      simp only [stepSr]
      cases s.vectors.get? nb with
      | none => simp [srFits, srLeft]
      | some v =>
        simp only
        cases env.dist q v with
        | error _ => simp [srFits, srLeft]
        | ok d => simp only [srFits, srLeft, List.length_append, List.length_singleton, true_and]; omega
    | info todo acc =>
      rcases todo with _ | ⟨⟨id, d⟩, todo⟩
      · simp [stepSr, srFits, srLeft]
      · simp only [stepSr]
        rcases s.store.get? id with _ | ⟨v, m⟩ <;> simp [srFits, srLeft]
  | ins i p => rw [hp] at hf; simp [srFits] at hf
  | del i ok p => rw [hp] at hf; simp [srFits] at hf
  | updTest => rw [hp] at hf; simp [srFits] at hf
  | updSet => rw [hp] at hf; simp [srFits] at hf

end GEnds

/-- The number of statements an insertion or update on an HNSW index has at most, if it draws at most `m` neighbours
on a level. -/
def hnswSteps (m : Nat) : FOp V M → Nat
  | .insert rows => (44 * m + 64) * rows.length + 2
  | .update _ _ _ => 3
  | _ => 0

/-- In all states of an execution there are at most `lv` levels and no list has more than `b` ids. -/
def StaySmall [LinearOrder D] (env : HParEnv V D) (ops : Nat → FOp V M) (s : GConc V M D) (sched : List Nat)
    (lv b : Nat) : Prop :=
  ∀ pre, pre <+: sched → (s.run env ops pre).levels.length ≤ lv ∧ ∀ r, ((s.run env ops pre).content r).length ≤ b

section
variable [LinearOrder D] (env : HParEnv V D) (ops : Nat → FOp V M)

open GConc GEnds in
/-- **C238**, insertion and update on an HNSW index: whatever state the index is in and whatever the other threads do,
the call is over after so many of its own statements. -/
theorem C238_hnsw (s : GConc V M D) (t : Nat) (hs : s.thr t = .start) (m : Nat)
    (hm : ∀ i l ks, ((env.rnd t i).pick l ks).length ≤ m)
    (hop : (∃ rows, ops t = .insert rows) ∨ ∃ id v x, ops t = .update id v x) (sched : List Nat)
    (hc : hnswSteps m (ops t) ≤ sched.count t) : EndedG (s.run env ops sched) t := by
  unfold EndedG
  obtain ⟨rows, ho⟩ | ⟨id, v, x, ho⟩ := hop
  · rw [ho] at hc
    obtain ⟨h1, h2⟩ := left_after (GConc.step env ops) t (fun _ => True) (fun s => insFits (s.thr t))
      (fun s => insLeft m rows.length s.levels.length (s.thr t)) (fun s _ hf => ins_next hm ho hf)
      (fun s u _ hf h => by
        rw [others_stay env ops s h]; exact ⟨hf, insLeft_mono (levels_grow env ops s u) _⟩) sched s
      (by rw [hs]; trivial) (fun _ _ => trivial)
    change insFits ((s.run env ops sched).thr t) at h1
    change insLeft _ _ (s.run env ops sched).levels.length ((s.run env ops sched).thr t) ≤ _ at h2
    simp only [hs, insLeft, hnswSteps] at h2 hc
    cases hp : (s.run env ops sched).thr t with
    | done r => exact ⟨r, rfl⟩
    | start => rw [hp] at h2; simp only [insLeft] at h2; omega
    | ins i p => rw [hp] at h2; cases p <;> simp only [insLeft, rowLeft] at h2 <;> omega
    | _ => rw [hp] at h1; exact h1.elim
  · rw [ho] at hc
    obtain ⟨h1, h2⟩ := left_after (GConc.step env ops) t (fun _ => True) (fun s => updFits (s.thr t))
      (fun s => updLeft (s.thr t)) (fun s _ hf => upd_next ho hf)
      (fun s u _ hf h => by rw [others_stay env ops s h]; exact ⟨hf, le_rfl⟩) sched s (by rw [hs]; trivial)
      (fun _ _ => trivial)
    change updFits ((s.run env ops sched).thr t) at h1
    change updLeft ((s.run env ops sched).thr t) ≤ _ at h2
    simp only [hs, updLeft, hnswSteps] at h2 hc
    cases hp : (s.run env ops sched).thr t <;> rw [hp] at h1 h2 <;> simp only [updFits, updLeft] at h1 h2 <;>
      first | exact ⟨_, rfl⟩ | omega

open GConc GEnds in
/-- **C238**, deletion on an HNSW index: as long as there are at most `lv` levels and no list has more than `b` ids,
it is over after so many of its own statements. -/
theorem C238_hnsw_delete_partial (s : GConc V M D) (t : Nat) (hs : s.thr t = .start) (dels : List Id)
    (ho : ops t = .delete dels) (lv b : Nat) (sched : List Nat) (hb : StaySmall env ops s sched lv b)
    (hc : (lv * (4 * b + 4) + 6) * dels.length + 2 ≤ sched.count t) : EndedG (s.run env ops sched) t := by
  obtain ⟨h1, h2⟩ := left_after (GConc.step env ops) t
    (fun x => x.levels.length ≤ lv ∧ ∀ r, (x.content r).length ≤ b) (fun s => delFits (s.thr t))
    (fun s => delLeft lv b dels.length (s.thr t)) (fun s hx hf => del_next ho hx.1 hx.2 hf)
    (fun s u _ hf h => by rw [others_stay env ops s h]; exact ⟨hf, le_rfl⟩) sched s (by rw [hs]; trivial) hb
  change delFits ((s.run env ops sched).thr t) at h1
  change delLeft _ _ _ ((s.run env ops sched).thr t) ≤ _ at h2
  simp only [hs, delLeft] at h2
  unfold EndedG
  cases hp : (s.run env ops sched).thr t with
  | done r => exact ⟨r, rfl⟩
  | start => rw [hp] at h2; simp only [delLeft] at h2; omega
  | del i ok p => rw [hp] at h2; cases p <;> simp only [delLeft] at h2 <;> omega
  | _ => rw [hp] at h1; exact h1.elim

open GConc GEnds in
/-- **C238**, search of an HNSW index with `ef_search` at most `e`: as long as there are at most `lv` levels and no
list has more than `b` ids, it is over after so many of its own statements. -/
theorem C238_hnsw_search_partial (s : GConc V M D) (t : Nat) (hs : s.thr t = .start) (q : V) (k : Int)
    (ho : ops t = .search q k) (lv b e : Nat) (he0 : 0 ≤ env.efSearch) (he : env.efSearch ≤ e) (sched : List Nat)
    (hb : StaySmall env ops s sched lv b)
    (hc : lv * (e * (3 * b + 3) + e + 1) + 3 * b + 14 ≤ sched.count t) : EndedG (s.run env ops sched) t := by
  obtain ⟨h1, h2⟩ := left_after (GConc.step env ops) t
    (fun x => x.levels.length ≤ lv ∧ ∀ r, (x.content r).length ≤ b) (fun s => srFits (s.thr t))
    (fun s => srLeft lv b e (s.thr t)) (fun s hx hf => sr_next ho hx.1 hx.2 he0 he hf)
    (fun s u _ hf h => by rw [others_stay env ops s h]; exact ⟨hf, le_rfl⟩) sched s (by rw [hs]; trivial) hb
  change srFits ((s.run env ops sched).thr t) at h1
  change srLeft _ _ _ ((s.run env ops sched).thr t) ≤ _ at h2
  simp only [hs, srLeft, roundLeft] at h2
  unfold EndedG
  cases hp : (s.run env ops sched).thr t with
  | done r => exact ⟨r, rfl⟩
  | start => rw [hp] at h2; simp only [srLeft, roundLeft] at h2; omega
  | srch p => rw [hp] at h2; cases p <;> simp only [srLeft] at h2 <;> omega
  | _ => rw [hp] at h1; exact h1.elim

end

end Valori.Props
