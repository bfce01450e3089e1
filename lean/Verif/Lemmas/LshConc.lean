import Verif.Model.LshConc
import Verif.Lemmas.Dict
import Verif.Lemmas.Lsh

/-!
# Steps of threads on an LSH index
-/

namespace Valori
open Spec (NHit)
namespace LConc
variable {V M S : Type} {s : LConc V M S}

/-! ## Buckets -/

theorem bucket_push (s : LConc V M S) (j : Nat) (c : Code) (id j' : Nat) (c' : Code) :
    (s.push j c id).bucket j' c' =
      if j' = j ∧ c' = c ∧ j < s.tables.length then s.bucket j c ++ [id] else s.bucket j' c' := by
  unfold bucket push
  simp only [List.getElem?_modify]
  by_cases hj : j = j'
  · subst hj
    by_cases hl : j < s.tables.length
    · rw [List.getElem?_eq_getElem hl]
      simp only [if_true, Option.map_eq_map, Option.map_some, Option.getD_some, true_and, hl, and_true]
      by_cases hc : c' = c
      · subst hc; simp
      · simp only [hc, if_false]
        rw [Dict.get?_set, if_neg hc]
    · rw [List.getElem?_eq_none (by omega)]
      simp [hl]
  · have hj' : ¬ j' = j := fun h => hj h.symm
    simp [hj, hj']

theorem bucket_pull (s : LConc V M S) (j : Nat) (c : Code) (id j' : Nat) (c' : Code) :
    (s.pull j c id).bucket j' c' = if j' = j ∧ c' = c then (s.bucket j c).erase id else s.bucket j' c' := by
  unfold bucket pull
  simp only [List.getElem?_modify]
  by_cases hj : j = j'
  · subst hj
    cases ht : s.tables[j]? with
    | none => simp
    | some d =>
      simp only [if_true, Option.map_eq_map, Option.map_some, Option.getD_some, true_and]
      by_cases hc : c' = c
      · subst hc
        cases hd : d.get? c' with
        | none => simp [hd]
        | some l =>
          simp only [hd, if_true, Option.getD_some]
          rw [Dict.get?_set, if_pos rfl]; rfl
      · simp only [hc, if_false]
        cases hd : d.get? c with
        | none => simp only
        | some l =>
          simp only
          rw [Dict.get?_set, if_neg hc]
  · have hj' : ¬ j' = j := fun h => hj h.symm
    simp [hj, hj']

@[simp] theorem push_vectors (j : Nat) (c : Code) (id : Nat) : (s.push j c id).vectors = s.vectors := rfl
@[simp] theorem push_metas (j : Nat) (c : Code) (id : Nat) : (s.push j c id).metas = s.metas := rfl
@[simp] theorem push_nextId (j : Nat) (c : Code) (id : Nat) : (s.push j c id).nextId = s.nextId := rfl
@[simp] theorem pull_vectors (j : Nat) (c : Code) (id : Nat) : (s.pull j c id).vectors = s.vectors := rfl
@[simp] theorem pull_metas (j : Nat) (c : Code) (id : Nat) : (s.pull j c id).metas = s.metas := rfl
@[simp] theorem pull_nextId (j : Nat) (c : Code) (id : Nat) : (s.pull j c id).nextId = s.nextId := rfl

variable [LinearOrder S] {env : LConcEnv V S} {ops : Nat → LOp V M} {s0 : LConc V M S}

/-! ## Steps -/

theorem step_othersL (env : LConcEnv V S) (ops : Nat → LOp V M) (s : LConc V M S) {t u : Nat} (h : u ≠ t) :
    (s.step env ops t).thr u = s.thr u := by
  unfold step
  split <;> first | rfl | exact Function.update_of_ne h _ _

theorem run_snocL (s : LConc V M S) (l : List Nat) (t : Nat) :
    s.run env ops (l ++ [t]) = (s.run env ops l).step env ops t := by
  simp [run]

/-- The ids a place of a deletion is still to treat are ids of the call. -/
def DelIds (ops : Nat → LOp V M) (s : LConc V M S) : Prop :=
  ∀ t l todo p, ops t = .delete l → s.thr t = .del todo p → todo ⊆ l

theorem nextDel_todo {l todo : List Nat} {p : LDel} (h : (nextDel l : LAt M S) = .del todo p) : todo = l := by
  cases l with
  | nil => cases h
  | cons x l => simp only [nextDel, LAt.del.injEq] at h; exact h.1.symm

theorem stepDel_todo {id : Nat} {l todo : List Nat} {p p' : LDel}
    (h : (stepDel env s id l p).1 = .del todo p') : todo ⊆ id :: l := by
  have same : ∀ {x : LDel}, (LAt.del (id :: l) x : LAt M S) = .del todo p' → todo ⊆ id :: l := by
    intro x hx
    simp only [LAt.del.injEq] at hx
    rw [← hx.1]; exact fun _ h => h
  have nxt : (nextDel l : LAt M S) = .del todo p' → todo ⊆ id :: l := by
    intro hx
    rw [nextDel_todo hx]
    exact List.subset_cons_self ..
  cases p with
  | test => simp only [stepDel] at h; split at h <;> first | exact same h | exact nxt h
  | old =>
    simp only [stepDel] at h
    repeat' split at h
    all_goals first | exact same h | exact nxt h | cases h
  | drop j codes => simp only [stepDel] at h; split at h <;> exact same h
  | vec => exact same h
  | md => simp only [stepDel] at h; split at h <;> first | exact nxt h | cases h

theorem DelIds.step (h : DelIds ops s) (t : Nat) : DelIds ops (s.step env ops t) := by
  intro u l todo p ho hu
  by_cases e : u = t
  · subst e
    cases hs : s.thr u with
    | start =>
      simp only [LConc.step, ho, hs, Function.update_self] at hu
      rw [nextDel_todo hu]; exact fun _ h => h
    | del todo' p' =>
      have h1 := h u l todo' p' ho hs
      cases todo' with
      | nil => simp only [LConc.step, ho, hs] at hu; cases hu; exact h1
      | cons id rest =>
        simp only [LConc.step, ho, hs, Function.update_self] at hu
        exact fun x hx => h1 (stepDel_todo hu hx)
    | _ => simp only [LConc.step, ho, hs] at hu; cases hu
  · rw [step_othersL env ops s e] at hu
    exact h u l todo p ho hu

theorem DelIds.start (h : ∀ t, s.thr t = .start) : DelIds ops s := by
  intro t l todo p _ hp
  rw [h t] at hp; cases hp

/-- Nobody updates or deletes the id. -/
def LeftAlone (ops : Nat → LOp V M) (id : Nat) : Prop :=
  (∀ t v m, ops t ≠ .update id v m) ∧ (∀ t l, ops t = .delete l → id ∉ l)

/-- What a step of an index keeps of an id. -/
structure Keeps (id : Nat) (s s' : LConc V M S) : Prop where
  vec : ∀ x, s.vectors[id]? = some x → s'.vectors[id]? = some x
  md : ∀ x, s.metas[id]? = some x → s'.metas[id]? = some x
  bucket : ∀ j c, id ∈ s.bucket j c → id ∈ s'.bucket j c

theorem Keeps.refl (id : Nat) (s : LConc V M S) : Keeps id s s := ⟨fun _ h => h, fun _ h => h, fun _ _ h => h⟩

theorem keeps_push (s : LConc V M S) (id j : Nat) (c : Code) (x : Nat) : Keeps id s (s.push j c x) := by
  refine ⟨fun _ h => h, fun _ h => h, fun j' c' h => ?_⟩
  rw [bucket_push]
  split
  · rename_i e; rw [e.1, e.2.1] at h; exact List.mem_append_left _ h
  · exact h

theorem keeps_pull (s : LConc V M S) {id x : Nat} (j : Nat) (c : Code) (hx : id ≠ x) : Keeps id s (s.pull j c x) := by
  refine ⟨fun _ h => h, fun _ h => h, fun j' c' h => ?_⟩
  rw [bucket_pull]
  split
  · rename_i e; rw [e.1, e.2] at h; exact (List.mem_erase_of_ne hx).2 h
  · exact h

theorem getElem?_app {α : Type} {l : List α} {i : Nat} {x : α} (r : List α) (h : l[i]? = some x) :
    (l ++ r)[i]? = some x := by
  rw [List.getElem?_append_left (List.getElem?_eq_some_iff.1 h).1]; exact h

theorem keeps_ins {rows : List (V × M)} {i : Nat} {ids : List Nat} {p : LIns} (id : Nat) :
    Keeps id s (stepIns env rows s i ids p).2 := by
  cases p with
  | vec x =>
    simp only [stepIns]
    split
    · exact .refl ..
    · exact ⟨fun _ h => getElem?_app _ h, fun _ h => h, fun _ _ h => h⟩
  | md x =>
    simp only [stepIns]
    split
    · exact .refl ..
    · exact ⟨fun _ h => h, fun _ h => getElem?_app _ h, fun _ _ h => h⟩
  | add x j codes =>
    simp only [stepIns]
    split
    · exact keeps_push ..
    · exact .refl ..
  | put x n => exact ⟨fun _ h => h, fun _ h => h, fun _ _ h => h⟩
  | _ => exact .refl ..

theorem keeps_set_vec {id x : Nat} (hx : id ≠ x) (y : Option V) :
    Keeps id s { s with vectors := s.vectors.set x y } :=
  ⟨fun z h => by simp only [List.getElem?_set_ne (Ne.symm hx)]; exact h, fun _ h => h, fun _ _ h => h⟩

theorem keeps_set_md {id x : Nat} (hx : id ≠ x) (y : Option M) :
    Keeps id s { s with metas := s.metas.set x y } :=
  ⟨fun _ h => h, fun z h => by simp only [List.getElem?_set_ne (Ne.symm hx)]; exact h, fun _ _ h => h⟩

theorem keeps_upd {x : Nat} {v : V} {m : Option M} {p : LUpd} {id : Nat} (hx : id ≠ x) :
    Keeps id s (stepUpd env x v m s p).2 := by
  cases p with
  | live => simp only [stepUpd]; split <;> exact .refl ..
  | old => simp only [stepUpd]; repeat' split
           all_goals exact .refl ..
  | drop j codes => simp only [stepUpd]; split <;> first | exact keeps_pull s _ _ hx | exact .refl ..
  | vec => exact keeps_set_vec hx _
  | md => simp only [stepUpd]; split <;> first | exact keeps_set_md hx _ | exact .refl ..
  | again => simp only [stepUpd]; repeat' split
             all_goals exact .refl ..
  | add j codes => simp only [stepUpd]; split <;> first | exact keeps_push .. | exact .refl ..

theorem keeps_del {x : Nat} {todo : List Nat} {p : LDel} {id : Nat} (hx : id ≠ x) :
    Keeps id s (stepDel env s x todo p).2 := by
  cases p with
  | test => simp only [stepDel]; split <;> exact .refl ..
  | old => simp only [stepDel]; repeat' split
           all_goals exact .refl ..
  | drop j codes => simp only [stepDel]; split <;> first | exact keeps_pull s _ _ hx | exact .refl ..
  | vec => exact keeps_set_vec hx _
  | md => simp only [stepDel]; split <;> first | exact keeps_set_md hx _ | exact .refl ..

theorem Keeps.thr {id : Nat} {s' : LConc V M S} (h : Keeps id s s') (f : Nat → LAt M S) :
    Keeps id s { s' with thr := f } := ⟨h.vec, h.md, h.bucket⟩

theorem keeps_step (hd : DelIds ops s) {id : Nat} (hl : LeftAlone ops id) (t : Nat) :
    Keeps id s (s.step env ops t) := by
  cases ho : ops t with
  | insert rows =>
    cases hs : s.thr t with
    | start => simp only [step, ho, hs]; exact (Keeps.refl id s).thr _
    | ins i ids p => simp only [step, ho, hs]; exact (keeps_ins id).thr _
    | _ => simp only [step, ho, hs]; exact .refl ..
  | search q k =>
    cases hs : s.thr t with
    | start => simp only [step, ho, hs]; exact (Keeps.refl id s).thr _
    | srch p => simp only [step, ho, hs]; exact (Keeps.refl id s).thr _
    | _ => simp only [step, ho, hs]; exact .refl ..
  | update x v m =>
    have hx : id ≠ x := fun e => hl.1 t v m (by rw [ho, e])
    cases hs : s.thr t with
    | start => simp only [step, ho, hs]; exact (Keeps.refl id s).thr _
    | upd p => simp only [step, ho, hs]; exact (keeps_upd hx).thr _
    | _ => simp only [step, ho, hs]; exact .refl ..
  | delete l =>
    cases hs : s.thr t with
    | start => simp only [step, ho, hs]; exact (Keeps.refl id s).thr _
    | del todo p =>
      cases todo with
      | nil => simp only [step, ho, hs]; exact .refl ..
      | cons x todo =>
        have hx : id ≠ x := fun e => hl.2 t l ho (hd t l _ p ho hs (by rw [e]; exact List.mem_cons_self ..))
        simp only [step, ho, hs]; exact (keeps_del hx).thr _
    | _ => simp only [step, ho, hs]; exact .refl ..

/-! ## What a search has collected -/

/-- What holds of a search at a statement, when `C` holds of all ids with a similarity that reached the threshold and `H`
of all results. -/
def SrFine (C : Nat → S → Prop) (H : NHit S M → Prop) : LSr M S → Prop
  | .exact .. | .iter .. | .next .. | .take .. => True
  | .score todo acc => (∀ h ∈ acc, H h) ∧ (acc.map NHit.id ++ todo.map Int.ofNat).Nodup
  | .md id d todo acc => (∀ h ∈ acc, H h) ∧ C id d ∧ (acc.map NHit.id ++ (id :: todo).map Int.ofNat).Nodup

/-- The same for the place of a searching thread. -/
def AtFine (C : Nat → S → Prop) (H : NHit S M → Prop) (k : Int) : LAt M S → Prop
  | .start => True
  | .srch p => SrFine C H p
  | .done (.hits l) => (∀ h ∈ l, H h) ∧ (l.map NHit.id).Nodup ∧ (l.map NHit.score).Pairwise (· ≥ ·) ∧
      (0 ≤ k → l.length ≤ k.toNat)
  | .done .raised => True
  | _ => False

theorem AtFine.mono {C C' : Nat → S → Prop} {H H' : NHit S M → Prop} {k : Int} {a : LAt M S} (h : AtFine C H k a)
    (hC : ∀ x d, C x d → C' x d) (hH : ∀ x, H x → H' x) : AtFine C' H' k a := by
  cases a with
  | srch p =>
    cases p with
    | score todo acc => exact ⟨fun x hx => hH x (h.1 x hx), h.2⟩
    | md id d todo acc => exact ⟨fun x hx => hH x (h.1 x hx), hC _ _ h.2.1, h.2.2⟩
    | _ => trivial
  | done r =>
    cases r with
    | hits l => exact ⟨fun x hx => hH x (h.1 x hx), h.2⟩
    | _ => exact h
  | _ => exact h

theorem sr_fineL {q : V} {C : Nat → S → Prop} {H : NHit S M → Prop} {k : Int} {p : LSr M S}
    (hn : ∀ l, (env.setOrder l).Nodup)
    (hC : ∀ id v d, s.vectors[id]? = some (some v) → env.sim q v = .ok d → env.threshold ≤ d → C id d)
    (hH : ∀ (id : Nat) d m, s.metas[id]? = some m → C id d → H ⟨id, d, m⟩)
    (h : SrFine C H p) : AtFine C H k (stepSr env q k s p) := by
  have enter : ∀ got : List Nat, AtFine C H k (.srch (.score (env.setOrder got) []) : LAt M S) := by
    intro got
    refine ⟨by simp, ?_⟩
    simpa using (hn got).map (fun a b h => Int.ofNat.inj h)
  cases p with
  | exact j codes got =>
    simp only [stepSr]
    repeat' split
    all_goals first | trivial | exact enter _
  | iter j codes got =>
    simp only [stepSr]
    split <;> first | trivial | exact enter _
  | next j n p codes got =>
    simp only [stepSr]
    repeat' split
    all_goals trivial
  | take j n p codes got c => trivial
  | score todo acc =>
    obtain ⟨h1, h2⟩ := h
    cases todo with
    | nil =>
      have hp := Lsh.sortDesc_perm acc
      have hsub := sliceTo_sublist (Lsh.sortDesc acc) k
      refine ⟨fun x hx => h1 x (hp.subset (hsub.subset hx)), ?_, ?_, ?_⟩
      · exact (((hp.map NHit.id).nodup_iff).2 (by simpa using h2)).sublist (hsub.map _)
      · rw [List.pairwise_map]
        exact (Lsh.sortDesc_sorted acc).sublist hsub
      · intro hk
        rw [sliceTo_nonneg _ hk, List.length_take]; omega
    | cons id todo =>
      have drop : (acc.map NHit.id ++ todo.map Int.ofNat).Nodup :=
        h2.sublist (List.Sublist.append_left (by simp) _)
      simp only [stepSr]
      split
      · rename_i v hv
        split
        · trivial
        · rename_i d hd
          split
          · rename_i ht; exact ⟨h1, hC id v d hv hd ht, h2⟩
          · exact ⟨h1, drop⟩
      · exact ⟨h1, drop⟩
  | md id d todo acc =>
    obtain ⟨h1, h2, h3⟩ := h
    simp only [stepSr]
    split
    · trivial
    · rename_i m hm
      refine ⟨fun x hx => ?_, by simpa using h3⟩
      rcases List.mem_append.1 hx with hx | hx
      · exact h1 x hx
      · rw [List.mem_singleton.1 hx]; exact hH id d m hm h2

theorem fine_stepL {q : V} {C : Nat → S → Prop} {H : NHit S M → Prop} {k : Int} {t : Nat}
    (ho : ops t = .search q k) (hn : ∀ l, (env.setOrder l).Nodup)
    (hC : ∀ id v d, s.vectors[id]? = some (some v) → env.sim q v = .ok d → env.threshold ≤ d → C id d)
    (hH : ∀ (id : Nat) d m, s.metas[id]? = some m → C id d → H ⟨id, d, m⟩)
    (h : AtFine C H k (s.thr t)) : AtFine C H k ((s.step env ops t).thr t) := by
  cases ha : s.thr t with
  | start =>
    simp only [step, ho, ha, Function.update_self]
    split <;> trivial
  | srch p =>
    rw [ha] at h
    simp only [step, ho, ha, Function.update_self]
    exact sr_fineL hn hC hH h
  | done r =>
    rw [ha] at h
    have e0 : s.step env ops t = s := by simp only [step, ho, ha]
    rw [e0, ha]; exact h
  | _ => rw [ha] at h; exact h.elim

end LConc
end Valori
