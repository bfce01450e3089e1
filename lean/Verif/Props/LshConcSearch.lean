import Mathlib.Data.List.Induction
import Verif.Lemmas.LshConc

/-!
# C240: searches of an LSH index beside calls of other threads
-/

namespace Valori.Props
open Valori Valori.LConc
open Valori.Spec (NHit)
variable {V M S : Type} [LinearOrder S] {env : LConcEnv V S} {ops : Nat → LOp V M} {s0 : LConc V M S}

/-- A moment (an initial part of the schedule) at which thread `t` makes a statement of its call. -/
def LDuring (env : LConcEnv V S) (ops : Nat → LOp V M) (s0 : LConc V M S) (sched : List Nat) (t : Nat)
    (pre : List Nat) : Prop :=
  pre ++ [t] <+: sched ∧ ∀ r, (s0.run env ops pre).thr t ≠ .done r

/-- **C240** (partial: the metadata may be missing or newer than the vector and a search may raise, see
`Props/LshConcCases`) Beside any insertions, updates and deletions, a search that returns gives at most `k` results, the
most similar first and no id twice; the similarity of each reaches the threshold and is that of the vector the index
had under the id at some moment of the search, its metadata are those the index had under the id at that
or a later moment of the search. -/
theorem C240_sound_partial (h0 : ∀ t, s0.thr t = .start) (hn : ∀ l, (env.setOrder l).Nodup) {t : Nat} {q : V} {k : Int}
    (ho : ops t = .search q k) {sched : List Nat} {l : List (NHit S M)}
    (hd : (s0.run env ops sched).thr t = .done (.hits l)) :
    (∀ h ∈ l, ∃ (id : Nat) (p p' : List Nat) (v : V), h.id = id ∧ LDuring env ops s0 sched t p ∧
      LDuring env ops s0 sched t p' ∧ p <+: p' ∧
      (s0.run env ops p).vectors[id]? = some (some v) ∧ env.sim q v = .ok h.score ∧ env.threshold ≤ h.score ∧
      (s0.run env ops p').metas[id]? = some h.md) ∧
    (l.map NHit.id).Nodup ∧ (l.map NHit.score).Pairwise (· ≥ ·) ∧ (0 ≤ k → l.length ≤ k.toNat) := by
  let C (sched : List Nat) : Nat → S → Prop := fun id d =>
    ∃ p v, LDuring env ops s0 sched t p ∧ (s0.run env ops p).vectors[id]? = some (some v) ∧ env.sim q v = .ok d ∧
      env.threshold ≤ d
  let H (sched : List Nat) : NHit S M → Prop := fun h =>
    ∃ (id : Nat) (p p' : List Nat) (v : V), h.id = id ∧ LDuring env ops s0 sched t p ∧
      LDuring env ops s0 sched t p' ∧ p <+: p' ∧
      (s0.run env ops p).vectors[id]? = some (some v) ∧ env.sim q v = .ok h.score ∧ env.threshold ≤ h.score ∧
      (s0.run env ops p').metas[id]? = some h.md
  have main : ∀ sched, AtFine (C sched) (H sched) k ((s0.run env ops sched).thr t) := by
    intro sched
    induction sched using List.reverseRecOn with
    | nil => simp only [run, List.foldl_nil, h0]; trivial
    | append_singleton sched t' ih =>
      have more : ∀ p, LDuring env ops s0 sched t p → LDuring env ops s0 (sched ++ [t']) t p := fun p h =>
        ⟨h.1.trans (List.prefix_append _ _), h.2⟩
      by_cases e : t' = t
      · subst e
        by_cases hdone : ∃ r, (s0.run env ops sched).thr t' = .done r
        · obtain ⟨r, hr⟩ := hdone
          have e0 : (s0.run env ops sched).step env ops t' = s0.run env ops sched := by simp only [step, ho, hr]
          rw [run_snocL, e0]
          refine ih.mono ?_ ?_
          · rintro x d ⟨p, v, hp, h⟩; exact ⟨p, v, more p hp, h⟩
          · rintro x ⟨id, p, p', v, h1, h2, h3, h4⟩; exact ⟨id, p, p', v, h1, more p h2, more p' h3, h4⟩
        · have hdur : LDuring env ops s0 (sched ++ [t']) t' sched :=
            ⟨List.prefix_rfl, fun r h => hdone ⟨r, h⟩⟩
          -- a moment of the search before this one comes before it
          have hpre : ∀ p, LDuring env ops s0 (sched ++ [t']) t' p → p <+: sched := by
            intro p hp
            obtain ⟨r, hr⟩ := hp.1
            refine List.prefix_of_prefix_length_le (l₃ := sched ++ [t'])
              ((List.prefix_append p [t']).trans hp.1) (List.prefix_append _ _) ?_
            have := congrArg List.length hr
            simp only [List.length_append, List.length_cons, List.length_nil] at this
            omega
          have ih' : AtFine (C (sched ++ [t'])) (H (sched ++ [t'])) k ((s0.run env ops sched).thr t') := by
            refine ih.mono ?_ ?_
            · rintro x d ⟨p, v, hp, h⟩; exact ⟨p, v, more p hp, h⟩
            · rintro x ⟨id, p, p', v, h1, h2, h3, h4⟩; exact ⟨id, p, p', v, h1, more p h2, more p' h3, h4⟩
          rw [run_snocL]
          refine fine_stepL ho hn ?_ ?_ ih'
          · intro id v d h1 h2 h3; exact ⟨sched, v, hdur, h1, h2, h3⟩
          · rintro id d m h1 ⟨p, v, hp, h2, h3, h4⟩
            exact ⟨id, p, sched, v, rfl, hp, hdur, hpre p hp, h2, h3, h4, h1⟩
      · rw [run_snocL, step_othersL env ops _ (fun x => e x.symm)]
        refine ih.mono ?_ ?_
        · rintro x d ⟨p, v, hp, h⟩; exact ⟨p, v, more p hp, h⟩
        · rintro x ⟨id, p, p', v, h1, h2, h3, h4⟩; exact ⟨id, p, p', v, h1, more p h2, more p' h3, h4⟩
  have h := main sched
  rw [hd] at h
  exact h

/-! ## Vectors that share a bucket with the query are found -/

/-- What a search has of an id in the bucket of table `j`: a candidate or a result, as soon as it has read the bucket. -/
def SrFinds (id j : Nat) (codes : List Code) (d : S) (m : Option M) (k : Int) : LAt M S → Prop
  | .start => True
  | .srch (.exact i cs got) => cs = codes ∧ (j < i → id ∈ got)
  | .srch (.score todo acc) => id ∈ todo ∨ (⟨id, d, m⟩ : NHit S M) ∈ acc
  | .srch (.md i e todo acc) => (i = id ∧ e = d) ∨ id ∈ todo ∨ (⟨id, d, m⟩ : NHit S M) ∈ acc
  | .done (.hits l) => (⟨id, d, m⟩ : NHit S M) ∈ l ∨ (0 ≤ k → l.length = k.toNat ∧ ∀ h ∈ l, d ≤ h.score)
  | .done .raised => True
  | _ => False

/-- Cutting off a sorted list keeps an element or keeps only elements before it. -/
theorem cut_off {α : Type} {r : α → α → Prop} {l : List α} (hs : l.Pairwise r) {x : α} (hx : x ∈ l) (k : Int) :
    x ∈ sliceTo l k ∨ (0 ≤ k → (sliceTo l k).length = k.toNat ∧ ∀ y ∈ sliceTo l k, r y x) := by
  by_cases hk : 0 ≤ k
  · rw [sliceTo_nonneg _ hk]
    rw [← List.take_append_drop k.toNat l] at hx hs
    rcases List.mem_append.1 hx with h | h
    · exact .inl h
    · refine .inr fun _ => ⟨?_, fun y hy => (List.pairwise_append.1 hs).2.2 y hy x h⟩
      rw [List.length_take]
      have := List.length_pos_of_mem h
      rw [List.length_drop] at this
      omega
  · exact .inr fun h => absurd h hk

theorem finds_place {s : LConc V M S} {q : V} {k : Int} {id j : Nat} {codes : List Code} {c : Code} {v : V} {d : S}
    {m : Option M} {p : LSr M S} (hset : ∀ l x, x ∈ l → x ∈ env.setOrder l) (hc : codes[j]? = some c)
    (hv : s.vectors[id]? = some (some v)) (hm : s.metas[id]? = some m) (hb : id ∈ s.bucket j c)
    (hd : env.sim q v = .ok d) (ht : env.threshold ≤ d) (h : SrFinds id j codes d m k (.srch p)) :
    SrFinds id j codes d m k (stepSr env q k s p) := by
  cases p with
  | exact i cs got =>
    obtain ⟨h1, h2⟩ := h
    subst h1
    simp only [stepSr]
    cases hi : cs[i]? with
    | some c' =>
      refine ⟨rfl, fun hlt => ?_⟩
      by_cases e : j < i
      · exact List.mem_append_left _ (h2 e)
      · have : i = j := by omega
        subst this
        rw [hc] at hi; cases hi
        exact List.mem_append_right _ hb
    | none =>
      have hlt : j < i := by
        have h1 := (List.getElem?_eq_some_iff.1 hc).1
        have h2 := List.getElem?_eq_none_iff.1 hi
        omega
      have hg := h2 hlt
      simp only
      rw [if_neg (List.ne_nil_of_mem hg)]
      exact .inl (hset _ _ hg)
  | score todo acc =>
    cases todo with
    | nil =>
      rcases h with h | h
      · cases h
      · have := cut_off (Lsh.sortDesc_sorted acc) ((Lsh.sortDesc_perm acc).mem_iff.2 h) k
        exact this
    | cons x todo =>
      by_cases e : x = id
      · subst e
        simp only [stepSr, hv, hd, ht, if_true]
        exact .inl ⟨rfl, rfl⟩
      · have h' : id ∈ todo ∨ (⟨id, d, m⟩ : NHit S M) ∈ acc := by
          rcases h with h | h
          · rcases List.mem_cons.1 h with h | h
            · exact absurd h.symm e
            · exact .inl h
          · exact .inr h
        simp only [stepSr]
        repeat' split
        all_goals first | exact h' | exact .inr h' | trivial
  | md x e todo acc =>
    simp only [stepSr]
    rcases h with ⟨rfl, rfl⟩ | h | h
    · rw [hm]; exact .inr (List.mem_append_right _ (List.mem_singleton_self _))
    · split
      · trivial
      · exact .inl h
    · split
      · trivial
      · exact .inr (List.mem_append_left _ h)
  | _ => exact h.elim

/-- **C240** Beside any insertions of any number of threads and beside updates and deletions of other ids, a search
that returns finds a vector that shares a bucket with the query and reaches the threshold: it is among the results, with
its similarity and its metadata, unless `k` results are at least as similar. -/
theorem C240_finds (h0 : ∀ t, s0.thr t = .start) (hset : ∀ l x, x ∈ l → x ∈ env.setOrder l) {t : Nat} {q : V} {k : Int}
    (ho : ops t = .search q k) {id j : Nat} {codes : List Code} {c : Code} {v : V} {m : Option M} {d : S}
    (hq : env.hash q = some codes) (hc : codes[j]? = some c) (hb : id ∈ s0.bucket j c)
    (hv : s0.vectors[id]? = some (some v)) (hm : s0.metas[id]? = some m) (hd : env.sim q v = .ok d)
    (ht : env.threshold ≤ d) (hl : LeftAlone ops id) {sched : List Nat} {l : List (NHit S M)}
    (hr : (s0.run env ops sched).thr t = .done (.hits l)) :
    (⟨id, d, m⟩ : NHit S M) ∈ l ∨ (0 ≤ k → l.length = k.toNat ∧ ∀ h ∈ l, d ≤ h.score) := by
  have main : ∀ sched, DelIds ops (s0.run env ops sched) ∧ (s0.run env ops sched).vectors[id]? = some (some v) ∧
      (s0.run env ops sched).metas[id]? = some m ∧ id ∈ (s0.run env ops sched).bucket j c ∧
      SrFinds id j codes d m k ((s0.run env ops sched).thr t) := by
    intro sched
    induction sched using List.reverseRecOn with
    | nil =>
      refine ⟨.start h0, hv, hm, hb, ?_⟩
      simp only [run, List.foldl_nil, h0]; trivial
    | append_singleton sched u ih =>
      obtain ⟨h1, h2, h3, h4, h5⟩ := ih
      rw [run_snocL]
      have hk := keeps_step (env := env) h1 hl u
      refine ⟨h1.step u, hk.vec _ h2, hk.md _ h3, hk.bucket _ _ h4, ?_⟩
      by_cases e : t = u
      · subst e
        cases hs : (s0.run env ops sched).thr t with
        | start =>
          simp only [step, ho, hs, hq, Function.update_self]
          exact ⟨rfl, fun h => by omega⟩
        | srch p =>
          rw [hs] at h5
          simp only [step, ho, hs, Function.update_self]
          exact finds_place hset hc h2 h3 h4 hd ht h5
        | done r => rw [hs] at h5; simp only [step, ho, hs]; exact h5
        | _ => rw [hs] at h5; exact h5.elim
      · rw [step_othersL env ops _ e]; exact h5
  have h := (main sched).2.2.2.2
  rw [hr] at h
  exact h

/-! ## Beside deletions only, no search raises -/

/-- Every table has the buckets it had, and the lists are as long as they were. -/
structure SameShape (s s' : LConc V M S) : Prop where
  tables : ∀ j : Nat, (s'.tables[j]?.getD []).length = (s.tables[j]?.getD []).length
  vec : s'.vectors.length = s.vectors.length
  md : s'.metas.length = s.metas.length

theorem length_set_present {κ α : Type} [DecidableEq κ] (d : Dict κ α) {k : κ} {a b : α} (h : d.get? k = some a) :
    (d.set k b).length = d.length := by
  induction d with
  | nil => cases h
  | cons e d ih =>
    obtain ⟨x, y⟩ := e
    simp only [Dict.set]
    by_cases hx : x = k
    · rw [if_pos hx]; rfl
    · rw [if_neg hx]
      simp only [Dict.get?, if_neg hx] at h
      simp only [List.length_cons, ih h]

theorem shape_pull (s : LConc V M S) (j : Nat) (c : Code) (id : Nat) : SameShape s (s.pull j c id) := by
  refine ⟨fun i => ?_, rfl, rfl⟩
  unfold pull
  simp only [List.getElem?_modify]
  by_cases e : j = i
  · subst e
    cases s.tables[j]? with
    | none => simp
    | some d =>
      simp only [if_true, Option.map_eq_map, Option.map_some, Option.getD_some]
      cases hd : d.get? c with
      | none => rfl
      | some l => simp only [length_set_present d hd]
  · simp [e]

theorem shape_del {s : LConc V M S} {x : Nat} {todo : List Nat} {p : LDel} :
    SameShape s (stepDel env s x todo p).2 := by
  have rfl' : SameShape s s := ⟨fun _ => rfl, rfl, rfl⟩
  cases p with
  | test => simp only [stepDel]; split <;> exact rfl'
  | old => simp only [stepDel]; repeat' split
           all_goals exact rfl'
  | drop j codes => simp only [stepDel]; split <;> first | exact shape_pull .. | exact rfl'
  | vec => exact ⟨fun _ => rfl, by simp [stepDel], rfl⟩
  | md => simp only [stepDel]; split <;> first | exact ⟨fun _ => rfl, rfl, by simp⟩ | exact rfl'

/-- What a search that cannot raise knows. -/
def SrCalm (s : LConc V M S) : LSr M S → Prop
  | .next j n _ _ _ | .take j n _ _ _ _ => (s.tables[j]?.getD []).length = n
  | .md id _ _ _ => id < s.metas.length
  | _ => True

/-- The same for the place of a searching thread. -/
def AtCalm (s : LConc V M S) : LAt M S → Prop
  | .start => True
  | .srch p => SrCalm s p
  | .done (.hits _) => True
  | _ => False

theorem AtCalm.mono {s s' : LConc V M S} {a : LAt M S} (h : AtCalm s a) (e : SameShape s s') : AtCalm s' a := by
  cases a with
  | srch p =>
    cases p with
    | next j n p codes got => exact (e.tables j).trans h
    | take j n p codes got c => exact (e.tables j).trans h
    | md id d todo acc => unfold AtCalm SrCalm at h ⊢; rw [e.md]; exact h
    | _ => trivial
  | done r => cases r <;> exact h
  | _ => exact h

theorem calm_place {s : LConc V M S} {q : V} {k : Int} {p : LSr M S} (hd : ∀ v, ∃ d, env.sim q v = .ok d)
    (hlen : s.vectors.length ≤ s.metas.length) (h : SrCalm s p) : AtCalm s (stepSr env q k s p) := by
  cases p with
  | exact j codes got => simp only [stepSr]; repeat' split
                         all_goals trivial
  | iter j codes got => simp only [stepSr]; split <;> first | rfl | trivial
  | next j n p codes got =>
    have h : (s.tables[j]?.getD []).length = n := h
    simp only [stepSr, h, ne_eq, not_true_eq_false, if_false]
    repeat' split
    all_goals first | exact h | trivial
  | take j n p codes got c => exact h
  | score todo acc =>
    cases todo with
    | nil => trivial
    | cons id todo =>
      simp only [stepSr]
      split
      · rename_i v hv
        obtain ⟨d, hdv⟩ := hd v
        simp only [hdv]
        split
        · have := (List.getElem?_eq_some_iff.1 hv).1
          unfold AtCalm SrCalm; omega
        · trivial
      · trivial
  | md id d todo acc =>
    have h : id < s.metas.length := h
    simp only [stepSr, List.getElem?_eq_getElem h]
    trivial

/-- **C240** As long as the other threads only search and delete, no search raises. -/
theorem C240_calm (h0 : ∀ t, s0.thr t = .start) {t : Nat} {q : V} {k : Int} (ho : ops t = .search q k)
    (hother : ∀ u, (∃ q k, ops u = .search q k) ∨ ∃ l, ops u = .delete l)
    (hq : (env.hash q).isSome) (hd : ∀ v, ∃ d, env.sim q v = .ok d) (hlen : s0.vectors.length ≤ s0.metas.length)
    {sched : List Nat} {r : LRes M S} (hr : (s0.run env ops sched).thr t = .done r) : ∃ l, r = .hits l := by
  have main : ∀ sched, (s0.run env ops sched).vectors.length ≤ (s0.run env ops sched).metas.length ∧
      AtCalm (s0.run env ops sched) ((s0.run env ops sched).thr t) := by
    intro sched
    induction sched using List.reverseRecOn with
    | nil =>
      refine ⟨hlen, ?_⟩
      simp only [run, List.foldl_nil, h0]; trivial
    | append_singleton sched u ih =>
      obtain ⟨h1, h2⟩ := ih
      rw [run_snocL]
      have hsh : SameShape (s0.run env ops sched) ((s0.run env ops sched).step env ops u) := by
        have rfl' : SameShape (s0.run env ops sched) (s0.run env ops sched) := ⟨fun _ => rfl, rfl, rfl⟩
        rcases hother u with ⟨q', k', hu⟩ | ⟨l, hu⟩
        · cases hs : (s0.run env ops sched).thr u <;> simp only [step, hu, hs] <;> exact ⟨fun _ => rfl, rfl, rfl⟩
        · cases hs : (s0.run env ops sched).thr u with
          | del todo p =>
            cases todo with
            | nil => simp only [step, hu, hs]; exact rfl'
            | cons x todo =>
              simp only [step, hu, hs]
              have := shape_del (env := env) (s := s0.run env ops sched) (x := x) (todo := todo) (p := p)
              exact ⟨this.tables, this.vec, this.md⟩
          | _ => simp only [step, hu, hs]; exact ⟨fun _ => rfl, rfl, rfl⟩
      refine ⟨by rw [hsh.vec, hsh.md]; exact h1, ?_⟩
      refine AtCalm.mono ?_ hsh
      by_cases e : t = u
      · subst e
        cases hs : (s0.run env ops sched).thr t with
        | start =>
          obtain ⟨codes, hcodes⟩ := Option.isSome_iff_exists.1 hq
          simp only [step, ho, hs, hcodes, Function.update_self]
          trivial
        | srch p =>
          rw [hs] at h2
          simp only [step, ho, hs, Function.update_self]
          exact calm_place hd h1 h2
        | done r => rw [hs] at h2; simp only [step, ho, hs]; exact h2
        | _ => rw [hs] at h2; exact h2.elim
      · rw [step_othersL env ops _ e]; exact h2
  have h := (main sched).2
  rw [hr] at h
  cases r with
  | hits l => exact ⟨l, rfl⟩
  | _ => exact h.elim

end Valori.Props
