import Verif.Lemmas.IvfTrainedSearch

/-!
# Without updates a search of a trained IVF index returns no id twice
-/

namespace Valori
open Spec (Hit)
variable {V M D : Type}
namespace TConc

variable [LinearOrder D] {env : IConcEnv V D} {ops : Nat → FOp V M} {s0 s s' : TConc V M D}

/-- What a step does to the lists, when nobody updates. -/
theorem lists_step (hn : ∀ t id v m, ops t ≠ .update id v m) (h : TInv env ops s0 s) (hr : Ready env s0) (t : Nat) :
    (s.step env ops t).lists = s.lists ∨
      (∃ o id, (s.step env ops t).lists = s.lists.modify o (fun x => removeFirst x id) ∧ opDeletes (ops t) id) ∨
      (∃ o id, (s.step env ops t).lists = s.lists.modify o (· ++ [id]) ∧ opInserts (ops t) id ∧ Nowhere s id ∧
        o < s.lists.length) := by
  have h1 := h.thr t
  unfold AtOp at h1
  cases ho : ops t with
  | insert rows =>
    rw [ho] at h1
    cases hth : s.thr t with
    | start => left; simp only [step, ho, hth]
    | ins p =>
      rw [hth] at h1
      simp only [step, ho, hth]
      cases p with
      | push j k =>
        obtain ⟨r, hj, hk⟩ := h1.2
        have hm : s.clusters.mem k = true := by rw [hk]; exact (hr.fixed h.fixed).all _
        obtain ⟨o, hko⟩ := Option.isSome_iff_exists.1 hm
        have h2 := h1.1 j r hj
        simp only [insStage, lt_irrefl, if_false] at h2
        simp only [stepIns, hj, hko]
        exact .inr (.inr ⟨o, r.id, rfl, List.mem_map.2 ⟨r, List.mem_of_getElem? hj, rfl⟩, h2.2.2.2,
          (hr.fixed h.fixed).valid k o (Dict.mem_of_get? hko)⟩)
      | new j k => exact h1.2.elim
      | choose j =>
        left
        simp only [stepIns]
        cases rows[j]? with
        | none => rfl
        | some r => cases hg : s.cache.get? r.id <;> simp only [hg]
      | store j => left; simp only [stepIns]; cases rows[j]? <;> rfl
      | ids j => left; simp only [stepIns]; cases rows[j]? <;> rfl
      | cache j => left; simp only [stepIns]; cases rows[j]? <;> rfl
      | _ => exact .inl rfl
    | _ => left; simp only [step, ho, hth]
  | update id v m => exact absurd ho (hn t id v m)
  | search q k =>
    left
    cases hth : s.thr t <;> simp only [step, ho, hth]
  | delete l =>
    cases hth : s.thr t with
    | del i ok p =>
      simp only [step, ho, hth, stepDel]
      cases hi : l[i]? with
      | none => exact .inl rfl
      | some id =>
        simp only
        cases p with
        | remL n p r =>
          simp only
          split
          · exact .inr (.inl ⟨r, id, rfl, List.mem_of_getElem? hi⟩)
          · exact .inl rfl
        | rem => left; simp only; split <;> rfl
        | loop n p =>
          left
          simp only
          split
          · rfl
          · split <;> rfl
        | _ => exact .inl rfl
    | _ => left; simp only [step, ho, hth]

theorem drop_erase_subset {α : Type} [DecidableEq α] (x y : α) : ∀ (l : List α) (i : Nat),
    x ∈ (l.erase y).drop i → x ∈ l.drop i
  | [], i, h => by simpa using h
  | a :: l, i, h => by
    rw [List.erase_cons] at h
    by_cases e : a = y
    · rw [if_pos (by simpa using e)] at h
      have : x ∈ (a :: l).drop (i + 1) := by simpa using h
      rw [← List.drop_drop] at this
      exact List.mem_of_mem_drop (i := 1) (by rwa [List.drop_drop, Nat.add_comm] at this ⊢ )
    · rw [if_neg (by simpa using e)] at h
      cases i with
      | zero =>
        rw [List.drop_zero] at h ⊢
        rcases List.mem_cons.1 h with h | h
        · exact List.mem_cons.2 (.inl h)
        · exact List.mem_cons_of_mem _ (List.mem_of_mem_erase h)
      | succ i =>
        simp only [List.drop_succ_cons] at h ⊢
        exact drop_erase_subset x y l i h

/-- The id has been in a list at some moment. -/
def Known (ops : Nat → FOp V M) (s : TConc V M D) (x : Id) : Prop :=
  (∀ t, ¬ opInserts (ops t) x) ∨ ∃ r, x ∈ s.content r

theorem known_step (hn : ∀ t id v m, ops t ≠ .update id v m) (h : TInv env ops s0 s) (ha : Apart ops s0)
    (hr : Ready env s0) (t : Nat) {x : Id} (hx : Known ops s x) :
    Known ops (s.step env ops t) x ∧
      (∀ r i, x ∈ ((s.step env ops t).content r).drop i → x ∈ (s.content r).drop i) := by
  rcases lists_step hn h hr t with e | ⟨o, id, e, hd⟩ | ⟨o, id, e, hi, hw, hv⟩
  · have hc : ∀ r, (s.step env ops t).content r = s.content r := fun r => by simp only [content, e]
    refine ⟨?_, fun r i hm => by rw [hc] at hm; exact hm⟩
    rcases hx with hx | ⟨r, hx⟩
    · exact .inl hx
    · exact .inr ⟨r, by rw [hc]; exact hx⟩
  · have hc : ∀ r, (s.step env ops t).content r = if r = o then removeFirst (s.content r) id else s.content r :=
      fun r => content_modify e r (.inl rfl)
    refine ⟨?_, fun r i hm => ?_⟩
    · by_cases hins : ∃ t', opInserts (ops t') x
      · obtain ⟨t', ht'⟩ := hins
        rcases hx with hx | ⟨r, hx⟩
        · exact absurd ht' (hx t')
        refine .inr ⟨r, ?_⟩
        rw [hc]
        split
        · refine (List.mem_erase_of_ne ?_).2 hx
          rintro rfl
          have hw : opWrites (ops t') x := by
            cases hop : ops t' with
            | insert rows => rw [hop] at ht'; exact ht'
            | _ => rw [hop] at ht'; exact ht'.elim
          have e := ha.owner t t' x (.inr hd) (.inl hw)
          subst e
          cases hop : ops t with
          | delete l => rw [hop] at ht'; exact ht'
          | _ => rw [hop] at hd; exact hd
        · exact hx
      · exact .inl fun t' ht' => hins ⟨t', ht'⟩
    · rw [hc] at hm
      split at hm
      · exact drop_erase_subset x id _ i hm
      · exact hm
  · have hc : ∀ r, (s.step env ops t).content r = if r = o then s.content r ++ [id] else s.content r :=
      fun r => content_modify e r (.inr hv)
    have hne : x ≠ id := by
      rintro rfl
      rcases hx with hx | ⟨r, hx⟩
      · exact hx t hi
      · exact hw r hx
    refine ⟨?_, fun r i hm => ?_⟩
    · rcases hx with hx | ⟨r, hx⟩
      · exact .inl hx
      · refine .inr ⟨r, ?_⟩
        rw [hc]
        split
        · exact List.mem_append_left _ hx
        · exact hx
    · rw [hc] at hm
      split at hm
      · rw [List.drop_append] at hm
        rcases List.mem_append.1 hm with hm | hm
        · exact hm
        · exact absurd (List.mem_singleton.1 (List.mem_of_mem_drop hm)) hne
      · exact hm

/-- The search will not meet the id again in the clusters to come. -/
def Past (ops : Nat → FOp V M) (s : TConc V M D) (todo : List Nat) (x : Id) : Prop :=
  Known ops s x ∧ ∀ c ∈ todo, ∀ r, s.clusters.get? c = some r → x ∉ s.content r

/-- Nor in the rest of the list it walks through. -/
def Behind (s : TConc V M D) (r i : Nat) (x : Id) : Prop := x ∉ (s.content r).drop i

/-- What a search knows of the ids it has collected. -/
def SrOnce (ops : Nat → FOp V M) (s : TConc V M D) : TSr V M D → Prop
  | .cents => True
  | .probe todo got => todo.Nodup ∧ (got.map Prod.fst).Nodup ∧ ∀ x ∈ got, Past ops s todo x.1
  | .take c todo got => (c :: todo).Nodup ∧ (got.map Prod.fst).Nodup ∧ ∀ x ∈ got, Past ops s (c :: todo) x.1
  | .walk r todo i got | .fetch r todo i got _ | .put r todo i got _ _ =>
    todo.Nodup ∧ (got.map Prod.fst).Nodup ∧ (∃ c, s.clusters.get? c = some r ∧ c ∉ todo) ∧
      ∀ x ∈ got, Past ops s todo x.1 ∧ Behind s r i x.1
  | .vec r todo i got id =>
    todo.Nodup ∧ (got.map Prod.fst).Nodup ∧ (∃ c, s.clusters.get? c = some r ∧ c ∉ todo) ∧
      (∀ x ∈ got, Past ops s todo x.1 ∧ Behind s r i x.1) ∧ id ∉ got.map Prod.fst ∧ Past ops s todo id ∧
      Behind s r (i + 1) id
  | .info todo acc => (acc.map Hit.id ++ todo.map Prod.fst).Nodup

/-- The same for the place of a searching thread. -/
def AtOnce (ops : Nat → FOp V M) (s : TConc V M D) : TAt V M D → Prop
  | .srch p => SrOnce ops s p
  | .done (.hits l) => (l.map Hit.id).Nodup
  | _ => True

theorem AtOnce.mono {a : TAt V M D} (h : AtOnce ops s a) (f : s'.clusters = s.clusters)
    (e : ∀ x, Known ops s x → Known ops s' x ∧ ∀ r i, x ∈ (s'.content r).drop i → x ∈ (s.content r).drop i) :
    AtOnce ops s' a := by
  have past : ∀ {todo x}, Past ops s todo x → Past ops s' todo x := by
    rintro todo x ⟨h1, h2⟩
    refine ⟨(e x h1).1, fun c hc r hr hx => h2 c hc r (by rw [← f]; exact hr) ?_⟩
    have := (e x h1).2 r 0
    simp only [List.drop_zero] at this
    exact this hx
  have behind : ∀ {todo x r i}, Past ops s todo x → Behind s r i x → Behind s' r i x :=
    fun h1 h2 h3 => h2 ((e _ h1.1).2 _ _ h3)
  cases a with
  | srch p =>
    cases p with
    | cents => trivial
    | info todo acc => exact h
    | probe todo got => exact ⟨h.1, h.2.1, fun x hx => past (h.2.2 x hx)⟩
    | take c todo got => exact ⟨h.1, h.2.1, fun x hx => past (h.2.2 x hx)⟩
    | vec r todo i got id =>
      obtain ⟨h1, h2, h3, h4, h5, h6, h7⟩ := h
      exact ⟨h1, h2, by rw [f]; exact h3, fun x hx => ⟨past (h4 x hx).1, behind (h4 x hx).1 (h4 x hx).2⟩, h5, past h6,
        behind h6 h7⟩
    | _ =>
      obtain ⟨h1, h2, h3, h4⟩ := h
      exact ⟨h1, h2, by rw [f]; exact h3, fun x hx => ⟨past (h4 x hx).1, behind (h4 x hx).1 (h4 x hx).2⟩⟩
  | done x => cases x <;> exact h
  | _ => trivial

theorem once_place {q : V} {k : Int} {p : TSr V M D}
    (hown : ∀ c c' r, s.clusters.get? c = some r → s.clusters.get? c' = some r → c = c')
    (hsingle : ∀ id r, id ∈ s.content r → Single s id) (hp : AtSr ops s (.srch p)) (h : SrOnce ops s p) :
    AtOnce ops s (stepSr env q k s p).1 := by
  cases p with
  | cents =>
    simp only [stepSr]
    cases hps : IConc.probesOf env q s.cents with
    | error e => trivial
    | ok ps => exact ⟨IConc.probes_nodup hps, by simp, fun x hx => by cases hx⟩
  | probe todo got =>
    cases todo with
    | nil =>
      simp only [stepSr]
      have h2 := h.2.1
      have h3 : ((pySortBy Prod.snd got).map Prod.fst).Nodup := ((pySortBy_perm Prod.snd got).map _).nodup_iff.2 h2
      exact h3.sublist ((sliceTo_sublist _ _).map _)
    | cons c todo =>
      simp only [stepSr]
      split
      · exact h
      · exact ⟨(List.nodup_cons.1 h.1).2, h.2.1, fun x hx =>
          ⟨(h.2.2 x hx).1, fun c' hc' => (h.2.2 x hx).2 c' (List.mem_cons_of_mem _ hc')⟩⟩
  | take c todo got =>
    simp only [stepSr]
    cases hr : s.clusters.get? c with
    | none => trivial
    | some r =>
      refine ⟨(List.nodup_cons.1 h.1).2, h.2.1, ⟨c, hr, (List.nodup_cons.1 h.1).1⟩, fun x hx => ?_⟩
      refine ⟨⟨(h.2.2 x hx).1, fun c' hc' => (h.2.2 x hx).2 c' (List.mem_cons_of_mem _ hc')⟩, ?_⟩
      have := (h.2.2 x hx).2 c (List.mem_cons_self ..) r hr
      unfold Behind
      rwa [List.drop_zero]
  | walk r todo i got =>
    obtain ⟨h1, h2, h3, h4⟩ := h
    simp only [stepSr]
    cases hi : (s.content r)[i]? with
    | none => exact ⟨h1, h2, fun x hx => (h4 x hx).1⟩
    | some id =>
      simp only
      split
      · have hmem := List.mem_of_getElem? hi
        have hs := hsingle id r hmem
        obtain ⟨hlt, hget⟩ := List.getElem?_eq_some_iff.1 hi
        have hdrop : (s.content r).drop i = id :: (s.content r).drop (i + 1) := by
          rw [← hget]; exact List.drop_eq_getElem_cons hlt
        refine ⟨h1, h2, h3, h4, fun hg => ?_, ⟨.inr ⟨r, hmem⟩, fun c hc r' hr' hx => ?_⟩, fun hx => ?_⟩
        · obtain ⟨x, hx, rfl⟩ := List.mem_map.1 hg
          exact (h4 x hx).2 (by rw [hdrop]; exact List.mem_cons_self ..)
        · obtain ⟨c₀, hc₀, hnot⟩ := h3
          have e := hs.uniq r r' hmem hx
          subst e
          exact hnot (hown c c₀ r hr' hc₀ ▸ hc)
        · have hc := hs.once r
          have h5 : ((s.content r).drop i).count id ≤ (s.content r).count id :=
            List.Sublist.count_le id (List.drop_sublist i _)
          rw [hdrop, List.count_cons_self] at h5
          have := List.count_pos_iff.2 hx
          omega
      · exact ⟨h1, h2, h3, h4⟩
  | vec r todo i got id =>
    obtain ⟨h1, h2, h3, h4, h5, h6, h7⟩ := h
    simp only [stepSr]
    cases hv : s.cache.get? id with
    | none => trivial
    | some v =>
      simp only
      cases hd : env.dist q v with
      | error e => trivial
      | ok d =>
        refine ⟨h1, ?_, h3, fun x hx => ?_⟩
        · rw [List.map_append, List.nodup_append]
          refine ⟨h2, by simp, fun a ha b hb => ?_⟩
          simp only [List.map_cons, List.map_nil, List.mem_singleton] at hb
          subst hb
          exact fun e => h5 (e ▸ ha)
        · rcases List.mem_append.1 hx with hx | hx
          · refine ⟨(h4 x hx).1, fun hm => (h4 x hx).2 ?_⟩
            rw [← List.drop_drop (i := 1) (j := i)] at hm
            exact List.mem_of_mem_drop hm
          · rw [List.mem_singleton.1 hx]; exact ⟨h6, h7⟩
  | fetch r todo i got id =>
    obtain ⟨h1, h2, h3, h4⟩ := h
    simp only [stepSr, hp.1]
    refine ⟨h1, h2, h3, fun x hx => ⟨(h4 x hx).1, fun hm => (h4 x hx).2 ?_⟩⟩
    rw [← List.drop_drop (i := 1) (j := i)] at hm
    exact List.mem_of_mem_drop hm
  | put r todo i got id v => exact hp.elim
  | info todo acc =>
    cases todo with
    | nil =>
      have : (acc.map Hit.id ++ []).Nodup := h
      rw [List.append_nil] at this
      exact this
    | cons x todo =>
      obtain ⟨id, d⟩ := x
      simp only [stepSr]
      cases s.store.get? id with
      | none => trivial
      | some y =>
        have : (acc.map Hit.id ++ id :: todo.map Prod.fst).Nodup := h
        simpa [AtOnce, SrOnce] using this

theorem Nowhere.single {id : Id} (h : Nowhere s id) : Single s id :=
  ⟨fun r => by rw [h.count]; omega, fun r _ a _ => absurd a (h r), fun r a => absurd a (h r)⟩

/-- In a state that meets the invariant no id is in two lists or twice in one. -/
theorem TInv.single (h : TInv env ops s0 s) (hs : Settled s0) (id : Id) : Single s id := by
  have rest : Same id s0 s → Single s id := fun e => (hs.single id).same e h.fixed.clusters
  by_cases ht : ∃ t, opTouches (ops t) id
  · obtain ⟨t, ht⟩ := ht
    have h1 := h.thr t
    unfold AtOp at h1
    cases ho : ops t with
    | insert rows =>
      rw [ho] at ht h1
      have hid : id ∈ rows.map FRow.id := ht.elim (fun h => h) (fun h => h.elim)
      obtain ⟨row, hrow, rfl⟩ := List.mem_map.1 hid
      obtain ⟨j, hj⟩ := List.mem_iff_getElem?.1 hrow
      have stage : ∀ n, RowAt env s row n → Single s row.id := by
        intro n hn
        rcases n with _ | _ | _ | _ | n
        · exact Gone.single hn
        · exact hn.2.2.2.single
        · exact hn.2.2.2.single
        · exact hn.2.2.2.single
        · exact hn.2.2.2.single
      cases hth : s.thr t with
      | start => rw [hth] at h1; exact stage 0 (h1 j row hj)
      | ins p => rw [hth] at h1; exact stage _ (h1.1 j row hj)
      | done x =>
        rw [hth] at h1
        cases x with
        | ids l => exact stage 4 (h1.2 j row hj)
        | _ => exact h1.elim
      | _ => rw [hth] at h1; exact h1.elim
    | search q k => rw [ho] at ht; exact (ht.elim (fun h => h) (fun h => h)).elim
    | update i v m =>
      rw [ho] at ht h1
      have hid : id = i := ht.elim (fun h => h) (fun h => h.elim)
      subst hid
      cases hth : s.thr t with
      | start => rw [hth] at h1; exact rest h1
      | upd p =>
        rw [hth] at h1
        have h2 := h1.2
        cases p with
        | cache => exact h2.2
        | iter => exact h2.2
        | loop n p => exact h2.2.1
        | test n p r => exact h2.2.1
        | remL r => exact h2.2.1
        | choose => exact h2.2.single
        | has k => exact h2.2.1.single
        | push k => exact h2.2.1.single
        | new k => exact h2.elim
      | done x =>
        rw [hth] at h1
        cases x with
        | flag b =>
          cases b with
          | true => exact h1.2.2.single
          | false => exact rest h1.2
        | _ => exact h1.elim
      | _ => rw [hth] at h1; exact h1.elim
    | delete l =>
      rw [ho] at ht h1
      have hid : id ∈ l := ht.elim (fun h => h.elim) (fun h => h)
      cases hth : s.thr t with
      | start => rw [hth] at h1; exact rest (h1 id hid)
      | del i ok p =>
        rw [hth] at h1
        by_cases hm : id ∈ l.take i
        · exact (h1.past id hm).single
        · by_cases hcur : p = .stor ∨ l[i]? ≠ some id
          · exact rest (h1.future id hid hm hcur)
          · have hp : p ≠ .stor := fun e => hcur (.inl e)
            have hi : l[i]? = some id := by
              by_contra e; exact hcur (.inr e)
            have h2 := h1.now id hi
            cases p with
            | stor => exact absurd rfl hp
            | _ => exact h2.2.1
      | delLen ok => rw [hth] at h1; exact (h1.1 id hid).single
      | delCount ok n => rw [hth] at h1; exact (h1.1 id hid).single
      | done x =>
        rw [hth] at h1
        cases x with
        | flag b => exact (h1.1 id hid).single
        | _ => exact h1.elim
      | _ => rw [hth] at h1; exact h1.elim
  · exact rest (h.idle id fun t h' => ht ⟨t, h'⟩)

theorem once_next {q : V} {k : Int} {u : Nat} (ho : ops u = .search q k)
    (hn : ∀ t id v m, ops t ≠ .update id v m)
    (hown : ∀ c c' r, s0.clusters.get? c = some r → s0.clusters.get? c' = some r → c = c')
    (h : TInv env ops s0 s) (hs : Settled s0) (ha : Apart ops s0) (hr : Ready env s0) (hl : AtOnce ops s (s.thr u))
    (t : Nat) : AtOnce ops (s.step env ops t) ((s.step env ops t).thr u) := by
  have hmono : AtOnce ops s ((s.step env ops t).thr u) →
      AtOnce ops (s.step env ops t) ((s.step env ops t).thr u) := fun h' =>
    h'.mono (h.local hs ha hr t).2.1.clusters fun x hx => known_step hn h ha hr t hx
  apply hmono
  by_cases hu : u = t
  · subst hu
    have h1 := h.thr u
    unfold AtOp at h1
    rw [ho] at h1
    cases hth : s.thr u with
    | start =>
      simp only [step, ho, hth, Function.update_self]
      split
      · exact List.nodup_nil
      · trivial
    | srch p =>
      rw [hth] at h1 hl
      simp only [step, ho, hth, Function.update_self]
      exact once_place (by rw [h.fixed.clusters]; exact hown) (fun id r _ => h.single hs id) h1 hl
    | done x =>
      rw [hth] at hl
      simp only [step, ho, hth]; exact hl
    | _ => rw [hth] at h1; exact h1.elim
  · rw [step_others env ops s hu]; exact hl

end TConc
end Valori
