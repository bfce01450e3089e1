import Verif.Props.LoneIvfSearch
import Verif.Props.IvfTrainedCases

/-!
# C213: a call nobody interrupts on a trained IVF index with updates and deletions
-/

namespace Valori.Props

open Valori Spec TConc

variable {V M D : Type}

/-- The clusters with the content of the lists in place of the lists. -/
def plainLists (ls : List (List Id)) (cl : Dict Nat Nat) : Dict Nat (List Id) :=
  cl.map fun e => (e.1, (ls[e.2]?).getD [])

/-- The trained index of the sequential model. -/
def ivfT (s : TConc V M D) : Ivf V :=
  ⟨some s.cents, plainLists s.lists s.clusters, s.ids, s.cache, s.count, true, true⟩

/-- Every key once, every cluster with a list of its own. -/
structure OwnLT (ls : List (List Id)) (cl : Dict Nat Nat) : Prop where
  keys : cl.keys.Nodup
  refs : (cl.map Prod.snd).Nodup
  valid : ∀ k r, (k, r) ∈ cl → r < ls.length

/-- What a call gives, and the index and the storage after it, by the sequential model of C01-C06. -/
def trainedCall [LinearOrder D] (env' : IvfEnv V D) (f : Ivf V) (st : Dict Id (V × Option M)) :
    FOp V M → FRes M D × Ivf V × Dict Id (V × Option M)
  | .insert rows =>
    let r := Ivf.insert env' (plainStore V M) 2 (rows.map fun r => (r.id, r.v)) (some (rows.map FRow.m)) f st
    (match r.1 with | .ok l => .ids l | .error _ => .raised, r.2)
  | .search q k =>
    let r := Ivf.search env' (plainStore V M) 1 q k f st
    (match r.1 with | .ok l => .hits l | .error _ => .raised, r.2)
  | .update id v m =>
    let r := Ivf.update env' (plainStore V M) id v m f st
    (match r.1 with | .ok b => .flag b | .error _ => .raised, r.2)
  | .delete dels =>
    let r := Ivf.delete (plainStore V M) dels f st
    (match r.1 with | .ok b => .flag b | .error _ => .raised, r.2)

/-! ## The lists -/

theorem OwnLT.inj {ls : List (List Id)} {cl : Dict Nat Nat} (h : OwnLT ls cl) (k k' r : Nat) (h1 : (k, r) ∈ cl)
    (h2 : (k', r) ∈ cl) : k = k' :=
  congrArg Prod.fst (List.inj_on_of_nodup_map h.refs h1 h2 rfl)

/-- The lists and the clusters after `id` went to cluster `k`. -/
def pushedT (ls : List (List Id)) (cl : Dict Nat Nat) (k : Nat) (id : Id) : List (List Id) × Dict Nat Nat :=
  match cl.get? k with
  | some o => (ls.modify o (· ++ [id]), cl)
  | none => ((ls ++ [[]]).modify ls.length (· ++ [id]), cl.set k ls.length)

theorem refs_set {d : Dict Nat Nat} {k a : Nat} (h : (d.map Prod.snd).Nodup) (ha : a ∉ d.map Prod.snd) :
    ((d.set k a).map Prod.snd).Nodup := by
  induction d with
  | nil => simp [Dict.set]
  | cons e d ih =>
    obtain ⟨x, y⟩ := e
    simp only [List.map_cons, List.nodup_cons, List.mem_cons, not_or] at h ha
    simp only [Dict.set]
    split
    · simp only [List.map_cons, List.nodup_cons]
      exact ⟨ha.2, h.2⟩
    · simp only [List.map_cons, List.nodup_cons]
      refine ⟨fun hm => ?_, ih h.2 ha.2⟩
      obtain ⟨e, he, h1⟩ := List.mem_map.1 hm
      rcases mem_set he with rfl | h2
      · exact ha.1 h1
      · exact h.1 (List.mem_map.2 ⟨e, h2, h1⟩)

theorem fresh_own {ls : List (List Id)} {cl : Dict Nat Nat} (h : OwnLT ls cl) (k : Nat) :
    OwnLT (ls ++ [[]]) (cl.set k ls.length) := by
  refine ⟨Dict.nodup_set h.keys _ _, refs_set h.refs ?_, fun k' r hm => ?_⟩
  · intro hm
    obtain ⟨e, he, h1⟩ := List.mem_map.1 hm
    have := h.valid e.1 e.2 he
    omega
  · rw [List.length_append, List.length_singleton]
    rcases mem_set hm with h1 | h1
    · cases h1; omega
    · have := h.valid _ _ h1
      omega

theorem fresh_plain {ls : List (List Id)} {cl : Dict Nat Nat} (h : OwnLT ls cl) (k : Nat) :
    plainLists (ls ++ [[]]) (cl.set k ls.length) = (plainLists ls cl).set k [] := by
  unfold plainLists
  rw [map_set (fun r => ((ls ++ [[]])[r]?).getD [])]
  have : (((ls ++ [[]])[ls.length]?).getD [] : List Id) = [] := by simp
  rw [this]
  congr 1
  refine List.map_congr_left fun e he => ?_
  rw [List.getElem?_append_left (h.valid e.1 e.2 he)]

theorem OwnLT.modify {ls : List (List Id)} {cl : Dict Nat Nat} (h : OwnLT ls cl) (o : Nat) (f : List Id → List Id) :
    OwnLT (ls.modify o f) cl :=
  ⟨h.keys, h.refs, by simpa using h.valid⟩

theorem pushed_own {ls : List (List Id)} {cl : Dict Nat Nat} (h : OwnLT ls cl) (k : Nat) (id : Id) :
    OwnLT (pushedT ls cl k id).1 (pushedT ls cl k id).2 := by
  unfold pushedT
  cases cl.get? k with
  | some o => exact h.modify _ _
  | none => exact (fresh_own h k).modify _ _

theorem pushed_plain {ls : List (List Id)} {cl : Dict Nat Nat} (h : OwnLT ls cl) (k : Nat) (id : Id) :
    plainLists (pushedT ls cl k id).1 (pushedT ls cl k id).2 =
      (plainLists ls cl).set k (((plainLists ls cl).get? k).getD [] ++ [id]) := by
  have hget : (plainLists ls cl).get? k = (cl.get? k).map fun r => (ls[r]?).getD [] :=
    map_get? (fun r => (ls[r]?).getD []) cl k
  rw [hget]
  unfold pushedT
  cases hk : cl.get? k with
  | some o =>
    exact map_push ls id (h.valid k o (Dict.mem_of_get? hk)) cl k h.keys h.inj hk
  | none =>
    have hf := fresh_own h k
    have hg : (cl.set k ls.length).get? k = some ls.length := by simp [Dict.get?_set]
    have h1 := map_push (ls ++ [[]]) id (r := ls.length) (by simp) _ k hf.keys hf.inj hg
    have h2 := fresh_plain h k
    unfold plainLists at h2 ⊢
    dsimp only
    rw [h1, h2, set_set]
    simp

/-- Dropping the id from each list. -/
def droppedT (id : Id) (ls : List (List Id)) (cl : List (Nat × Nat)) : List (List Id) :=
  cl.foldl (fun l e => l.modify e.2 fun x => removeFirst x id) ls

theorem dropped_length (id : Id) (cl : List (Nat × Nat)) : ∀ ls, (droppedT id ls cl).length = ls.length := by
  induction cl with
  | nil => intro ls; rfl
  | cons e cl ih => intro ls; simp only [droppedT, List.foldl_cons] at ih ⊢; rw [ih]; simp

theorem dropped_other (id : Id) (cl : List (Nat × Nat)) : ∀ (ls : List (List Id)) (r : Nat), r ∉ cl.map Prod.snd →
    (droppedT id ls cl)[r]? = ls[r]? := by
  induction cl with
  | nil => intro ls r _; rfl
  | cons e cl ih =>
    intro ls r h
    simp only [List.map_cons, List.mem_cons, not_or] at h
    have := ih (ls.modify e.2 fun x => removeFirst x id) r h.2
    simp only [droppedT, List.foldl_cons] at this ⊢
    rw [this, List.getElem?_modify]
    simp [Ne.symm h.1]

theorem dropped_at (id : Id) (cl : List (Nat × Nat)) : ∀ (ls : List (List Id)) (r : Nat), r ∈ cl.map Prod.snd →
    (cl.map Prod.snd).Nodup →
    ((droppedT id ls cl)[r]?).getD [] = removeFirst ((ls[r]?).getD []) id := by
  induction cl with
  | nil => intro ls r h; simp at h
  | cons e cl ih =>
    intro ls r h hn
    simp only [List.map_cons, List.mem_cons, List.nodup_cons] at h hn
    by_cases hr : r = e.2
    · subst hr
      have := dropped_other id cl (ls.modify e.2 fun x => removeFirst x id) e.2 hn.1
      simp only [droppedT, List.foldl_cons] at this ⊢
      rw [this, List.getElem?_modify]
      cases ls[e.2]? <;> simp [removeFirst]
    · have := ih (ls.modify e.2 fun x => removeFirst x id) r (h.resolve_left hr) hn.2
      simp only [droppedT, List.foldl_cons] at this ⊢
      rw [this, List.getElem?_modify]
      simp [Ne.symm hr]

theorem dropped_own {ls : List (List Id)} {cl : Dict Nat Nat} (h : OwnLT ls cl) (id : Id) :
    OwnLT (droppedT id ls cl) cl :=
  ⟨h.keys, h.refs, by rw [dropped_length]; exact h.valid⟩

theorem removeFirst_absent {l : List Id} {id : Id} (h : id ∉ l) : removeFirst l id = l := by
  simp [removeFirst, List.erase_of_not_mem h]

theorem dropped_plain {ls : List (List Id)} {cl : Dict Nat Nat} (h : OwnLT ls cl) (id : Id) :
    plainLists (droppedT id ls cl) cl = Ivf.dropAll id (plainLists ls cl) := by
  unfold plainLists Ivf.dropAll
  rw [List.map_map]
  refine List.map_congr_left fun e he => ?_
  simp only [Function.comp]
  rw [dropped_at id cl ls e.2 (List.mem_map_of_mem he) h.refs]
  split
  · rfl
  · rename_i hn; rw [removeFirst_absent hn]

/-- Dropping the id from the first list that has it. -/
def droppedFirst (id : Id) (ls : List (List Id)) (cl : List (Nat × Nat)) : List (List Id) :=
  match cl.find? (fun e => decide (id ∈ (ls[e.2]?).getD [])) with
  | none => ls
  | some e => ls.modify e.2 fun x => removeFirst x id

theorem droppedFirst_own {ls : List (List Id)} {cl : Dict Nat Nat} (h : OwnLT ls cl) (id : Id) (cl' : List (Nat × Nat)) :
    OwnLT (droppedFirst id ls cl') cl := by
  unfold droppedFirst
  split
  · exact h
  · exact h.modify _ _

theorem droppedFirst_plain (id : Id) (ls : List (List Id)) : ∀ (cl : List (Nat × Nat)), (cl.map Prod.snd).Nodup →
    plainLists (droppedFirst id ls cl) cl = Ivf.dropFirst id (plainLists ls cl)
  | [], _ => rfl
  | e :: cl, h => by
    simp only [List.map_cons, List.nodup_cons] at h
    have ih := droppedFirst_plain id ls cl h.2
    unfold plainLists droppedFirst at ih ⊢
    simp only [List.map_cons, Ivf.dropFirst, List.find?_cons]
    by_cases hm : id ∈ (ls[e.2]?).getD []
    · simp only [hm, decide_true, if_true]
      congr 1
      · rw [List.getElem?_modify]
        cases ls[e.2]? <;> simp [removeFirst]
      · refine List.map_congr_left fun x hx => ?_
        rw [List.getElem?_modify]
        have : e.2 ≠ x.2 := fun h' => h.1 (List.mem_map.2 ⟨x, hx, h'.symm⟩)
        simp [this]
    · simp only [hm, decide_false, if_false]
      rw [← ih]
      congr 1
      cases hf : cl.find? (fun e => decide (id ∈ (ls[e.2]?).getD [])) with
      | none => rfl
      | some x =>
        dsimp only
        rw [List.getElem?_modify]
        have : x.2 ≠ e.2 := fun h' => h.1 (List.mem_map.2 ⟨x, List.mem_of_find?_eq_some hf, h'⟩)
        simp [this]

/-! ## The steps of one thread -/

/-- The state with these parts and thread `t` at this place. -/
def tOf (st : Dict Id (V × Option M)) (ids : List Id) (ca : Dict Id V) (co : Nat) (ce : List V) (ls : List (List Id))
    (cl : Dict Nat Nat) (thr : Nat → TAt V M D) (t : Nat) (a : TAt V M D) : TConc V M D :=
  ⟨st, ids, ca, co, ce, ls, cl, Function.update thr t a⟩

variable [LinearOrder D]

/-- Some steps of thread `t` lead from `s` to `s'`. -/
def TLeads (env : IConcEnv V D) (ops : Nat → FOp V M) (t : Nat) (s s' : TConc V M D) : Prop :=
  ∃ n, s.run env ops (List.replicate n t) = s'

section
variable {env : IConcEnv V D} {ops : Nat → FOp V M} {t : Nat} {thr : Nat → TAt V M D} {ce : List V}

theorem TLeads.rfl' {s : TConc V M D} : TLeads env ops t s s := ⟨0, rfl⟩

theorem TLeads.trans {a b c : TConc V M D} (h1 : TLeads env ops t a b) (h2 : TLeads env ops t b c) :
    TLeads env ops t a c := by
  obtain ⟨n, rfl⟩ := h1
  obtain ⟨m, rfl⟩ := h2
  exact ⟨n + m, by simp [TConc.run, ← List.replicate_append_replicate, List.foldl_append]⟩

theorem TLeads.next {a b c : TConc V M D} (h1 : a.step env ops t = b) (h2 : TLeads env ops t b c) :
    TLeads env ops t a c := TLeads.trans ⟨1, h1⟩ h2

/-! ### Deletion -/

theorem lone_del_loop {dels : List Id} (ho : ops t = .delete dels) {i : Nat} {id : Id} (hi : dels[i]? = some id)
    (ok : Bool) (st : Dict Id (V × Option M)) (ids : List Id) (ca : Dict Id V) (co : Nat) (cl : Dict Nat Nat)
    (rest : List (Nat × Nat)) : ∀ (p : Nat) (ls : List (List Id)), List.drop p cl = rest →
    TLeads env ops t (tOf st ids ca co ce ls cl thr t (.del i ok (.loop cl.length p)))
      (tOf st ids ca co ce (droppedT id ls rest) cl thr t (.del (i + 1) ok .stor)) := by
  induction rest with
  | nil =>
    intro p ls hp
    refine .next ?_ .rfl'
    simp [TConc.step, TConc.stepDel, tOf, ho, hi, List.getElem?_eq_none (List.drop_eq_nil_iff.1 hp), droppedT]
  | cons e rest ih =>
    intro p ls hp
    obtain ⟨k, r⟩ := e
    have hr : cl[p]? = some (k, r) := by rw [← List.head?_drop, hp]; rfl
    have hn : List.drop (p + 1) cl = rest := by rw [← List.tail_drop, hp]; rfl
    refine .next (b := tOf st ids ca co ce ls cl thr t (.del i ok (.test cl.length p r)))
      (by simp [TConc.step, TConc.stepDel, tOf, ho, hi, hr]) ?_
    by_cases hm : id ∈ (ls[r]?).getD []
    · refine .next (b := tOf st ids ca co ce ls cl thr t (.del i ok (.remL cl.length p r)))
        (by simp [TConc.step, TConc.stepDel, tOf, ho, hi, TConc.content, hm]) ?_
      refine .next ?_ (ih (p + 1) (ls.modify r fun x => removeFirst x id) hn)
      simp [TConc.step, TConc.stepDel, tOf, ho, hi, TConc.content, hm]
    · have hsame : ls.modify r (fun x => removeFirst x id) = ls := by
        refine List.ext_getElem? fun z => ?_
        rw [List.getElem?_modify]
        by_cases hz : r = z
        · subst hz
          cases hl : ls[r]? with
          | none => simp
          | some l => rw [hl] at hm; simp only [Option.getD_some] at hm; simp [removeFirst_absent hm]
        · simp [hz]
      have := ih (p + 1) ls hn
      simp only [droppedT, List.foldl_cons, hsame] at this ⊢
      refine .next ?_ this
      simp [TConc.step, TConc.stepDel, tOf, ho, hi, TConc.content, hm]

theorem lone_del_ids {dels : List Id} (ho : ops t = .delete dels) (cl : Dict Nat Nat) (rest : List Id) :
    ∀ (i : Nat) (ok : Bool) (f : Ivf V) (st : Dict Id (V × Option M)) (ls : List (List Id)), OwnLT ls cl →
    f.clusters = plainLists ls cl → dels.drop i = rest →
    ∃ ls' b, let r := Ivf.deleteLoop (plainStore V M) rest ok f st
      r.1 = .ok b ∧ r.2.1 = ⟨f.cents, plainLists ls' cl, r.2.1.ids, r.2.1.cache, f.count, f.trained, f.inited⟩ ∧
      TLeads env ops t (tOf st f.ids f.cache f.count ce ls cl thr t (.del i ok .stor))
        (tOf r.2.2 r.2.1.ids r.2.1.cache f.count ce ls' cl thr t (.delLen b)) := by
  induction rest with
  | nil =>
    intro i ok f st ls hl hf hi
    refine ⟨ls, ok, rfl, ?_, .next ?_ .rfl'⟩
    · simp only [Ivf.deleteLoop, ← hf]
    · simp [TConc.step, TConc.stepDel, tOf, ho, List.getElem?_eq_none (List.drop_eq_nil_iff.1 hi), Ivf.deleteLoop]
  | cons id rest ih =>
    intro i ok f st ls hl hf hi
    have hr : dels[i]? = some id := by rw [← List.head?_drop, hi]; rfl
    have hn : dels.drop (i + 1) = rest := by rw [← List.tail_drop, hi]; rfl
    obtain ⟨ls', b, h1, h2, h3⟩ := ih (i + 1) (ok && st.mem id)
      { f with ids := removeFirst f.ids id, cache := f.cache.pop id, clusters := Ivf.dropAll id f.clusters }
      (st.pop id) (droppedT id ls cl) (dropped_own hl id) (by rw [dropped_plain hl, hf]) hn
    have hids : (if id ∈ f.ids then removeFirst f.ids id else f.ids) = removeFirst f.ids id := by
      split
      · rfl
      · rename_i h; rw [removeFirst_absent h]
    have hok : (if st.mem id = true then ok else false) = (ok && st.mem id) := by cases st.mem id <;> simp
    refine ⟨ls', b, ?_⟩
    simp only [Ivf.deleteLoop, plainStore, hids, hok]
    simp only [plainStore] at h1 h2 h3
    refine ⟨h1, h2, ?_⟩
    refine .next (b := tOf (st.pop id) f.ids f.cache f.count ce ls cl thr t (.del i (ok && st.mem id) .has))
      (by simp [TConc.step, TConc.stepDel, tOf, ho, hr]) ?_
    have hpop : TLeads env ops t (tOf (st.pop id) f.ids f.cache f.count ce ls cl thr t (.del i (ok && st.mem id) .has))
        (tOf (st.pop id) (removeFirst f.ids id) f.cache f.count ce ls cl thr t (.del i (ok && st.mem id) .pop)) := by
      by_cases hm : id ∈ f.ids
      · refine .next (b := tOf (st.pop id) f.ids f.cache f.count ce ls cl thr t (.del i (ok && st.mem id) .rem))
          ?_ <| .next ?_ .rfl'
        all_goals simp [TConc.step, TConc.stepDel, tOf, ho, hr, hm]
      · rw [removeFirst_absent hm]
        refine .next ?_ .rfl'
        simp [TConc.step, TConc.stepDel, tOf, ho, hr, hm]
    refine hpop.trans <| .next (b := tOf (st.pop id) (removeFirst f.ids id) (f.cache.pop id) f.count ce ls cl thr t
      (.del i (ok && st.mem id) .iter)) (by simp [TConc.step, TConc.stepDel, tOf, ho, hr]) <|
      .next (b := tOf (st.pop id) (removeFirst f.ids id) (f.cache.pop id) f.count ce ls cl thr t
      (.del i (ok && st.mem id) (.loop cl.length 0))) (by simp [TConc.step, TConc.stepDel, tOf, ho, hr]) <| ?_
    exact (lone_del_loop ho hr _ _ _ _ _ cl cl 0 ls rfl).trans h3

/-! ### Update -/

theorem lone_upd_loop {id : Id} {v : V} {m : Option M} (ho : ops t = .update id v m) (st : Dict Id (V × Option M))
    (ids : List Id) (ca : Dict Id V) (co : Nat) (cl : Dict Nat Nat) (ls : List (List Id))
    (rest : List (Nat × Nat)) : ∀ (p : Nat), List.drop p cl = rest →
    TLeads env ops t (tOf st ids ca co ce ls cl thr t (.upd (.loop cl.length p)))
      (tOf st ids ca co ce (droppedFirst id ls rest) cl thr t (.upd .choose)) := by
  induction rest with
  | nil =>
    intro p hp
    refine .next ?_ .rfl'
    simp [TConc.step, TConc.stepUpd, tOf, ho, List.getElem?_eq_none (List.drop_eq_nil_iff.1 hp), droppedFirst]
  | cons e rest ih =>
    intro p hp
    obtain ⟨k, r⟩ := e
    have hr : cl[p]? = some (k, r) := by rw [← List.head?_drop, hp]; rfl
    have hn : List.drop (p + 1) cl = rest := by rw [← List.tail_drop, hp]; rfl
    refine .next (b := tOf st ids ca co ce ls cl thr t (.upd (.test cl.length p r)))
      (by simp [TConc.step, TConc.stepUpd, tOf, ho, hr]) ?_
    by_cases hm : id ∈ (ls[r]?).getD []
    · refine .next (b := tOf st ids ca co ce ls cl thr t (.upd (.remL r)))
        (by simp [TConc.step, TConc.stepUpd, tOf, ho, TConc.content, hm]) <| .next ?_ .rfl'
      simp [TConc.step, TConc.stepUpd, tOf, ho, TConc.content, hm, droppedFirst]
    · have := ih (p + 1) hn
      simp only [droppedFirst, List.find?_cons, hm, decide_false] at this ⊢
      refine .next ?_ this
      simp [TConc.step, TConc.stepUpd, tOf, ho, TConc.content, hm]

theorem lone_upd_push {id : Id} {v : V} {m : Option M} (ho : ops t = .update id v m) (st : Dict Id (V × Option M))
    (ids : List Id) (ca : Dict Id V) (co : Nat) (cl : Dict Nat Nat) (ls : List (List Id)) :
    TLeads env ops t (tOf st ids ca co ce ls cl thr t (.upd .choose))
      (tOf st ids ca co ce (pushedT ls cl (env.near ce v) id).1 (pushedT ls cl (env.near ce v) id).2 thr t
        (.done (.flag true))) := by
  refine .next (b := tOf st ids ca co ce ls cl thr t (.upd (.has (env.near ce v))))
    (by simp [TConc.step, TConc.stepUpd, tOf, ho]) ?_
  unfold pushedT
  cases hk : cl.get? (env.near ce v) with
  | some o =>
    refine .next (b := tOf st ids ca co ce ls cl thr t (.upd (.push (env.near ce v)))) ?_ <| .next ?_ .rfl'
    all_goals simp [TConc.step, TConc.stepUpd, tOf, ho, Dict.mem_eq, hk]
  | none =>
    refine .next (b := tOf st ids ca co ce ls cl thr t (.upd (.new (env.near ce v)))) ?_ <|
      .next (b := tOf st ids ca co ce (ls ++ [[]]) (cl.set (env.near ce v) ls.length) thr t
        (.upd (.push (env.near ce v)))) ?_ <| .next ?_ .rfl'
    all_goals simp [TConc.step, TConc.stepUpd, tOf, ho, Dict.mem_eq, hk, Dict.get?_set]

/-! ### Insertion -/

theorem lone_ins_rows {rows : List (FRow V M)} (ho : ops t = .insert rows) (co : Nat) (cl : Dict Nat Nat)
    (ls : List (List Id)) (rest : List (FRow V M)) :
    ∀ (j : Nat), rows.drop j = rest → ∀ (f : Ivf V) (st : Dict Id (V × Option M)),
    ∃ ids' ca' st', Ivf.insertLoop (plainStore V M) (some (rows.map FRow.m)) j
        (rest.map fun r => (r.id, r.v)) f st =
          (.ok (rest.map FRow.id), ⟨f.cents, f.clusters, ids', ca', f.count, f.trained, f.inited⟩, st') ∧
      TLeads env ops t (tOf st f.ids f.cache co ce ls cl thr t (.ins (.store j)))
        (tOf st' ids' ca' co ce ls cl thr t (.ins .len)) := by
  induction rest with
  | nil =>
    intro j hj f st
    refine ⟨f.ids, f.cache, st, rfl, .next ?_ .rfl'⟩
    simp [TConc.step, TConc.stepIns, tOf, ho, List.getElem?_eq_none (List.drop_eq_nil_iff.1 hj)]
  | cons r rest ih =>
    intro j hj f st
    have hr : rows[j]? = some r := by rw [← List.head?_drop, hj]; rfl
    have hn : rows.drop (j + 1) = rest := by rw [← List.tail_drop, hj]; rfl
    obtain ⟨ids', ca', st', h1, h2⟩ := ih (j + 1) hn
      { f with ids := f.ids ++ [r.id], cache := f.cache.set r.id r.v } (st.set r.id (r.v, r.m))
    refine ⟨ids', ca', st', ?_, ?_⟩
    · simp only [List.map_cons, Ivf.insertLoop, plainStore, rowMeta_all rows hr]
      simp only [plainStore] at h1
      simp only [h1]
    · refine .next (b := tOf (st.set r.id (r.v, r.m)) f.ids f.cache co ce ls cl thr t (.ins (.ids j))) ?_ <| .next
        (b := tOf (st.set r.id (r.v, r.m)) (f.ids ++ [r.id]) f.cache co ce ls cl thr t (.ins (.cache j)))
        ?_ <| .next ?_ h2
      all_goals simp [TConc.step, TConc.stepIns, tOf, ho, hr]

theorem lone_ins_push {rows : List (FRow V M)} (ho : ops t = .insert rows) {j : Nat} {r : FRow V M}
    (hr : rows[j]? = some r) {v : V} (st : Dict Id (V × Option M))
    (ids : List Id) (ca : Dict Id V) (hc : ca.get? r.id = some v) (co : Nat) (cl : Dict Nat Nat) (ls : List (List Id)) :
    TLeads env ops t (tOf st ids ca co ce ls cl thr t (.ins (.choose j)))
      (tOf st ids ca co ce (pushedT ls cl (env.near ce v) r.id).1 (pushedT ls cl (env.near ce v) r.id).2 thr t
        (.ins (.choose (j + 1)))) := by
  refine .next (b := tOf st ids ca co ce ls cl thr t (.ins (.has j (env.near ce v))))
    (by simp [TConc.step, TConc.stepIns, tOf, ho, hr, hc]) ?_
  unfold pushedT
  cases hk : cl.get? (env.near ce v) with
  | some o =>
    refine .next (b := tOf st ids ca co ce ls cl thr t (.ins (.push j (env.near ce v)))) ?_ <| .next ?_ .rfl'
    all_goals simp [TConc.step, TConc.stepIns, tOf, ho, Dict.mem_eq, hk, hr]
  | none =>
    refine .next (b := tOf st ids ca co ce ls cl thr t (.ins (.new j (env.near ce v)))) ?_ <|
      .next (b := tOf st ids ca co ce (ls ++ [[]]) (cl.set (env.near ce v) ls.length) thr t
        (.ins (.push j (env.near ce v)))) ?_ <| .next ?_ .rfl'
    all_goals simp [TConc.step, TConc.stepIns, tOf, ho, Dict.mem_eq, hk, Dict.get?_set, hr]

theorem lone_ins_add {env' : IvfEnv V D} (he : SameIvf env.toIParEnv env') {rows : List (FRow V M)}
    (ho : ops t = .insert rows) (st : Dict Id (V × Option M)) (rest : List (FRow V M)) :
    ∀ (j : Nat), rows.drop j = rest → ∀ (f : Ivf V) (ls : List (List Id)) (cl : Dict Nat Nat), OwnLT ls cl →
    f.clusters = plainLists ls cl → f.trained = true → f.cents = some ce →
    ∃ ls' cl', let g := Ivf.addLoop env' (rest.map FRow.id) f
      g.2 = ⟨f.cents, plainLists ls' cl', f.ids, f.cache, f.count, f.trained, f.inited⟩ ∧
      TLeads env ops t (tOf st f.ids f.cache f.count ce ls cl thr t (.ins (.choose j)))
        (tOf st f.ids f.cache f.count ce ls' cl' thr t (.done
          (match g.1 with | .ok _ => .ids (rows.map FRow.id) | .error _ => .raised))) := by
  induction rest with
  | nil =>
    intro j hj f ls cl hl hf htr hce
    refine ⟨ls, cl, by rw [← hf]; rfl, .next ?_ .rfl'⟩
    simp [TConc.step, TConc.stepIns, tOf, ho, List.getElem?_eq_none (List.drop_eq_nil_iff.1 hj), Ivf.addLoop]
  | cons r rest ih =>
    intro j hj f ls cl hl hf htr hce
    have hr : rows[j]? = some r := by rw [← List.head?_drop, hj]; rfl
    have hn : rows.drop (j + 1) = rest := by rw [← List.tail_drop, hj]; rfl
    rw [List.map_cons, Ivf.addLoop]
    cases hc : f.cache.get? r.id with
    | none =>
      refine ⟨ls, cl, by rw [← hf], .next ?_ .rfl'⟩
      simp [TConc.step, TConc.stepIns, tOf, ho, hr, hc]
    | some v =>
      have h1 : Ivf.addToCluster env' r.id v f = .ok (withClusters f
          (f.clusters.set (env.near ce v) ((f.clusters.get? (env.near ce v)).getD [] ++ [r.id]))) := by
        simp [withClusters, Ivf.addToCluster, htr, hce, he.near]
      simp only [h1]
      obtain ⟨ls', cl', h2, h3⟩ := ih (j + 1) hn (withClusters f
          (f.clusters.set (env.near ce v) ((f.clusters.get? (env.near ce v)).getD [] ++ [r.id])))
          (pushedT ls cl (env.near ce v) r.id).1 (pushedT ls cl (env.near ce v) r.id).2 (pushed_own hl _ _)
          (by rw [pushed_plain hl, ← hf]; rfl) htr hce
      exact ⟨ls', cl', h2, (lone_ins_push ho hr st f.ids f.cache hc f.count cl ls).trans h3⟩

/-! ### Search -/

theorem lone_sr_walk {q : V} {k : Int} (ho : ops t = .search q k) (st : Dict Id (V × Option M)) (ids : List Id)
    (co : Nat) (cl : Dict Nat Nat) (ls : List (List Id)) (r : Nat) (todo : List Nat) (rest : List Id) :
    ∀ (i : Nat) (c : Dict Id V) (got : List (Id × D)), ((ls[r]?).getD []).drop i = rest →
    let x := scanVecs (plainStore V M) (env.dist q) rest c st
    x.2.2 = st ∧
    TLeads env ops t (tOf st ids c co ce ls cl thr t (.srch (.walk r todo i got)))
      (tOf st ids x.2.1 co ce ls cl thr t (match x.1 with
        | .ok ds => .srch (.probe todo (got ++ ds))
        | .error _ => .done .raised)) := by
  induction rest with
  | nil =>
    intro i c got hi
    refine ⟨rfl, .next ?_ .rfl'⟩
    simp [TConc.step, TConc.stepSr, tOf, ho, TConc.content, List.getElem?_eq_none (List.drop_eq_nil_iff.1 hi), scanVecs]
  | cons id rest ih =>
    intro i c got hi
    have hr : ((ls[r]?).getD [])[i]? = some id := by rw [← List.head?_drop, hi]; rfl
    have hn : ((ls[r]?).getD []).drop (i + 1) = rest := by rw [← List.tail_drop, hi]; rfl
    simp only [scanVecs]
    cases hc : c.get? id with
    | some v =>
      have st1 : (tOf st ids c co ce ls cl thr t (.srch (.walk r todo i got))).step env ops t =
          tOf st ids c co ce ls cl thr t (.srch (.vec r todo i got id)) := by
        simp [TConc.step, TConc.stepSr, tOf, ho, TConc.content, hr, Dict.mem_eq, hc]
      simp only
      cases hd : env.dist q v with
      | error e =>
        refine ⟨rfl, .next st1 (.next ?_ .rfl')⟩
        simp [TConc.step, TConc.stepSr, tOf, ho, hc, hd]
      | ok d =>
        obtain ⟨h1, h2⟩ := ih (i + 1) c (got ++ [(id, d)]) hn
        have h3 : TLeads env ops t (tOf st ids c co ce ls cl thr t (.srch (.walk r todo i got))) _ :=
          .next st1 (.next (by simp [TConc.step, TConc.stepSr, tOf, ho, hc, hd]) h2)
        rcases hsc : scanVecs (plainStore V M) (env.dist q) rest c st with ⟨_ | l, c', s'⟩ <;>
          rw [hsc] at h1 h3 <;> refine ⟨h1, ?_⟩
        · exact h3
        · simpa using h3
    | none =>
      have st1 : (tOf st ids c co ce ls cl thr t (.srch (.walk r todo i got))).step env ops t =
          tOf st ids c co ce ls cl thr t (.srch (.fetch r todo i got id)) := by
        simp [TConc.step, TConc.stepSr, tOf, ho, TConc.content, hr, Dict.mem_eq, hc]
      cases hs : st.get? id with
      | none =>
        simp only [plainStore, hs]
        obtain ⟨h1, h2⟩ := ih (i + 1) c got hn
        refine ⟨h1, .next st1 (.next ?_ h2)⟩
        simp [TConc.step, TConc.stepSr, tOf, ho, hs]
      | some x =>
        obtain ⟨v, m⟩ := x
        have st2 : (tOf st ids c co ce ls cl thr t (.srch (.fetch r todo i got id))).step env ops t =
            tOf st ids c co ce ls cl thr t (.srch (.put r todo i got id v)) := by
          simp [TConc.step, TConc.stepSr, tOf, ho, hs]
        have e : (plainStore V M).retrieve st id = (.ok (some (v, m)), st) := by
          simp only [plainStore, hs]
        simp only [e]
        cases hd : env.dist q v with
        | error e =>
          refine ⟨rfl, .next st1 (.next st2 (.next ?_ .rfl'))⟩
          simp [TConc.step, TConc.stepSr, tOf, ho, hd]
        | ok d =>
          obtain ⟨h1, h2⟩ := ih (i + 1) (c.set id v) (got ++ [(id, d)]) hn
          have h3 : TLeads env ops t (tOf st ids c co ce ls cl thr t (.srch (.walk r todo i got))) _ :=
            .next st1 (.next st2 (.next (by simp [TConc.step, TConc.stepSr, tOf, ho, hd]) h2))
          rcases hsc : scanVecs (plainStore V M) (env.dist q) rest (c.set id v) st with ⟨_ | l, c', s'⟩ <;>
            rw [hsc] at h1 h3 <;> refine ⟨h1, ?_⟩
          · exact h3
          · simpa using h3

theorem lone_sr_info {q : V} {k : Int} (ho : ops t = .search q k) (st : Dict Id (V × Option M)) (ids : List Id)
    (c : Dict Id V) (co : Nat) (cl : Dict Nat Nat) (ls : List (List Id)) (todo : List (Id × D)) :
    ∀ acc : List (Hit D M),
    TLeads env ops t (tOf st ids c co ce ls cl thr t (.srch (.info todo acc)))
      (tOf st ids c co ce ls cl thr t (.done (match (fetchMeta (plainStore V M) todo st).1 with
        | .ok l => .hits (acc ++ l)
        | .error _ => .raised))) ∧ (fetchMeta (plainStore V M) todo st).2 = st := by
  induction todo with
  | nil =>
    intro acc
    refine ⟨.next ?_ .rfl', rfl⟩
    simp [TConc.step, TConc.stepSr, tOf, ho, fetchMeta]
  | cons x todo ih =>
    intro acc
    obtain ⟨id, d⟩ := x
    cases hs : st.get? id with
    | none =>
      simp only [fetchMeta, plainStore, hs]
      exact ⟨.next (by simp [TConc.step, TConc.stepSr, tOf, ho, hs]) .rfl', trivial⟩
    | some y =>
      obtain ⟨v, m⟩ := y
      have e : (plainStore V M).retrieve st id = (.ok (some (v, m)), st) := by
        simp only [plainStore, hs]
      obtain ⟨h1, h2⟩ := ih (acc ++ [⟨id, d, m⟩])
      have h3 : TLeads env ops t (tOf st ids c co ce ls cl thr t (.srch (.info ((id, d) :: todo) acc))) _ :=
        .next (by simp [TConc.step, TConc.stepSr, tOf, ho, hs]) h1
      simp only [fetchMeta, e]
      rcases hf : fetchMeta (plainStore V M) todo st with ⟨_ | l, s'⟩ <;> rw [hf] at h2 h3
      · exact ⟨h3, h2⟩
      · exact ⟨by simpa using h3, h2⟩

theorem lone_sr_probe {q : V} {k : Int} (ho : ops t = .search q k) (st : Dict Id (V × Option M)) (ids : List Id)
    (co : Nat) (cl : Dict Nat Nat) (ls : List (List Id)) (ps : List Nat) :
    ∀ (c : Dict Id V) (got : List (Id × D)),
    let r := scanVecs (plainStore V M) (env.dist q) (ps.flatMap fun c => ((plainLists ls cl).get? c).getD []) c st
    r.2.2 = st ∧
    TLeads env ops t (tOf st ids c co ce ls cl thr t (.srch (.probe ps got)))
      (tOf st ids r.2.1 co ce ls cl thr t (match r.1 with
        | .ok ds => .srch (.info (sliceTo (pySortBy Prod.snd (got ++ ds)) k) [])
        | .error _ => .done .raised)) := by
  induction ps with
  | nil =>
    intro c got
    refine ⟨rfl, .next ?_ .rfl'⟩
    simp [TConc.step, TConc.stepSr, tOf, ho, scanVecs]
  | cons p ps ih =>
    intro c got
    have hg : ((plainLists ls cl).get? p).getD [] =
        match cl.get? p with | none => [] | some r => (ls[r]?).getD [] := by
      unfold plainLists
      rw [map_get? (fun r => (ls[r]?).getD [])]
      cases cl.get? p <;> rfl
    simp only [List.flatMap_cons, hg, scanVecs_append]
    cases hp : cl.get? p with
    | none =>
      obtain ⟨h1, h2⟩ := ih c got
      have h3 : TLeads env ops t (tOf st ids c co ce ls cl thr t (.srch (.probe (p :: ps) got))) _ :=
        .next (by simp [TConc.step, TConc.stepSr, tOf, ho, Dict.mem_eq, hp]) h2
      simp only [scanVecs]
      rcases hsc : scanVecs (plainStore V M) (env.dist q)
        (ps.flatMap fun c => ((plainLists ls cl).get? c).getD []) c st with ⟨_ | l, x⟩ <;>
        rw [hsc] at h1 h3 <;> exact ⟨h1, by simpa using h3⟩
    | some r =>
      simp only
      obtain ⟨h1, h2⟩ := lone_sr_walk (env := env) (thr := thr) (ce := ce) ho st ids co cl ls r ps
        ((ls[r]?).getD []) 0 c got rfl
      have h3 : TLeads env ops t (tOf st ids c co ce ls cl thr t (.srch (.probe (p :: ps) got))) _ :=
        .next (b := tOf st ids c co ce ls cl thr t (.srch (.take p ps got)))
          (by simp [TConc.step, TConc.stepSr, tOf, ho, Dict.mem_eq, hp]) <|
        .next (by simp [TConc.step, TConc.stepSr, tOf, ho, hp]) h2
      rcases hsc : scanVecs (plainStore V M) (env.dist q) ((ls[r]?).getD []) c st with
        ⟨_ | l, c', s'⟩ <;> rw [hsc] at h1 h3
      · exact ⟨h1, h3⟩
      · simp only at h1 h3 ⊢
        subst h1
        obtain ⟨h4, h5⟩ := ih c' (got ++ l)
        have h6 := h3.trans h5
        rcases hsc2 : scanVecs (plainStore V M) (env.dist q)
          (ps.flatMap fun c => ((plainLists ls cl).get? c).getD []) c' s' with ⟨_ | l2, x⟩ <;>
          rw [hsc2] at h4 h6 <;> exact ⟨h4, by simpa using h6⟩
end

/-- **C213**, any call on a trained IVF index.  A thread that has not begun its insertion, search, update or deletion,
and that nobody interrupts, comes to its end with the reply a single caller would get, and leaves the index and the
storage as a single caller would; no other thread is moved. -/
theorem C213_ivf_trained (env : IConcEnv V D) (env' : IvfEnv V D) (he : SameIvf env.toIParEnv env')
    (hd : SameIvfC env env') (ops : Nat → FOp V M) (s : TConc V M D) (hl : OwnLT s.lists s.clusters) (t : Nat)
    (hs : s.thr t = .start) :
    ∃ n, let e := s.run env ops (List.replicate n t)
      let r := trainedCall env' (ivfT s) s.store (ops t)
      e.thr t = .done r.1 ∧ ivfT e = r.2.1 ∧ e.store = r.2.2 ∧ ∀ t', t' ≠ t → e.thr t' = s.thr t' := by
  suffices h : ∃ ids' ca' co' ls' cl', let r := trainedCall env' (ivfT s) s.store (ops t)
      TLeads env ops t (tOf s.store s.ids s.cache s.count s.cents s.lists s.clusters s.thr t .start)
        (tOf r.2.2 ids' ca' co' s.cents ls' cl' s.thr t (.done r.1)) ∧
      r.2.1 = ⟨some s.cents, plainLists ls' cl', ids', ca', co', true, true⟩ by
    obtain ⟨ids', ca', co', ls', cl', ⟨n, h1⟩, h2⟩ := h
    refine ⟨n, ?_⟩
    have h0 : tOf s.store s.ids s.cache s.count s.cents s.lists s.clusters s.thr t .start = s := by
      simp only [tOf, ← hs, Function.update_eq_self]
    rw [h0] at h1
    simp only [h1]
    refine ⟨Function.update_self .., by rw [h2]; rfl, rfl, fun t' ht => Function.update_of_ne ht ..⟩
  cases ho : ops t with
  | insert rows =>
    obtain ⟨ids1, ca1, st1, h1, h2⟩ := lone_ins_rows (env := env) (thr := s.thr) (ce := s.cents) ho s.count s.clusters
      s.lists rows 0 rfl (ivfT s) s.store
    obtain ⟨ls', cl', h3, h4⟩ := lone_ins_add (env := env) (thr := s.thr) (ce := s.cents) he ho st1 rows 0 rfl
      ⟨some s.cents, plainLists s.lists s.clusters, ids1, ca1, ids1.length, true, true⟩ s.lists s.clusters hl rfl rfl rfl
    refine ⟨ids1, ca1, ids1.length, ls', cl', ?_⟩
    have hl' : TLeads env ops t (tOf s.store s.ids s.cache s.count s.cents s.lists s.clusters s.thr t .start) _ :=
      .next (b := tOf s.store s.ids s.cache s.count s.cents s.lists s.clusters s.thr t (.ins (.store 0)))
        (by simp [TConc.step, tOf, ho]) <| h2.trans <| .next
        (b := tOf st1 ids1 ca1 s.count s.cents s.lists s.clusters s.thr t (.ins (.count ids1.length)))
        (by simp [TConc.step, TConc.stepIns, tOf, ho]) <| .next
        (by simp only [TConc.step, TConc.stepIns, tOf, ho, Function.update_self, Function.update_idem]) h4
    simp only [ivfT] at h1
    simp only [trainedCall, Ivf.insert, h1, ivfT, Bool.not_true, Bool.false_eq_true, if_false, ne_eq, not_true_eq_false,
      Bool.true_eq_false, and_false, if_true]
    rcases hg : Ivf.addLoop env' (rows.map FRow.id)
      ⟨some s.cents, plainLists s.lists s.clusters, ids1, ca1, ids1.length, true, true⟩ with ⟨_ | _, f3⟩ <;>
      rw [hg] at h3 hl' <;> exact ⟨hl', h3⟩
  | search q k =>
    simp only [trainedCall, Ivf.search, ivfT, Bool.not_true, Bool.false_eq_true, if_false, ne_eq, not_true_eq_false]
    by_cases hi : s.ids.isEmpty = true
    · refine ⟨s.ids, s.cache, s.count, s.lists, s.clusters, ?_⟩
      simp only [hi, if_true]
      refine ⟨.next ?_ .rfl', trivial⟩
      simp [TConc.step, tOf, ho, hi]
    · have st1 : (tOf s.store s.ids s.cache s.count s.cents s.lists s.clusters s.thr t .start).step env ops t =
          tOf s.store s.ids s.cache s.count s.cents s.lists s.clusters s.thr t (.srch .cents) := by
        simp [TConc.step, tOf, ho, hi]
      have hpr : IConc.probesOf env q s.cents = Ivf.probes env' q s.cents := by
        simp only [IConc.probesOf, Ivf.probes, hd.dist, hd.probes]
        cases numberedDists (env.dist q) 0 s.cents <;> rfl
      simp only [if_neg hi]
      cases hps : Ivf.probes env' q s.cents with
      | error e =>
        refine ⟨s.ids, s.cache, s.count, s.lists, s.clusters, .next st1 (.next ?_ .rfl'), rfl⟩
        simp [TConc.step, TConc.stepSr, tOf, ho, hpr, hps]
      | ok ps =>
        obtain ⟨h1, h2⟩ := lone_sr_probe (env := env) (thr := s.thr) (ce := s.cents) ho s.store s.ids s.count s.clusters
          s.lists ps s.cache []
        have h3 : TLeads env ops t (tOf s.store s.ids s.cache s.count s.cents s.lists s.clusters s.thr t .start) _ :=
          .next st1 (.next (by simp [TConc.step, TConc.stepSr, tOf, ho, hpr, hps]) h2)
        simp only [Ivf.scanTop, hd.dist]
        rcases hsc : scanVecs (plainStore V M) (env.dist q)
            (ps.flatMap fun c => ((plainLists s.lists s.clusters).get? c).getD []) s.cache s.store with ⟨_ | ds, c, st⟩ <;>
          rw [hsc] at h1 h3
        · simp only at h1 h3 ⊢
          subst h1
          exact ⟨s.ids, c, s.count, s.lists, s.clusters, h3, rfl⟩
        · simp only at h1 h3 ⊢
          subst h1
          obtain ⟨h4, h5⟩ := lone_sr_info (env := env) (thr := s.thr) (ce := s.cents) ho s.store s.ids c s.count s.clusters
            s.lists (sliceTo (pySortBy Prod.snd ds) k) []
          rcases hf : fetchMeta (plainStore V M) (sliceTo (pySortBy Prod.snd ds) k) s.store with ⟨_ | l, s'⟩ <;>
            rw [hf] at h4 h5 <;> simp only at h4 h5 ⊢ <;> subst h5
          · exact ⟨s.ids, c, s.count, s.lists, s.clusters, h3.trans h4, rfl⟩
          · exact ⟨s.ids, c, s.count, s.lists, s.clusters, by simpa using h3.trans h4, rfl⟩
  | update id v m =>
    simp only [trainedCall, Ivf.update, ivfT, plainStore, Bool.not_true, Bool.false_eq_true, if_false]
    by_cases hm : s.store.mem id = true
    · simp only [hm, if_true, Ivf.reassign, Ivf.addToCluster, he.near]
      refine ⟨s.ids, s.cache.set id v, s.count,
        (pushedT (droppedFirst id s.lists s.clusters) s.clusters (env.near s.cents v) id).1,
        (pushedT (droppedFirst id s.lists s.clusters) s.clusters (env.near s.cents v) id).2, ?_, ?_⟩
      · refine .next (b := tOf (s.store.set id (v, m)) s.ids s.cache s.count s.cents s.lists s.clusters s.thr t
          (.upd .cache)) ?_ <| .next (b := tOf (s.store.set id (v, m)) s.ids (s.cache.set id v) s.count s.cents s.lists
          s.clusters s.thr t (.upd .iter)) ?_ <| .next ?_ <|
          (lone_upd_loop ho _ _ _ _ s.clusters s.lists s.clusters 0 rfl).trans (lone_upd_push ho ..)
        all_goals simp [TConc.step, TConc.stepUpd, tOf, ho, hm]
      · rw [pushed_plain (droppedFirst_own hl id _), droppedFirst_plain _ _ _ hl.refs]
    · rw [if_neg hm]
      refine ⟨s.ids, s.cache, s.count, s.lists, s.clusters, .next ?_ .rfl', rfl⟩
      simp [TConc.step, tOf, ho, hm]
  | delete dels =>
    obtain ⟨ls', b, h1, h2, h3⟩ := lone_del_ids (env := env) (thr := s.thr) (ce := s.cents) ho s.clusters dels 0 true
      (ivfT s) s.store s.lists hl rfl rfl
    rcases hg : Ivf.deleteLoop (plainStore V M) dels true (ivfT s) s.store with ⟨x, f, st⟩
    rw [hg] at h1 h2 h3
    simp only at h1 h2 h3
    subst h1
    refine ⟨f.ids, f.cache, f.ids.length, ls', s.clusters, ?_⟩
    have hin : (ivfT s).inited = true := rfl
    simp only [trainedCall, Ivf.delete, hg, hin, Bool.not_true, Bool.false_eq_true, if_false]
    refine ⟨.next (b := tOf s.store s.ids s.cache s.count s.cents s.lists s.clusters s.thr t (.del 0 true .stor))
      (by simp [TConc.step, tOf, ho]) <| h3.trans <|
      .next (b := tOf st f.ids f.cache s.count s.cents ls' s.clusters s.thr t (.delCount b f.ids.length))
      (by simp [TConc.step, tOf, ho, ivfT]) <| .next ?_ .rfl', ?_⟩
    · simp [TConc.step, tOf, ho]
    · rw [h2]; rfl

/-- The lists stay apart whatever the threads do, so `C213_ivf_trained` holds for a call that begins after any
execution. -/
theorem C213_ivf_trained_own (env : IConcEnv V D) (ops : Nat → FOp V M) (sched : List Nat) : ∀ (s : TConc V M D),
    OwnLT s.lists s.clusters → OwnLT (s.run env ops sched).lists (s.run env ops sched).clusters := by
  induction sched with
  | nil => exact fun s h => h
  | cons t sched ih =>
    intro s h
    refine ih _ ?_
    unfold TConc.step
    cases ops t <;> cases s.thr t <;> try exact h
    case insert.ins rows p =>
      cases p <;> simp only [TConc.stepIns] <;> (try split) <;> (try split) <;>
        first | exact h | exact h.modify _ _ | exact fresh_own h _
    case update.start id v m => dsimp only; split <;> exact h
    case update.upd id v m p =>
      cases p <;> simp only [TConc.stepUpd] <;> (try split) <;> (try split) <;>
        first | exact h | exact h.modify _ _ | exact fresh_own h _
    case delete.del dels i ok p =>
      simp only [TConc.stepDel]
      cases dels[i]? with
      | none => exact h
      | some id =>
        cases p <;> simp only <;> (try split) <;> (try split) <;>
          first | exact h | exact h.modify _ _

/-- A lone update that moves its vector to a cluster without a list; a lone deletion of an id twice and of one that is not stored; a lone search.  The sequential model gives
the same. -/
example : OwnLT fourT.lists fourT.clusters ∧ SameIvf loneIvfC.toIParEnv loneIvf ∧ SameIvfC loneIvfC loneIvf ∧
    fourT.thr 0 = .start ∧
    (let s : TConc Nat Nat Nat := { fourT with clusters := [(0, 0)], lists := [["a", "b", "d"]] }
     let e := s.run loneIvfC fourOps (List.replicate 20 1)
     e.thr 1 = .done (.flag true) ∧ (ivfT e).clusters = [(0, ["a", "d"]), (1, ["b"])] ∧
     (trainedCall loneIvf (ivfT s) s.store (fourOps 1)).2.1.clusters = [(0, ["a", "d"]), (1, ["b"])]) ∧
    (let e := fourT.run loneIvfC absentOps (List.replicate 40 1)
     e.thr 1 = .done (.flag false) ∧ (ivfT e).clusters = [(0, ["b", "d"]), (1, ["c"])] ∧ e.count = 3 ∧
     (trainedCall (D := Nat) loneIvf (ivfT fourT) fourT.store (absentOps 1)).1 = .flag false) ∧
    (fourT.run loneIvfC fourOps (List.replicate 20 3)).thr 3 = .done (.hits [⟨"b", 2, some 1⟩]) ∧
    (trainedCall loneIvf (ivfT fourT) fourT.store (fourOps 3)).1 = .hits [⟨"b", 2, some 1⟩] := by
  refine ⟨⟨by decide, by decide, fun k r h => ?_⟩, loneIvfC_same.2, loneIvfC_same.1, rfl, ?_⟩
  · simp only [fourT, List.mem_cons, Prod.mk.injEq, List.not_mem_nil, or_false] at h ⊢
    rcases h with ⟨-, rfl⟩ | ⟨-, rfl⟩ <;> decide
  · decide +kernel

end Valori.Props
