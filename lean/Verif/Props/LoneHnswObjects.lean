import Verif.Props.HnswConcCases
import Verif.Props.LoneHnsw

/-!
# C213: a call nobody interrupts, on an HNSW index with updates and deletions
-/

namespace Valori.Props

open Valori Spec GConc

variable {V M D : Type}

/-! ## Dictionaries of objects -/

theorem dmap_get? {κ α β : Type} [DecidableEq κ] (f : α → β) (d : Dict κ α) (k : κ) :
    Dict.get? (d.map fun e => (e.1, f e.2)) k = (d.get? k).map f := by
  induction d with
  | nil => rfl
  | cons e d ih =>
    obtain ⟨x, y⟩ := e
    simp only [List.map_cons, Dict.get?]
    split
    · rfl
    · exact ih

theorem dmap_mem {κ α β : Type} [DecidableEq κ] (f : α → β) (d : Dict κ α) (k : κ) :
    Dict.mem (d.map fun e => (e.1, f e.2)) k = d.mem k := by
  rw [Dict.mem_eq, Dict.mem_eq, dmap_get?]; simp

theorem dmap_keys {κ α β : Type} (f : α → β) (d : Dict κ α) :
    Dict.keys (d.map fun e => (e.1, f e.2)) = d.keys := by
  simp [Dict.keys, List.map_map, Function.comp_def]

theorem dmap_set {κ α β : Type} [DecidableEq κ] (f : α → β) (d : Dict κ α) (k : κ) (a : α) :
    (d.set k a).map (fun e => (e.1, f e.2)) = Dict.set (d.map fun e => (e.1, f e.2)) k (f a) := by
  induction d with
  | nil => rfl
  | cons e d ih =>
    obtain ⟨x, y⟩ := e
    simp only [List.map_cons, Dict.set]
    split
    · rfl
    · simp only [List.map_cons]; rw [ih]

theorem dmap_pop {κ α β : Type} [DecidableEq κ] (f : α → β) (d : Dict κ α) (k : κ) :
    (d.pop k).map (fun e => (e.1, f e.2)) = Dict.pop (d.map fun e => (e.1, f e.2)) k := by
  induction d with
  | nil => rfl
  | cons e d ih =>
    obtain ⟨x, y⟩ := e
    simp only [List.map_cons, Dict.pop]
    split
    · rfl
    · simp only [List.map_cons]; rw [ih]

/-- A change of the value of one key, when only this key has the object `r`. -/
theorem dmap_upd {β : Type} (f g : Nat → β) {r : Nat} (hfg : ∀ z, z ≠ r → g z = f z) : ∀ (d : Dict Id Nat) (k : Id),
    d.keys.Nodup → (∀ k', d.get? k' = some r → k' = k) → d.get? k = some r →
    d.map (fun e => (e.1, g e.2)) = Dict.set (d.map fun e => (e.1, f e.2)) k (g r)
  | [], k, _, _, h => by cases h
  | (x, y) :: d, k, hn, hi, h => by
    have hn' := hn
    simp only [Dict.keys, List.map_cons, List.nodup_cons] at hn'
    by_cases hx : x = k
    · subst hx
      simp only [Dict.get?, if_true, Option.some.injEq] at h
      subst h
      simp only [List.map_cons, Dict.set, if_true, List.cons.injEq, true_and]
      refine List.map_congr_left fun e he => ?_
      rw [hfg]
      intro hc
      have h1 : Dict.get? d e.1 = some y := Dict.get?_of_mem hn'.2 (hc ▸ he)
      have hne : x ≠ e.1 := fun e' => hn'.1 (e' ▸ List.mem_map_of_mem he)
      exact hne.symm (hi e.1 (by simp only [Dict.get?, if_neg hne]; exact h1))
    · simp only [Dict.get?, if_neg hx] at h
      have hy : y ≠ r := fun e => hx (hi x (by simp [Dict.get?, e]))
      simp only [List.map_cons, Dict.set, if_neg hx, hfg y hy, List.cons.injEq, true_and]
      refine dmap_upd f g hfg d k hn'.2 (fun k' h' => hi k' ?_) h
      have hne : x ≠ k' := by
        rintro rfl
        exact hn'.1 ((Dict.mem_keys d x).2 (by rw [h']; rfl))
      simp only [Dict.get?, if_neg hne]; exact h'

/-! ## The lists as values -/

/-- A level with the content of the lists in place of the lists. -/
def lvl (s : GConc V M D) (d : Dict Id Nat) : Level := d.map fun e => (e.1, s.content e.2)

/-- The levels with the content of the lists in place of the lists. -/
def absL (s : GConc V M D) : List Level := s.levels.map (lvl s)

/-- The index as in the model without objects. -/
def plainHnsw (s : GConc V M D) : HPar V M D :=
  ⟨s.store, s.vectors, s.count, absL s, s.maxLevel, fun _ => .start⟩

/-- Every key once, every node with a list of its own. -/
structure OwnNodes (s : GConc V M D) : Prop where
  keys : ∀ d ∈ s.levels, d.keys.Nodup
  inj : ∀ l l' a b r, s.nodeRef l a = some r → s.nodeRef l' b = some r → l = l' ∧ a = b
  valid : ∀ l a r, s.nodeRef l a = some r → r < s.lists.length

theorem absL_get (s : GConc V M D) (l : Nat) : (absL s)[l]? = (s.levels[l]?).map (lvl s) := by simp [absL]

theorem plain_nodeOf {s : GConc V M D} {h : HPar V M D} (hl : h.levels = absL s) (l : Nat) (n : Id) :
    h.nodeOf l n = (s.nodeRef l n).map s.content := by
  unfold HPar.nodeOf nodeRef
  rw [hl, absL_get]
  cases s.levels[l]? with
  | none => rfl
  | some d => exact dmap_get? _ d n

/-- A change of one list is a change of one node. -/
theorem absL_upd {s s' : GConc V M D} (ho : OwnNodes s) {l : Nat} {n : Id} {o : Nat} (hn : s.nodeRef l n = some o)
    (f : List Id → List Id) (h1 : s'.lists = s.lists.modify o f) (h2 : s'.levels = s.levels) :
    absL s' = HPar.setNode (absL s) l n (f (s.content o)) := by
  have hv := ho.valid l n o hn
  have hsame : ∀ z, z ≠ o → s'.content z = s.content z := by
    intro z hz
    simp only [content, h1, List.getElem?_modify]
    simp [Ne.symm hz]
  have hat : s'.content o = f (s.content o) := by
    simp only [content, h1, List.getElem?_modify, List.getElem?_eq_getElem hv]
    simp
  refine List.ext_getElem? fun l' => ?_
  unfold HPar.setNode
  rw [List.getElem?_modify, absL_get, absL_get, h2]
  cases hd : s.levels[l']? with
  | none => rfl
  | some d =>
    simp only [Option.map_some, Option.map_eq_map, Option.some.injEq]
    by_cases e : l = l'
    · subst e
      rw [if_pos rfl, ← hat]
      refine dmap_upd s.content s'.content hsame d n (ho.keys d (List.mem_of_getElem? hd)) (fun k' hk => ?_) ?_
      · exact (ho.inj l l k' n o (by rw [nodeRef_of hd]; exact hk) hn).2
      · rw [← nodeRef_of hd]; exact hn
    · rw [if_neg e]
      refine List.map_congr_left fun x hx => ?_
      rw [hsame]
      intro hc
      have : s.nodeRef l' x.1 = some o := by
        rw [nodeRef_of hd]
        exact Dict.get?_of_mem (ho.keys d (List.mem_of_getElem? hd)) (by rw [← hc]; exact hx)
      exact e (ho.inj l l' n x.1 o hn this).1

theorem OwnNodes.same {s s' : GConc V M D} (ho : OwnNodes s) (h1 : s'.lists.length = s.lists.length)
    (h2 : s'.levels = s.levels) : OwnNodes s' := by
  refine ⟨by rw [h2]; exact ho.keys, ?_, ?_⟩
  · intro l l' a b r ha hb
    rw [nodeRef_eq h2] at ha hb
    exact ho.inj l l' a b r ha hb
  · intro l a r ha
    rw [nodeRef_eq h2] at ha
    rw [h1]; exact ho.valid l a r ha

theorem absL_grow {s s' : GConc V M D} (h1 : s'.lists = s.lists) (h2 : s'.levels = s.levels ++ [[]]) :
    absL s' = absL s ++ [[]] := by
  have : lvl s' = lvl s := by funext d; simp [lvl, content, h1]
  simp only [absL, h2, this, List.map_append, List.map_cons, List.map_nil]
  rfl

theorem OwnNodes.grow {s s' : GConc V M D} (ho : OwnNodes s) (h1 : s'.lists = s.lists)
    (h2 : s'.levels = s.levels ++ [[]]) : OwnNodes s' := by
  refine ⟨?_, ?_, ?_⟩
  · rw [h2]
    intro d hd
    rcases List.mem_append.1 hd with hd | hd
    · exact ho.keys d hd
    · rw [List.mem_singleton.1 hd]; exact List.nodup_nil
  · intro l l' a b r ha hb
    rw [nodeRef_grow h2] at ha hb
    exact ho.inj l l' a b r ha hb
  · intro l a r ha
    rw [nodeRef_grow h2] at ha
    rw [h1]; exact ho.valid l a r ha

theorem content_new {s s' : GConc V M D} (h1 : s'.lists = s.lists ++ [[]]) (r : Nat) : s'.content r = s.content r := by
  simp only [content, h1]
  by_cases hr : r < s.lists.length
  · rw [List.getElem?_append_left hr]
  · rw [List.getElem?_append_right (by omega), List.getElem?_eq_none (l := s.lists) (by omega)]
    by_cases h0 : r - s.lists.length = 0
    · simp [h0]
    · rw [List.getElem?_eq_none (by simp; omega)]

theorem absL_new {s s' : GConc V M D} {l : Nat} {d : Dict Id Nat} {id : Id} (hd : s.levels[l]? = some d)
    (h1 : s'.lists = s.lists ++ [[]]) (h2 : s'.levels = s.levels.set l (d.set id s.lists.length)) :
    absL s' = (absL s).set l ((lvl s d).set id []) := by
  have hc : lvl s' = lvl s := by
    funext d; simp only [lvl]
    refine List.map_congr_left fun e _ => by rw [content_new h1]
  have h0 : s.content s.lists.length = [] := by simp [content]
  have : lvl s (d.set id s.lists.length) = (lvl s d).set id [] := by
    unfold lvl
    rw [dmap_set s.content, h0]
  simp only [absL, h2, hc, List.map_set, this]

theorem OwnNodes.new {s s' : GConc V M D} (ho : OwnNodes s) {l : Nat} {d : Dict Id Nat} {id : Id}
    (hd : s.levels[l]? = some d)
    (h1 : s'.lists = s.lists ++ [[]]) (h2 : s'.levels = s.levels.set l (d.set id s.lists.length)) : OwnNodes s' := by
  have hn : ∀ l' a r, s'.nodeRef l' a = some r → (l' = l ∧ a = id ∧ r = s.lists.length) ∨ s.nodeRef l' a = some r := by
    intro l' a r h
    rw [nodeRef_set hd h2, Dict.get?_set] at h
    split at h
    · rename_i e
      split at h
      · rename_i e'; cases h; exact .inl ⟨e, e', rfl⟩
      · exact .inr (by rw [e, nodeRef_of hd]; exact h)
    · exact .inr h
  refine ⟨?_, ?_, ?_⟩
  · rw [h2]
    intro d' hd'
    rcases List.mem_or_eq_of_mem_set hd' with h | rfl
    · exact ho.keys _ h
    · exact Dict.nodup_set (ho.keys d (List.mem_of_getElem? hd)) _ _
  · intro l1 l2 a b r ha hb
    rcases hn _ _ _ ha with ⟨e1, e2, e3⟩ | ha' <;> rcases hn _ _ _ hb with ⟨e1', e2', e3'⟩ | hb'
    · exact ⟨e1.trans e1'.symm, e2.trans e2'.symm⟩
    · have := ho.valid _ _ _ hb'; omega
    · have := ho.valid _ _ _ ha'; omega
    · exact ho.inj _ _ _ _ _ ha' hb'
  · intro l' a r ha
    rw [h1]
    rcases hn _ _ _ ha with ⟨-, -, e⟩ | h
    · simp [e]
    · have := ho.valid _ _ _ h; simp; omega

/-! ## Insertions and searches -/

/-- The place of a search in the two models. -/
inductive SrRel (g : GConc V M D) : GSr M D → HSr M D → Prop
  | limit : SrRel g .limit .limit
  | topMax (k : Int) : SrRel g (.topMax k) (.topMax k)
  | topLen (k : Int) (mx : Nat) : SrRel g (.topLen k mx) (.topLen k mx)
  | top (k : Int) (cl : Nat) : SrRel g (.top k cl) (.top k cl)
  | iter (k : Int) (cl : Nat) : SrRel g (.iter k cl) (.iter k cl)
  | next (k : Int) (cl n : Nat) : SrRel g (.next k cl n) (.next k cl n)
  | entry (k : Int) (cl : Nat) (e : Id) : SrRel g (.entry k cl e) (.entry k cl e)
  | walk (k : Int) (cl : Nat) (c td fd : List (Id × D)) : SrRel g (.walk k cl c td fd) (.walk k cl c td fd)
  | nbr (k : Int) (cl : Nat) (c td fd : List (Id × D)) (r j : Nat) (n : Id) (h : g.nodeRef cl n = some r) :
      SrRel g (.nbr k cl c td fd r j) (.nbr k cl c td fd n j)
  | info (td : List (Id × D)) (acc : List (Hit D M)) : SrRel g (.info td acc) (.info td acc)

/-- The place of a thread in the two models. -/
inductive AtRel (g : GConc V M D) : GAt M D → HAt M D → Prop
  | start : AtRel g .start .start
  | ins (i : Nat) (p : HIns) : AtRel g (.ins i p) (.ins i p)
  | srch {p : GSr M D} {p' : HSr M D} (h : SrRel g p p') : AtRel g (.srch p) (.srch p')
  | done (r : FRes M D) : AtRel g (.done r) (.done r)

theorem AtRel.same {g g' : GConc V M D} {a : GAt M D} {a' : HAt M D} (h : AtRel g a a') (hl : g'.levels = g.levels) :
    AtRel g' a a' := by
  cases h with
  | start => exact .start
  | ins i p => exact .ins i p
  | done r => exact .done r
  | srch hp =>
    refine .srch ?_
    cases hp with
    | nbr k cl c td fd r j n h => exact .nbr k cl c td fd r j n (by rw [nodeRef_eq hl]; exact h)
    | _ => constructor

/-- The two models agree, as far as thread `t` sees. -/
structure SameHnsw (t : Nat) (g : GConc V M D) (h : HPar V M D) : Prop where
  store : h.store = g.store
  vectors : h.vectors = g.vectors
  count : h.count = g.count
  levels : h.levels = absL g
  maxLevel : h.maxLevel = g.maxLevel
  own : OwnNodes g
  at_ : AtRel g (g.thr t) (h.thr t)

theorem ins_same {env : HParEnv V D} {rows : List (FRow V M)} {t i : Nat} {p : HIns} {g : GConc V M D}
    {h : HPar V M D} (hs : SameHnsw t g h) :
    SameHnsw t (GConc.stepIns env rows g t i p) (HPar.stepIns env rows h t i p) := by
  obtain ⟨h1, h2, h3, h4, h5, ho, -⟩ := hs
  obtain ⟨hst, hve, hco, hle, hma, hth⟩ := h
  dsimp only at h1 h2 h3 h4 h5
  subst h1 h2 h3 h4 h5
  have hget := absL_get g
  have hnode := fun l n => plain_nodeOf (s := g) (h := ⟨g.store, g.vectors, g.count, absL g, g.maxLevel, hth⟩) rfl l n
  have hlen : (absL g).length = g.levels.length := by simp [absL]
  have idle : ∀ (a : GAt M D) (a' : HAt M D), AtRel g a a' →
      SameHnsw t { g with thr := Function.update g.thr t a } ⟨g.store, g.vectors, g.count, absL g, g.maxLevel, Function.update hth t a'⟩ := by
    intro a a' ha
    refine ⟨rfl, rfl, rfl, rfl, rfl, ho.same rfl rfl, ?_⟩
    simp only [Function.update_self]
    exact ha.same rfl
  have fail := idle (.done .raised) (.done .raised) (.done _)
  have go : ∀ i p, SameHnsw t { g with thr := Function.update g.thr t (.ins i p) }
      ⟨g.store, g.vectors, g.count, absL g, g.maxLevel, Function.update hth t (.ins i p)⟩ := fun i p => idle _ _ (.ins i p)
  unfold GConc.stepIns HPar.stepIns
  cases hr : rows[i]? with
  | none => exact idle _ _ (.done _)
  | some r =>
    simp only
    cases p with
    | store =>
      exact ⟨rfl, rfl, rfl, rfl, rfl, ho.same rfl rfl, by simp only [Function.update_self]; exact .ins _ _⟩
    | vec =>
      exact ⟨rfl, rfl, rfl, rfl, rfl, ho.same rfl rfl, by simp only [Function.update_self]; exact .ins _ _⟩
    | len => exact go _ _
    | count n => exact ⟨rfl, rfl, rfl, rfl, rfl, ho.same rfl rfl, by simp only [Function.update_self]; exact .ins _ _⟩
    | test => simp only [hlen]; exact go _ _
    | grow =>
      refine ⟨rfl, rfl, rfl, ?_, rfl, ho.grow rfl rfl, by simp only [Function.update_self]; exact .ins _ _⟩
      refine Eq.symm (absL_grow (s := g) ?_ ?_) <;> rfl
    | node l =>
      simp only
      by_cases hlv : env.level t i < l
      · simp only [hlv, if_true]; exact go _ _
      · simp only [hlv, if_false, hget]
        cases hd : g.levels[l]? with
        | none => exact fail
        | some d =>
          simp only [Option.map_some]
          by_cases hm : d.mem r.id
          · simp only [hm, if_true]
            have hadd : Hnsw.addNode (lvl g d) r.id = lvl g d := by
              unfold Hnsw.addNode lvl
              rw [dmap_mem, if_pos hm]
            rw [hadd]
            have : (absL g).set l (lvl g d) = absL g := by
              refine List.ext_getElem? fun l' => ?_
              rw [List.getElem?_set]
              split
              · rename_i e; subst e
                rw [hget, hd]
                simp [hlen, (List.getElem?_eq_some_iff.1 hd).1]
              · rfl
            rw [this]
            exact go _ _
          · rw [if_neg hm]
            have hadd : Hnsw.addNode (lvl g d) r.id = (lvl g d).set r.id [] := by
              unfold Hnsw.addNode lvl
              rw [dmap_mem, if_neg hm]
            rw [hadd]
            refine ⟨rfl, rfl, rfl, ?_, rfl, ho.new hd rfl rfl, by simp only [Function.update_self]; exact .ins _ _⟩
            refine Eq.symm (absL_new (s := g) hd ?_ ?_) <;> rfl
    | readMax => exact go _ _
    | setMax n => exact ⟨rfl, rfl, rfl, rfl, rfl, ho.same rfl rfl, by simp only [Function.update_self]; exact .ins _ _⟩
    | sample l =>
      simp only
      by_cases hlv : env.level t i < l
      · simp only [hlv, if_true]; exact go _ _
      · simp only [hlv, if_false, hget]
        cases hd : g.levels[l]? with
        | none => exact fail
        | some d =>
          have hk : (lvl g d).keys = d.keys := dmap_keys _ d
          simp only [Option.map_some, hk]
          exact go _ _
    | has l todo =>
      cases todo with
      | nil => exact go _ _
      | cons nb todo =>
        simp only
        by_cases e : nb = r.id
        · simp only [e, if_true]; exact go _ _
        · simp only [e, if_false, hnode]
          cases hd : g.nodeRef l nb with
          | none => exact fail
          | some o => exact go _ _
    | push l nb todo =>
      simp only [hnode]
      cases hd : g.nodeRef l nb with
      | none => exact fail
      | some o =>
        simp only [Option.map_some]
        refine ⟨rfl, rfl, rfl, ?_, rfl, ho.same (by simp) rfl, by simp only [Function.update_self]; exact .ins _ _⟩
        refine Eq.symm (absL_upd (s := g) ho hd (· ++ [r.id]) ?_ ?_) <;> rfl
    | backHas l nb todo =>
      simp only [hnode]
      cases hd : g.nodeRef l r.id with
      | none => exact fail
      | some o => exact go _ _
    | backPush l nb todo =>
      simp only [hnode]
      cases hd : g.nodeRef l r.id with
      | none => exact fail
      | some o =>
        simp only [Option.map_some]
        refine ⟨rfl, rfl, rfl, ?_, rfl, ho.same (by simp) rfl, by simp only [Function.update_self]; exact .ins _ _⟩
        refine Eq.symm (absL_upd (s := g) ho hd (· ++ [nb]) ?_ ?_) <;> rfl

variable [LinearOrder D]

theorem sr_same {env : HParEnv V D} {q : V} {k₀ : Int} {t : Nat} {g : GConc V M D} {h : HPar V M D}
    (hs : SameHnsw t g h) {p : GSr M D} {p' : HSr M D} (hp : SrRel g p p') :
    ∃ n, AtRel g ((nextAlone env q k₀ g)^[n] (.srch p)) (HPar.stepSr env q k₀ h p') := by
  obtain ⟨h1, h2, h3, h4, h5, ho, -⟩ := hs
  have hget : ∀ l, h.levels[l]? = (g.levels[l]?).map (lvl g) := fun l => by rw [h4, absL_get]
  have hnode := plain_nodeOf (s := g) h4
  have hlen : h.levels.length = g.levels.length := by rw [h4]; simp [absL]
  cases hp with
  | limit => exact ⟨1, by simp only [Function.iterate_one, nextAlone, stepSr, HPar.stepSr, h2]; exact .srch (.topMax _)⟩
  | topMax k => exact ⟨1, by simp only [Function.iterate_one, nextAlone, stepSr, HPar.stepSr, h5]; exact .srch (.topLen _ _)⟩
  | topLen k mx =>
    exact ⟨1, by simp only [Function.iterate_one, nextAlone, stepSr, HPar.stepSr, hlen]; exact .srch (.top _ _)⟩
  | top k cl =>
    refine ⟨1, ?_⟩
    simp only [Function.iterate_one, nextAlone, stepSr, HPar.stepSr, hget]
    cases hd : g.levels[cl]? with
    | none => exact .done _
    | some d =>
      have he : (lvl g d).isEmpty = d.isEmpty := by cases d <;> rfl
      simp only [Option.map_some, he]
      split
      · exact .srch (.walk _ _ _ _ _)
      · exact .srch (.iter _ _)
  | iter k cl =>
    refine ⟨1, ?_⟩
    simp only [Function.iterate_one, nextAlone, stepSr, HPar.stepSr, hget]
    cases hd : g.levels[cl]? with
    | none => exact .done _
    | some d =>
      have he : (lvl g d).length = d.length := by simp [lvl]
      simp only [Option.map_some, he]
      exact .srch (.next _ _ _)
  | next k cl n =>
    refine ⟨1, ?_⟩
    simp only [Function.iterate_one, nextAlone, stepSr, HPar.stepSr, hget]
    cases hd : g.levels[cl]? with
    | none => exact .done _
    | some d =>
      have he : (lvl g d).length = d.length := by simp [lvl]
      simp only [Option.map_some, he]
      split
      · exact .done _
      · cases d with
        | nil => exact .done _
        | cons x d => exact .srch (.entry _ _ _)
  | entry k cl e =>
    refine ⟨1, ?_⟩
    simp only [Function.iterate_one, nextAlone, stepSr, HPar.stepSr, h2]
    cases g.vectors.get? e with
    | none => exact .done _
    | some v =>
      simp only
      cases env.dist q v with
      | error x => exact .done _
      | ok x => exact .srch (.walk _ _ _ _ _)
  | walk k cl c td fd =>
    cases td with
    | nil =>
      refine ⟨1, ?_⟩
      simp only [Function.iterate_one, nextAlone, stepSr, HPar.stepSr]
      cases cl with
      | zero => exact .srch (.info _ _)
      | succ cl => exact .srch (.walk _ _ _ _ _)
    | cons x td =>
      obtain ⟨n, dx⟩ := x
      simp only [HPar.stepSr, hget]
      cases hd : g.levels[cl]? with
      | none => exact ⟨1, by simp only [Function.iterate_one, nextAlone, stepSr, hd]; exact .done _⟩
      | some d =>
        have he : (lvl g d).mem n = d.mem n := dmap_mem _ d n
        simp only [Option.map_some, he]
        by_cases hm : d.mem n
        · obtain ⟨r, hr⟩ := Option.isSome_iff_exists.1 hm
          have hr' : g.nodeRef cl n = some r := by rw [nodeRef_of hd]; exact hr
          refine ⟨2, ?_⟩
          simp only [Function.iterate_succ_apply', Function.iterate_zero, id, nextAlone, stepSr, hd, hm, if_true, hr']
          exact .srch (.nbr _ _ _ _ _ _ _ _ hr')
        · refine ⟨1, ?_⟩
          simp only [Function.iterate_one, nextAlone, stepSr, hd, hm]
          exact .srch (.walk _ _ _ _ _)
  | nbr k cl c td fd r j n hn =>
    simp only [HPar.stepSr, hnode, hn, Option.map_some, h2]
    cases hc : (g.content r)[j]? with
    | none => exact ⟨1, by simp only [Function.iterate_one, nextAlone, stepSr, hc]; exact .srch (.walk _ _ _ _ _)⟩
    | some nb =>
      simp only
      cases hv : g.vectors.get? nb with
      | none =>
        have hm : g.vectors.mem nb = false := by rw [Dict.mem_eq, hv]; rfl
        refine ⟨1, ?_⟩
        simp only [Function.iterate_one, nextAlone, stepSr, hc, hm]
        exact .srch (.nbr _ _ _ _ _ _ _ _ hn)
      | some v =>
        have hm : g.vectors.mem nb = true := by rw [Dict.mem_eq, hv]; rfl
        refine ⟨2, ?_⟩
        simp only [Function.iterate_succ_apply', Function.iterate_zero, id, nextAlone, stepSr, hc, hm, if_true, hv]
        cases env.dist q v with
        | error x => exact .done _
        | ok x => exact .srch (.nbr _ _ _ _ _ _ _ _ hn)
  | info td acc =>
    refine ⟨1, ?_⟩
    cases td with
    | nil => exact .done _
    | cons x td =>
      obtain ⟨id, d⟩ := x
      simp only [Function.iterate_one, nextAlone, stepSr, HPar.stepSr, h1]
      cases g.store.get? id with
      | none => exact .done _
      | some y => exact .srch (.info _ _)

/-- Some steps of thread `t` lead from `s` to `s'`. -/
def GLeads (env : HParEnv V D) (ops : Nat → FOp V M) (t : Nat) (s s' : GConc V M D) : Prop :=
  ∃ n, s.run env ops (List.replicate n t) = s'

section
variable {env : HParEnv V D} {ops : Nat → FOp V M} {t : Nat}

theorem GLeads.rfl' {s : GConc V M D} : GLeads env ops t s s := ⟨0, rfl⟩

theorem GLeads.trans {a b c : GConc V M D} (h1 : GLeads env ops t a b) (h2 : GLeads env ops t b c) :
    GLeads env ops t a c := by
  obtain ⟨n, rfl⟩ := h1
  obtain ⟨m, rfl⟩ := h2
  exact ⟨n + m, by simp [GConc.run, ← List.replicate_append_replicate, List.foldl_append]⟩

theorem GLeads.next {a b c : GConc V M D} (h1 : a.step env ops t = b) (h2 : GLeads env ops t b c) :
    GLeads env ops t a c := GLeads.trans ⟨1, h1⟩ h2

/-- The call of thread `t` in the model without updates and deletions. -/
def plainOp : FOp V M → HOp V M
  | .insert rows => .insert rows
  | .search q k => .search q k
  | _ => .insert []

theorem lone_same (hp : (∃ rows, ops t = .insert rows) ∨ ∃ q k, ops t = .search q k) {g : GConc V M D}
    {h : HPar V M D} (hs : SameHnsw t g h) :
    ∃ g', GLeads env ops t g g' ∧ SameHnsw t g' (h.step env (fun t => plainOp (ops t)) t) := by
  rcases hp with ⟨rows, ho⟩ | ⟨q, k, ho⟩
  · refine ⟨g.step env ops t, ⟨1, rfl⟩, ?_⟩
    have hat := hs.at_
    unfold GConc.step HPar.step
    simp only [ho, plainOp]
    cases ha : g.thr t <;> rw [ha] at hat <;> cases hat' : h.thr t <;> rw [hat'] at hat <;> cases hat
    · refine ⟨hs.store, hs.vectors, hs.count, hs.levels, hs.maxLevel, hs.own.same rfl rfl, ?_⟩
      simp only [Function.update_self]; exact .ins _ _
    · exact ins_same hs
    · exact hs
    · exact hs
  · have keep : ∀ n, (h' : HAt M D) → AtRel g ((nextAlone env q k g)^[n] (g.thr t)) h' →
        SameHnsw t (g.run env ops (List.replicate n t)) { h with thr := Function.update h.thr t h' } := by
      intro n h' hr
      rw [alone_run ho]
      refine ⟨hs.store, hs.vectors, hs.count, hs.levels, hs.maxLevel, hs.own.same rfl rfl, ?_⟩
      simp only [Function.update_self]
      exact hr.same rfl
    have hat := hs.at_
    unfold HPar.step
    simp only [ho, plainOp]
    cases ha : g.thr t <;> rw [ha] at hat <;> cases hat' : h.thr t <;> rw [hat'] at hat <;> cases hat
    · refine ⟨_, ⟨1, rfl⟩, keep 1 _ ?_⟩
      rw [ha, hs.vectors]
      simp only [Function.iterate_one, nextAlone]
      split
      · exact .done _
      · exact .srch .limit
    · exact ⟨g, .rfl', hs⟩
    · rename_i hp
      obtain ⟨n, hn⟩ := sr_same (env := env) (q := q) (k₀ := k) hs hp
      exact ⟨_, ⟨n, rfl⟩, keep n _ (by rw [ha]; exact hn)⟩
    · exact ⟨g, .rfl', hs⟩

theorem lone_same_run (hp : (∃ rows, ops t = .insert rows) ∨ ∃ q k, ops t = .search q k) {g : GConc V M D}
    {h : HPar V M D} (hs : SameHnsw t g h) (n : Nat) :
    ∃ g', GLeads env ops t g g' ∧ SameHnsw t g' (h.run env (fun t => plainOp (ops t)) (List.replicate n t)) := by
  induction n with
  | zero => exact ⟨g, .rfl', hs⟩
  | succ n ih =>
    obtain ⟨g', h1, h2⟩ := ih
    obtain ⟨g'', h3, h4⟩ := lone_same hp h2
    refine ⟨g'', h1.trans h3, ?_⟩
    rw [List.replicate_succ']
    simp only [HPar.run, List.foldl_append, List.foldl_cons, List.foldl_nil]
    exact h4

/-! ## Deletions -/

/-- No list contains its own node. -/
def NoSelf (g : GConc V M D) : Prop := ∀ l a r, g.nodeRef l a = some r → a ∉ g.content r

/-- The state with thread `t` at `a`. -/
def gAt (g : GConc V M D) (t : Nat) (a : GAt M D) : GConc V M D := { g with thr := Function.update g.thr t a }

/-- The parts that the graph part of a deletion leaves alone. -/
structure Rest (g g' : GConc V M D) : Prop where
  store : g'.store = g.store
  vectors : g'.vectors = g.vectors
  count : g'.count = g.count
  maxLevel : g'.maxLevel = g.maxLevel
  thr : g'.thr = g.thr
  sub : ∀ z x, x ∈ g'.content z → x ∈ g.content z

theorem Rest.refl (g : GConc V M D) : Rest g g := ⟨rfl, rfl, rfl, rfl, rfl, fun _ _ h => h⟩

theorem Rest.trans {a b c : GConc V M D} (h : Rest a b) (h' : Rest b c) : Rest a c :=
  ⟨h'.store.trans h.store, h'.vectors.trans h.vectors, h'.count.trans h.count, h'.maxLevel.trans h.maxLevel,
    h'.thr.trans h.thr, fun z x hx => h.sub z x (h'.sub z x hx)⟩

theorem lone_del {l : List Id} (ho : ops t = .delete l) (g : GConc V M D) {i : Nat} {ok : Bool} {p : GDel} :
    (gAt g t (.del i ok p)).step env ops t = GConc.stepDel l (gAt g t (.del i ok p)) t i ok p := by
  simp [GConc.step, ho, gAt]

theorem lone_unlink {l : List Id} (ho : ops t = .delete l) {i : Nat} {ok : Bool} {id : Id} (hi : l[i]? = some id)
    {lv r : Nat} {d : Dict Id Nat} {ns : List Id} (hns : id ∉ ns) (rest : List Id) :
    ∀ (j : Nat), ns.drop j = rest → ∀ g : GConc V M D, OwnNodes g → g.levels[lv]? = some d →
      g.nodeRef lv id = some r → g.content r = ns →
    ∃ g', GLeads env ops t (gAt g t (.del i ok (.nbr lv r j))) (gAt g' t (.del i ok (.drop lv))) ∧ Rest g g' ∧
      g'.levels = g.levels ∧ g'.lists.length = g.lists.length ∧
      (absL g')[lv]? = some (Hnsw.unlink id rest (lvl g d)) ∧ ∀ l' ≠ lv, (absL g')[l']? = (absL g)[l']? := by
  induction rest with
  | nil =>
    intro j hj g hown hd hr hc
    refine ⟨g, .next (b := gAt g t (.del i ok (.drop lv))) ?_ .rfl', .refl g, rfl, rfl, ?_, fun _ _ => rfl⟩
    · rw [lone_del ho]
      have : (g.content r)[j]? = none := by
        rw [hc]; exact List.getElem?_eq_none (List.drop_eq_nil_iff.1 hj)
      have this' : ((gAt g t (.del i ok (.nbr lv r j))).content r)[j]? = none := this
      simp only [GConc.stepDel, hi, this']
      simp [gAt]
    · rw [absL_get, hd]; rfl
  | cons nb rest ih =>
    intro j hj g hown hd hr hc
    have hnb : ns[j]? = some nb := by rw [← List.head?_drop, hj]; rfl
    have hj' : ns.drop (j + 1) = rest := by rw [← List.tail_drop, hj]; rfl
    have hne : nb ≠ id := fun e => hns (e ▸ List.mem_of_getElem? hnb)
    have s1 : (gAt g t (.del i ok (.nbr lv r j))).step env ops t = gAt g t (.del i ok (.nbTest lv r j nb)) := by
      rw [lone_del ho]
      have this' : ((gAt g t (.del i ok (.nbr lv r j))).content r)[j]? = some nb := by
        change (g.content r)[j]? = some nb; rw [hc]; exact hnb
      simp only [GConc.stepDel, hi, this']
      simp [gAt]
    have hget : (lvl g d).get? nb = (g.nodeRef lv nb).map g.content := by
      rw [nodeRef_of hd]; exact dmap_get? _ d nb
    cases ho' : g.nodeRef lv nb with
    | none =>
      obtain ⟨g', h1, h2⟩ := ih (j + 1) hj' g hown hd hr hc
      refine ⟨g', .next s1 (.next ?_ h1), ?_⟩
      · rw [lone_del ho]
        have this' : (gAt g t (.del i ok (.nbTest lv r j nb))).nodeRef lv nb = none := ho'
        simp only [GConc.stepDel, hi, this']
        simp [gAt]
      · have : Hnsw.unlink id (nb :: rest) (lvl g d) = Hnsw.unlink id rest (lvl g d) := by
          rw [Hnsw.unlink, if_neg]
          rw [Dict.mem_eq, hget, ho']; simp
        rw [this]; exact h2
    | some o =>
      have hmem : (lvl g d).mem nb = true := by rw [Dict.mem_eq, hget, ho']; rfl
      have hnbrs : Hnsw.nbrs (lvl g d) nb = g.content o := by rw [Hnsw.nbrs, hget, ho']; rfl
      have s2 : (gAt g t (.del i ok (.nbTest lv r j nb))).step env ops t = gAt g t (.del i ok (.nbHas lv r j nb)) := by
        rw [lone_del ho]
        have this' : (gAt g t (.del i ok (.nbTest lv r j nb))).nodeRef lv nb = some o := ho'
        simp only [GConc.stepDel, hi, this']
        simp [gAt]
      by_cases hm : id ∈ g.content o
      · have s3 : (gAt g t (.del i ok (.nbHas lv r j nb))).step env ops t =
            gAt g t (.del i ok (.nbDel lv r j nb)) := by
          rw [lone_del ho]
          have this' : (gAt g t (.del i ok (.nbHas lv r j nb))).nodeRef lv nb = some o := ho'
          have hm' : id ∈ (gAt g t (.del i ok (.nbHas lv r j nb))).content o := hm
          simp only [GConc.stepDel, hi, this', hm', if_true]
          simp [gAt]
        let g1 : GConc V M D := { g with lists := g.lists.modify o (fun x => removeFirst x id) }
        have s4 : (gAt g t (.del i ok (.nbDel lv r j nb))).step env ops t =
            gAt g1 t (.del i ok (.nbr lv r (j + 1))) := by
          rw [lone_del ho]
          have this' : (gAt g t (.del i ok (.nbDel lv r j nb))).nodeRef lv nb = some o := ho'
          have hm' : id ∈ (gAt g t (.del i ok (.nbDel lv r j nb))).content o := hm
          simp only [GConc.stepDel, hi, this', hm', if_true]
          simp [gAt, g1]
        have hor : r ≠ o := fun e => hne (hown.inj lv lv id nb r hr (by rw [e]; exact ho')).2.symm
        have hc1 : g1.content r = ns := by
          rw [← hc]
          simp only [content, g1, List.getElem?_modify]
          simp [Ne.symm hor]
        have hup := absL_upd (s := g) (s' := g1) hown ho' (fun x => removeFirst x id) rfl rfl
        obtain ⟨g', h1, h2, h3, h4, h5, h6⟩ := ih (j + 1) hj' g1 (hown.same (by simp [g1]) rfl) hd hr hc1
        have hl1 : lvl g1 d = (lvl g d).set nb (removeFirst (g.content o) id) := by
          have := congrArg (fun x : List Level => x[lv]?) hup
          simp only [absL_get, HPar.setNode, List.getElem?_modify, if_true] at this
          rw [show g1.levels[lv]? = some d from hd] at this
          simpa using this
        refine ⟨g', .next s1 (.next s2 (.next s3 (.next s4 h1))), ?_, h3, ?_, ?_, ?_⟩
        · refine Rest.trans (b := g1) ⟨rfl, rfl, rfl, rfl, rfl, fun z x hx => ?_⟩ h2
          simp only [content, g1, List.getElem?_modify] at hx ⊢
          cases hz : g.lists[z]? with
          | none => rw [hz] at hx; simp at hx
          | some y =>
            rw [hz] at hx
            simp only [Option.map_eq_map, Option.map_some, Option.getD_some] at hx ⊢
            split at hx
            · exact List.mem_of_mem_erase hx
            · exact hx
        · rw [h4]; simp [g1]
        · rw [h5, hl1, Hnsw.unlink, if_pos ⟨hmem, by rw [hnbrs]; exact hm⟩, hnbrs]
        · intro l' hl'
          rw [h6 l' hl', hup, HPar.setNode, List.getElem?_modify]
          simp [Ne.symm hl']
      · have s3 : (gAt g t (.del i ok (.nbHas lv r j nb))).step env ops t =
            gAt g t (.del i ok (.nbr lv r (j + 1))) := by
          rw [lone_del ho]
          have this' : (gAt g t (.del i ok (.nbHas lv r j nb))).nodeRef lv nb = some o := ho'
          have hm' : id ∉ (gAt g t (.del i ok (.nbHas lv r j nb))).content o := hm
          simp only [GConc.stepDel, hi, this', hm', if_false]
          simp [gAt]
        obtain ⟨g', h1, h2⟩ := ih (j + 1) hj' g hown hd hr hc
        refine ⟨g', .next s1 (.next s2 (.next s3 h1)), ?_⟩
        have : Hnsw.unlink id (nb :: rest) (lvl g d) = Hnsw.unlink id rest (lvl g d) := by
          rw [Hnsw.unlink, if_neg]
          rw [hnbrs]; exact fun h => hm h.2
        rw [this]; exact h2

theorem lone_level {l : List Id} (ho : ops t = .delete l) {i : Nat} {ok : Bool} {id : Id} (hi : l[i]? = some id)
    {lv : Nat} {d : Dict Id Nat} {g : GConc V M D} (hown : OwnNodes g) (hself : NoSelf g)
    (hd : g.levels[lv]? = some d) :
    ∃ g', GLeads env ops t (gAt g t (.del i ok (.level lv))) (gAt g' t (.del i ok (.level (lv + 1)))) ∧ Rest g g' ∧
      OwnNodes g' ∧ NoSelf g' ∧ (absL g')[lv]? = some (Hnsw.removeLevel id (lvl g d)) ∧
      ∀ l' ≠ lv, (absL g')[l']? = (absL g)[l']? := by
  have hmm : (lvl g d).mem id = d.mem id := dmap_mem _ d id
  have s1 : (gAt g t (.del i ok (.level lv))).step env ops t =
      gAt g t (.del i ok (if d.mem id then .take lv else .level (lv + 1))) := by
    rw [lone_del ho]
    have this' : (gAt g t (.del i ok (.level lv))).levels[lv]? = some d := hd
    simp only [GConc.stepDel, hi, this']
    simp [gAt]
  by_cases hm : d.mem id
  · rw [if_pos hm] at s1
    obtain ⟨r, hr0⟩ := Option.isSome_iff_exists.1 hm
    have hr : g.nodeRef lv id = some r := by rw [nodeRef_of hd]; exact hr0
    have s2 : (gAt g t (.del i ok (.take lv))).step env ops t = gAt g t (.del i ok (.nbr lv r 0)) := by
      rw [lone_del ho]
      have this' : (gAt g t (.del i ok (.take lv))).nodeRef lv id = some r := hr
      simp only [GConc.stepDel, hi, this']
      simp [gAt]
    obtain ⟨g1, h1, h2, h3, h4, h5, h6⟩ := lone_unlink (env := env) (ok := ok) ho hi (hself lv id r hr) (g.content r) 0
      rfl g hown hd hr rfl
    have hd1 : g1.levels[lv]? = some d := by rw [h3]; exact hd
    let g2 : GConc V M D := { g1 with levels := g1.levels.set lv (d.pop id) }
    have s3 : (gAt g1 t (.del i ok (.drop lv))).step env ops t = gAt g2 t (.del i ok (.level (lv + 1))) := by
      rw [lone_del ho]
      have this' : (gAt g1 t (.del i ok (.drop lv))).levels[lv]? = some d := hd1
      simp only [GConc.stepDel, hi, this', hm, if_true]
      simp [gAt, g2]
    have hnr : ∀ l' a x, g2.nodeRef l' a = some x → g.nodeRef l' a = some x := by
      intro l' a x h
      rw [nodeRef_set (s := g1) hd1 rfl] at h
      split at h
      · rename_i e
        subst e
        rw [nodeRef_of hd]
        have hne : a ≠ id := by
          rintro rfl
          rw [Dict.get?_pop (hown.keys d (List.mem_of_getElem? hd))] at h
          simp at h
        rwa [Dict.get?_pop_ne _ hne] at h
      · rw [nodeRef_eq h3] at h; exact h
    have hlen : lv < g1.levels.length := (List.getElem?_eq_some_iff.1 hd1).1
    have habs : absL g2 = (absL g1).set lv ((lvl g1 d).pop id) := by
      have : lvl g2 (d.pop id) = (lvl g1 d).pop id := dmap_pop _ d id
      simp only [absL, g2, List.map_set]
      rw [← this]
      rfl
    have hl1 : lvl g1 d = Hnsw.unlink id (g.content r) (lvl g d) := by
      rw [absL_get, hd1] at h5
      simpa using h5
    refine ⟨g2, .next s1 (.next s2 (h1.trans (.next s3 .rfl'))), h2.trans ⟨rfl, rfl, rfl, rfl, rfl, fun _ _ h => h⟩,
      ⟨?_, ?_, ?_⟩, ?_, ?_, ?_⟩
    · intro d' hd'
      rcases List.mem_or_eq_of_mem_set hd' with h | rfl
      · rw [h3] at h; exact hown.keys _ h
      · exact Dict.nodup_pop (hown.keys d (List.mem_of_getElem? hd)) _
    · intro l1 l2 a b x ha hb
      exact hown.inj _ _ _ _ _ (hnr _ _ _ ha) (hnr _ _ _ hb)
    · intro l1 a x ha
      have := hown.valid _ _ _ (hnr _ _ _ ha)
      change x < g1.lists.length
      rw [h4]; exact this
    · intro l1 a x ha hc
      exact hself l1 a x (hnr _ _ _ ha) (h2.sub x a hc)
    · rw [habs, List.getElem?_set_self (by simpa [absL] using hlen), hl1, Hnsw.removeLevel, if_pos (by rw [hmm]; exact hm)]
      have : Hnsw.nbrs (lvl g d) id = g.content r := by
        unfold Hnsw.nbrs lvl; rw [dmap_get?, hr0]; rfl
      rw [this]
    · intro l' hl'
      rw [habs, List.getElem?_set_ne (Ne.symm hl'), h6 l' hl']
  · rw [if_neg hm] at s1
    refine ⟨g, .next s1 .rfl', .refl g, hown, hself, ?_, fun _ _ => rfl⟩
    rw [absL_get, hd, Hnsw.removeLevel, if_neg (by rw [hmm]; exact hm)]; rfl

theorem lone_levels {l : List Id} (ho : ops t = .delete l) {i : Nat} {ok : Bool} {id : Id} (hi : l[i]? = some id)
    (n : Nat) : ∀ (lv : Nat) (g : GConc V M D), g.levels.length - lv = n → OwnNodes g → NoSelf g →
    ∃ g', GLeads env ops t (gAt g t (.del i ok (.level lv))) (gAt g' t (.del (i + 1) ok .stor)) ∧ Rest g g' ∧
      OwnNodes g' ∧ NoSelf g' ∧
      ∀ l', (absL g')[l']? = if l' < lv then (absL g)[l']? else ((absL g)[l']?).map (Hnsw.removeLevel id) := by
  induction n with
  | zero =>
    intro lv g hn hown hself
    have hd : g.levels[lv]? = none := List.getElem?_eq_none (by omega)
    refine ⟨g, .next ?_ .rfl', .refl g, hown, hself, fun l' => ?_⟩
    · rw [lone_del ho]
      have this' : (gAt g t (.del i ok (.level lv))).levels[lv]? = none := hd
      simp only [GConc.stepDel, hi, this']
      simp [gAt]
    · split
      · rfl
      · rw [absL_get, List.getElem?_eq_none (by omega)]; rfl
  | succ n ih =>
    intro lv g hn hown hself
    have hlt : lv < g.levels.length := by omega
    have hd := List.getElem?_eq_getElem hlt
    obtain ⟨g1, h1, h2, h3, h4, h5, h6⟩ := lone_level (env := env) (ok := ok) ho hi hown hself hd
    have hlen : g1.levels.length = g.levels.length := by
      have e1 : (absL g1).length = g1.levels.length := by simp [absL]
      have e2 : (absL g).length = g.levels.length := by simp [absL]
      rw [← e1, ← e2]
      apply Nat.le_antisymm
      · by_contra hc
        have : (absL g1)[(absL g).length]? = none := by
          rw [h6 _ (by omega)]; exact List.getElem?_eq_none (le_refl _)
        have := List.getElem?_eq_none_iff.1 this
        omega
      · by_contra hc
        by_cases e : (absL g1).length = lv
        · have h := (List.getElem?_eq_some_iff.1 h5).1
          omega
        · have h := h6 (absL g1).length e
          rw [List.getElem?_eq_none (le_refl _)] at h
          have := List.getElem?_eq_none_iff.1 h.symm
          omega
    obtain ⟨g', k1, k2, k3, k4, k5⟩ := ih (lv + 1) g1 (by omega) h3 h4
    refine ⟨g', h1.trans k1, h2.trans k2, k3, k4, fun l' => ?_⟩
    rw [k5]
    by_cases e : l' = lv
    · subst e
      rw [if_pos (by omega), if_neg (by omega), h5, absL_get, hd]; rfl
    · rw [h6 l' e]
      by_cases e' : l' < lv
      · rw [if_pos e', if_pos (by omega)]
      · rw [if_neg e', if_neg (by omega)]

theorem lone_delete_nodes {l : List Id} (ho : ops t = .delete l) (rest : List Id) :
    ∀ (i : Nat), l.drop i = rest → ∀ (g : GConc V M D) (ok : Bool), OwnNodes g → NoSelf g →
    ∃ g' b, GLeads env ops t (gAt g t (.del i ok .stor)) (gAt g' t (.done (.flag b))) ∧ g'.thr = g.thr ∧
      Hnsw.deleteLoop (plainStore V M) rest ok (hnswLeft (plainHnsw g)) g.store =
        (.ok b, hnswLeft (plainHnsw g'), g'.store) := by
  induction rest with
  | nil =>
    intro i hi g ok _ _
    refine ⟨g, ok, .next ?_ .rfl', rfl, rfl⟩
    rw [lone_del ho]
    simp only [GConc.stepDel, List.getElem?_eq_none (List.drop_eq_nil_iff.1 hi)]
    simp [gAt]
  | cons id rest ih =>
    intro i hi g ok hown hself
    have hid : l[i]? = some id := by rw [← List.head?_drop, hi]; rfl
    have hi' : l.drop (i + 1) = rest := by rw [← List.tail_drop, hi]; rfl
    -- the storage and the dictionary of vectors
    have first : ∃ g1 : GConc V M D, GLeads env ops t (gAt g t (.del i ok .stor))
        (gAt g1 t (.del i (ok && g.store.mem id) (.level 0))) ∧ g1.thr = g.thr ∧ g1.levels = g.levels ∧
        g1.lists = g.lists ∧ g1.maxLevel = g.maxLevel ∧ g1.store = g.store.pop id ∧
        (g1.vectors, g1.count) = if g.vectors.mem id then (g.vectors.pop id, (g.vectors.pop id).length)
          else (g.vectors, g.count) := by
      let g0 : GConc V M D := { g with store := g.store.pop id }
      have s1 : (gAt g t (.del i ok .stor)).step env ops t = gAt g0 t (.del i (ok && g.store.mem id) .test) := by
        rw [lone_del ho]
        simp only [GConc.stepDel, hid]
        simp [gAt, g0]
      have s2 : (gAt g0 t (.del i (ok && g.store.mem id) .test)).step env ops t =
          gAt g0 t (.del i (ok && g.store.mem id) (if g.vectors.mem id then .del else .level 0)) := by
        rw [lone_del ho]
        simp only [GConc.stepDel, hid]
        simp [gAt, g0]
        rfl
      by_cases hm : g.vectors.mem id
      · rw [if_pos hm] at s2
        let g1 : GConc V M D := { g0 with vectors := g.vectors.pop id }
        let g2 : GConc V M D := { g1 with count := (g.vectors.pop id).length }
        have s3 : (gAt g0 t (.del i (ok && g.store.mem id) .del)).step env ops t =
            gAt g1 t (.del i (ok && g.store.mem id) .len) := by
          rw [lone_del ho]
          have hm' : (gAt g0 t (.del i (ok && g.store.mem id) .del)).vectors.mem id = true := hm
          simp only [GConc.stepDel, hid, hm', if_true]
          simp [gAt, g1, g0]
        have s4 : (gAt g1 t (.del i (ok && g.store.mem id) .len)).step env ops t =
            gAt g1 t (.del i (ok && g.store.mem id) (.count (g.vectors.pop id).length)) := by
          rw [lone_del ho]
          simp only [GConc.stepDel, hid]
          simp [gAt, g1]
        have s5 : (gAt g1 t (.del i (ok && g.store.mem id) (.count (g.vectors.pop id).length))).step env ops t =
            gAt g2 t (.del i (ok && g.store.mem id) (.level 0)) := by
          rw [lone_del ho]
          simp only [GConc.stepDel, hid]
          simp [gAt, g2]
        exact ⟨g2, .next s1 (.next s2 (.next s3 (.next s4 (.next s5 .rfl')))), rfl, rfl, rfl, rfl, rfl,
          by rw [if_pos hm]⟩
      · rw [if_neg hm] at s2
        exact ⟨g0, .next s1 (.next s2 .rfl'), rfl, rfl, rfl, rfl, rfl, by rw [if_neg hm]⟩
    obtain ⟨g1, a1, a2, a3, a4, a5, a6, a7⟩ := first
    have hown1 : OwnNodes g1 := hown.same (by rw [a4]) a3
    have hself1 : NoSelf g1 := by
      intro lv a r h
      rw [nodeRef_eq a3] at h
      have := hself lv a r h
      simpa [content, a4] using this
    have habs1 : absL g1 = absL g := by
      have : lvl g1 = lvl g := by funext d; simp [lvl, content, a4]
      simp [absL, a3, this]
    obtain ⟨g2, b1, b2, b3, b4, b5⟩ := lone_levels (env := env) (ok := ok && g.store.mem id) ho hid _ 0 g1 rfl hown1 hself1
    obtain ⟨g', b, c1, c2, c3⟩ := ih (i + 1) hi' g2 (ok && g.store.mem id) b3 b4
    refine ⟨g', b, a1.trans (b1.trans c1), by rw [c2, b2.thr, a2], ?_⟩
    have habs : absL g2 = (absL g).map (Hnsw.removeLevel id) := by
      refine List.ext_getElem? fun l' => ?_
      rw [b5 l', if_neg (by omega), habs1]; simp
    have hrem : Hnsw.removeInternal id (hnswLeft (plainHnsw g)) = hnswLeft (plainHnsw g2) := by
      simp only [Hnsw.removeInternal, hnswLeft, plainHnsw, habs, b2.vectors, b2.count, b2.maxLevel, a5]
      by_cases hm : g.vectors.mem id
      · rw [if_pos hm] at a7
        simp only [Prod.mk.injEq] at a7
        simp [hm, a7.1, a7.2]
      · rw [if_neg hm] at a7
        simp only [Prod.mk.injEq] at a7
        simp [hm, a7.1, a7.2]
    rw [Hnsw.deleteLoop]
    have hdel : (plainStore V M).delete g.store id = (.ok (g.store.mem id), g.store.pop id) := rfl
    rw [hdel]
    simp only
    rw [hrem]
    have hb : (if g.store.mem id = true then ok else false) = (ok && g.store.mem id) := by
      cases ok <;> cases g.store.mem id <;> rfl
    rw [hb, ← a6, ← b2.store]
    exact c3
end

/-! ## All calls -/

/-- What a call gives, and the index and storage after it, by the sequential model of C01-C06. -/
def hnswCallAll (env : HnswEnv V D) (f : Hnsw V) (st : Dict Id (V × Option M)) :
    FOp V M → FRes M D × Hnsw V × Dict Id (V × Option M)
  | .insert rows => hnswCall env f st (.insert rows)
  | .search q k => hnswCall env f st (.search q k)
  | .update id v m =>
    match Hnsw.update (plainStore V M) id v m f st with
    | (.ok b, t) => (.flag b, t)
    | (.error _, t) => (.raised, t)
  | .delete l =>
    match Hnsw.delete (plainStore V M) l f st with
    | (.ok b, t) => (.flag b, t)
    | (.error _, t) => (.raised, t)

/-- **C213**, HNSW index with updates and deletions.  Whatever the state of the index (as long as it has a level,
every node has a list of its own and no node is linked to itself), a call nobody interrupts comes to its end, with the
reply and the index and storage a single caller would get who makes the same random choices; the other threads stay
where they are. -/
theorem C213_hnsw_objects (env : HParEnv V D) (ops : Nat → FOp V M) (s : GConc V M D) (t : Nat)
    (hs : s.thr t = .start) (hl : s.levels ≠ []) (hown : OwnNodes s) (hself : NoSelf s) :
    ∃ n, let e := s.run env ops (List.replicate n t)
      let r := hnswCallAll (hnswEnvOf env t) (hnswLeft (plainHnsw s)) s.store (ops t)
      e.thr t = .done r.1 ∧ absL e = r.2.1.levels ∧ e.vectors = r.2.1.vectors ∧
      e.maxLevel = r.2.1.maxLevel ∧ e.count = r.2.1.count ∧ e.store = r.2.2 ∧
      ∀ t', t' ≠ t → e.thr t' = s.thr t' := by
  have others : ∀ n t', t' ≠ t → (s.run env ops (List.replicate n t)).thr t' = s.thr t' := by
    intro n t' h
    induction n with
    | zero => rfl
    | succ n ih => rw [List.replicate_succ', run_snocG, step_thr env ops _ h, ih]
  have h0 : gAt s t .start = s := by
    obtain ⟨a1, a2, a3, a4, a5, a6, thr⟩ := s
    dsimp only at hs
    simp only [gAt, ← hs, Function.update_eq_self]
  -- insertions and searches, by the model without objects
  have viaPlain (hp : (∃ rows, ops t = .insert rows) ∨ ∃ q k, ops t = .search q k) (he : hnswCallAll (hnswEnvOf env t)
      (hnswLeft (plainHnsw s)) s.store (ops t) = hnswCall (hnswEnvOf env t) (hnswLeft (plainHnsw s)) s.store
        (plainOp (ops t))) : ∃ n, let e := s.run env ops (List.replicate n t)
      let r := hnswCallAll (hnswEnvOf env t) (hnswLeft (plainHnsw s)) s.store (ops t)
      e.thr t = .done r.1 ∧ absL e = r.2.1.levels ∧ e.vectors = r.2.1.vectors ∧
      e.maxLevel = r.2.1.maxLevel ∧ e.count = r.2.1.count ∧ e.store = r.2.2 ∧
      ∀ t', t' ≠ t → e.thr t' = s.thr t' := by
    have same : SameHnsw t s (plainHnsw s) := ⟨rfl, rfl, rfl, rfl, rfl, hown, by rw [hs]; exact .start⟩
    have hl' : (plainHnsw s).levels ≠ [] := by
      simp only [plainHnsw, absL, ne_eq, List.map_eq_nil_iff]; exact hl
    obtain ⟨n, h1, h2, h3, h4, h5, h6, -⟩ := C213_hnsw env (fun t => plainOp (ops t)) (plainHnsw s) t rfl hl'
    obtain ⟨g, ⟨m, hg⟩, hsame⟩ := lone_same_run (env := env) hp same n
    have hst : (plainHnsw s).store = s.store := rfl
    rw [hst] at h1 h2 h3 h4 h5 h6
    refine ⟨m, ?_⟩
    dsimp only
    have hat := hsame.at_
    rw [h1] at hat
    rw [he]
    refine ⟨?_, ?_, ?_, ?_, ?_, ?_, others m⟩
    · rw [hg]; generalize g.thr t = x at hat; cases hat; rfl
    · rw [hg, ← hsame.levels]; exact h2
    · rw [hg, ← hsame.vectors]; exact h3
    · rw [hg, ← hsame.maxLevel]; exact h4
    · rw [hg, ← hsame.count]; exact h5
    · rw [hg, ← hsame.store]; exact h6
  cases ho : ops t with
  | insert rows => rw [← ho]; exact viaPlain (.inl ⟨rows, ho⟩) (by rw [ho]; rfl)
  | search q k => rw [← ho]; exact viaPlain (.inr ⟨q, k, ho⟩) (by rw [ho]; rfl)
  | update id v m =>
    by_cases hm : s.store.mem id
    · by_cases hv : s.vectors.mem id
      · refine ⟨3, ?_, ?_, ?_, ?_, ?_, ?_, others 3⟩ <;>
          simp [GConc.run, List.replicate, GConc.step, ho, hs, hm, hv, hnswCallAll, Hnsw.update, plainStore, hnswLeft,
            plainHnsw, absL, lvl, content]
      · refine ⟨2, ?_, ?_, ?_, ?_, ?_, ?_, others 2⟩ <;>
          simp [GConc.run, List.replicate, GConc.step, ho, hs, hm, hv, hnswCallAll, Hnsw.update, plainStore, hnswLeft,
            plainHnsw, absL, lvl, content]
    · refine ⟨1, ?_, ?_, ?_, ?_, ?_, ?_, others 1⟩ <;>
        simp [GConc.run, List.replicate, GConc.step, ho, hs, hm, hnswCallAll, Hnsw.update, plainStore, hnswLeft,
          plainHnsw, absL, lvl, content]
  | delete l =>
    obtain ⟨g', b, h1, h2, h3⟩ := lone_delete_nodes (env := env) ho l 0 rfl s true hown hself
    obtain ⟨n, hn⟩ : GLeads env ops t s (gAt g' t (.done (.flag b))) := by
      refine .next (b := gAt s t (.del 0 true .stor)) ?_ h1
      simp [GConc.step, ho, hs, gAt]
    have hr : hnswCallAll (D := D) (hnswEnvOf env t) (hnswLeft (plainHnsw s)) s.store (.delete l) =
        (.flag b, hnswLeft (plainHnsw g'), g'.store) := by
      have hi : (hnswLeft (plainHnsw s)).inited = true := rfl
      simp only [hnswCallAll, Hnsw.delete, hi, h3]
      simp
    rw [hr]
    refine ⟨n, ?_, ?_, ?_, ?_, ?_, ?_, others n⟩ <;> rw [hn] <;> first | rfl | simp [gAt]

/-! ## The two conditions hold in every execution -/

/-- What a statement does to the graph. -/
inductive GraphEff (s s' : GConc V M D) : Prop where
  | quiet (h1 : s'.lists = s.lists) (h2 : s'.levels = s.levels)
  | grow (h1 : s'.lists = s.lists) (h2 : s'.levels = s.levels ++ [[]])
  | new (l : Nat) (d : Dict Id Nat) (id : Id) (hd : s.levels[l]? = some d) (h1 : s'.lists = s.lists ++ [[]])
      (h2 : s'.levels = s.levels.set l (d.set id s.lists.length))
  | link (l o : Nat) (n x : Id) (hn : s.nodeRef l n = some o) (hne : n ≠ x)
      (h1 : s'.lists = s.lists.modify o (· ++ [x])) (h2 : s'.levels = s.levels)
  | unlink (o : Nat) (x : Id) (h1 : s'.lists = s.lists.modify o (fun y => removeFirst y x)) (h2 : s'.levels = s.levels)
  | drop (l : Nat) (d : Dict Id Nat) (id : Id) (hd : s.levels[l]? = some d) (h1 : s'.lists = s.lists)
      (h2 : s'.levels = s.levels.set l (d.pop id))

theorem GraphEff.keeps {s s' : GConc V M D} (h : GraphEff s s') (ho : OwnNodes s) (hs : NoSelf s) :
    OwnNodes s' ∧ NoSelf s' := by
  cases h with
  | quiet h1 h2 =>
    refine ⟨ho.same (by rw [h1]) h2, fun l a r h => ?_⟩
    rw [nodeRef_eq h2] at h
    simpa [content, h1] using hs l a r h
  | grow h1 h2 =>
    refine ⟨ho.grow h1 h2, fun l a r h => ?_⟩
    rw [nodeRef_grow h2] at h
    simpa [content, h1] using hs l a r h
  | new lv d id hd h1 h2 =>
    refine ⟨ho.new hd h1 h2, fun l a r h => ?_⟩
    rw [content_new h1]
    rw [nodeRef_set hd h2, Dict.get?_set] at h
    split at h
    · rename_i e
      split at h
      · cases h; simp [content]
      · exact hs l a r (by rw [e, nodeRef_of hd]; exact h)
    · exact hs l a r h
  | link lv o n x hn hne h1 h2 =>
    refine ⟨ho.same (by rw [h1, List.length_modify]) h2, fun l a r h => ?_⟩
    rw [nodeRef_eq h2] at h
    have hc := hs l a r h
    by_cases e : o = r
    · subst e
      obtain ⟨-, rfl⟩ := ho.inj _ _ _ _ _ h hn
      simp only [content, h1, List.getElem?_modify, if_true]
      simp only [content] at hc
      cases hz : s.lists[o]? with
      | none => simp
      | some y => rw [hz] at hc; simp at hc ⊢; exact ⟨hc, hne⟩
    · simp only [content, h1, List.getElem?_modify, e, if_false]
      simpa [content] using hc
  | unlink o x h1 h2 =>
    refine ⟨ho.same (by rw [h1, List.length_modify]) h2, fun l a r h => ?_⟩
    rw [nodeRef_eq h2] at h
    have hc := hs l a r h
    simp only [content, h1, List.getElem?_modify]
    simp only [content] at hc
    cases hz : s.lists[r]? with
    | none => simp
    | some y =>
      rw [hz] at hc
      simp only [Option.getD_some] at hc
      by_cases e : o = r
      · simp only [e, if_true, Option.map_eq_map, Option.map_some, Option.getD_some]
        exact fun h => hc (List.mem_of_mem_erase h)
      · simpa [e] using hc
  | drop lv d id hd h1 h2 =>
    have hnr : ∀ l' a x, s'.nodeRef l' a = some x → s.nodeRef l' a = some x := by
      intro l' a x h
      rw [nodeRef_set hd h2] at h
      split at h
      · rename_i e
        subst e
        rw [nodeRef_of hd]
        have hne : a ≠ id := by
          rintro rfl
          rw [Dict.get?_pop (ho.keys d (List.mem_of_getElem? hd))] at h
          simp at h
        rwa [Dict.get?_pop_ne _ hne] at h
      · exact h
    refine ⟨⟨?_, fun l1 l2 a b x ha hb => ho.inj _ _ _ _ _ (hnr _ _ _ ha) (hnr _ _ _ hb),
      fun l a x ha => by rw [h1]; exact ho.valid _ _ _ (hnr _ _ _ ha)⟩, fun l a r h => ?_⟩
    · rw [h2]
      intro d' hd'
      rcases List.mem_or_eq_of_mem_set hd' with h | rfl
      · exact ho.keys _ h
      · exact Dict.nodup_pop (ho.keys d (List.mem_of_getElem? hd)) _
    · simpa [content, h1] using hs l a r (hnr _ _ _ h)

/-- A thread about to link two nodes links different ones. -/
def AimOk (op : FOp V M) (a : GAt M D) : Prop :=
  match op, a with
  | .insert rows, .ins i (.push _ nb _) => ∀ r, rows[i]? = some r → nb ≠ r.id
  | .insert rows, .ins i (.backHas _ nb _) => ∀ r, rows[i]? = some r → nb ≠ r.id
  | .insert rows, .ins i (.backPush _ nb _) => ∀ r, rows[i]? = some r → nb ≠ r.id
  | _, _ => True

theorem ins_graph (env : HParEnv V D) {rows : List (FRow V M)} {s : GConc V M D} {t i : Nat} {p : HIns}
    (ha : AimOk (.insert rows) (.ins i p : GAt M D)) :
    GraphEff s (stepIns env rows s t i p) ∧ AimOk (.insert rows) ((stepIns env rows s t i p).thr t) := by
  cases hr : rows[i]? with
  | none => unfold stepIns; simp only [hr]; exact ⟨.quiet rfl rfl, by simp [AimOk]⟩
  | some r =>
    unfold stepIns
    simp only [hr]
    cases p with
    | store | vec | len | count | readMax | setMax => exact ⟨.quiet rfl rfl, by simp [AimOk]⟩
    | test => exact ⟨.quiet rfl rfl, by simp only [Function.update_self]; split <;> simp [AimOk]⟩
    | grow => exact ⟨.grow rfl rfl, by simp [AimOk]⟩
    | node l =>
      simp only
      split
      · exact ⟨.quiet rfl rfl, by simp [AimOk]⟩
      · split
        · exact ⟨.quiet rfl rfl, by simp [AimOk]⟩
        · rename_i d hd
          split
          · exact ⟨.quiet rfl rfl, by simp [AimOk]⟩
          · exact ⟨.new l d r.id hd rfl rfl, by simp [AimOk]⟩
    | sample l =>
      simp only
      split
      · exact ⟨.quiet rfl rfl, by simp [AimOk]⟩
      · split <;> exact ⟨.quiet rfl rfl, by simp [AimOk]⟩
    | has l todo =>
      cases todo with
      | nil => exact ⟨.quiet rfl rfl, by simp [AimOk]⟩
      | cons nb todo =>
        simp only
        by_cases e : nb = r.id
        · rw [if_pos e]; exact ⟨.quiet rfl rfl, by simp [AimOk]⟩
        · rw [if_neg e]
          split
          · exact ⟨.quiet rfl rfl, by simp [AimOk]⟩
          · refine ⟨.quiet rfl rfl, ?_⟩
            simp only [Function.update_self]
            split <;> simp only [AimOk, hr, Option.some.injEq] <;> rintro _ rfl <;> exact e
    | push l nb todo =>
      have ha' : nb ≠ r.id := ha r hr
      simp only
      split
      · exact ⟨.quiet rfl rfl, by simp [AimOk]⟩
      · rename_i o hn
        refine ⟨.link l o nb r.id hn ha' rfl rfl, ?_⟩
        simp only [Function.update_self]; exact ha
    | backHas l nb todo =>
      have ha' : nb ≠ r.id := ha r hr
      simp only
      split
      · exact ⟨.quiet rfl rfl, by simp [AimOk]⟩
      · refine ⟨.quiet rfl rfl, ?_⟩
        simp only [Function.update_self]
        split
        · simp [AimOk]
        · exact ha
    | backPush l nb todo =>
      have ha' : nb ≠ r.id := ha r hr
      simp only
      split
      · exact ⟨.quiet rfl rfl, by simp [AimOk]⟩
      · rename_i o hn
        refine ⟨.link l o r.id nb hn ha'.symm rfl rfl, ?_⟩
        simp [AimOk]

theorem del_graph {dels : List Id} {s : GConc V M D} {t i : Nat} {ok : Bool} {p : GDel} :
    GraphEff s (stepDel dels s t i ok p) := by
  unfold stepDel
  cases hr : dels[i]? with
  | none => exact .quiet rfl rfl
  | some id =>
    cases p with
    | stor | test | len | count | nbTest => exact .quiet rfl rfl
    | del => simp only; split <;> exact .quiet rfl rfl
    | level l => simp only; split <;> exact .quiet rfl rfl
    | take l => simp only; split <;> exact .quiet rfl rfl
    | nbr l r j => simp only; split <;> exact .quiet rfl rfl
    | nbHas l r j nb => simp only; split <;> exact .quiet rfl rfl
    | nbDel l r j nb =>
      simp only
      split
      · exact .quiet rfl rfl
      · rename_i o _
        split
        · exact .unlink o id rfl rfl
        · exact .quiet rfl rfl
    | drop l =>
      simp only
      split
      · exact .quiet rfl rfl
      · rename_i d hd
        split
        · exact .drop l d id hd rfl rfl
        · exact .quiet rfl rfl

theorem step_graph (env : HParEnv V D) (ops : Nat → FOp V M) (s : GConc V M D) (t : Nat)
    (ha : AimOk (ops t) (s.thr t)) :
    GraphEff s (s.step env ops t) ∧ AimOk (ops t) ((s.step env ops t).thr t) := by
  have triv : ∀ (op : FOp V M) (a : GAt M D), (∀ rows, op ≠ .insert rows) → AimOk op a := by
    intro op a h
    cases op with
    | insert rows => exact absurd rfl (h rows)
    | _ => simp [AimOk]
  cases ho : ops t with
  | insert rows =>
    cases hp : s.thr t with
    | start => simp only [GConc.step, ho, hp]; exact ⟨.quiet rfl rfl, by simp [AimOk]⟩
    | ins i p =>
      simp only [GConc.step, ho, hp]
      rw [ho, hp] at ha
      exact ins_graph env ha
    | _ => simp only [GConc.step, ho, hp]; exact ⟨.quiet rfl rfl, by simp [AimOk]⟩
  | search q k =>
    refine ⟨?_, triv _ _ (by simp)⟩
    cases hp : s.thr t <;> simp only [GConc.step, ho, hp] <;> exact .quiet rfl rfl
  | update id v m =>
    refine ⟨?_, triv _ _ (by simp)⟩
    cases hp : s.thr t <;> simp only [GConc.step, ho, hp] <;> first | exact .quiet rfl rfl | (split <;> exact .quiet rfl rfl)
  | delete l =>
    refine ⟨?_, triv _ _ (by simp)⟩
    cases hp : s.thr t <;> simp only [GConc.step, ho, hp] <;> first | exact .quiet rfl rfl | exact del_graph

/-- **C213**, the two conditions of `C213_hnsw_objects`.  They hold at every moment of every execution by threads that
insert, search, update and delete, if they hold at its start and no thread is in the middle of an insertion then. -/
theorem C213_hnsw_links (env : HParEnv V D) (ops : Nat → FOp V M) (s : GConc V M D) (sched : List Nat)
    (hs : ∀ t i p, s.thr t ≠ .ins i p) (ho : OwnNodes s) (hn : NoSelf s) :
    OwnNodes (s.run env ops sched) ∧ NoSelf (s.run env ops sched) := by
  have h0 : ∀ t, AimOk (ops t) (s.thr t) := by
    intro t
    unfold AimOk
    split <;> first | trivial | exact absurd (by assumption) (hs t _ _)
  suffices H : (OwnNodes (s.run env ops sched) ∧ NoSelf (s.run env ops sched)) ∧
      ∀ t, AimOk (ops t) ((s.run env ops sched).thr t) from H.1
  induction sched using List.reverseRecOn with
  | nil => exact ⟨⟨ho, hn⟩, h0⟩
  | append_singleton sched t ih =>
    rw [run_snocG]
    obtain ⟨h1, h2⟩ := step_graph env ops _ t (ih.2 t)
    refine ⟨h1.keeps ih.1.1 ih.1.2, fun t' => ?_⟩
    by_cases e : t' = t
    · subst e; exact h2
    · rw [step_thr env ops _ e]; exact ih.2 t'

/-! ## Cases -/

theorem threeIn_own : OwnNodes threeIn where
  keys := by decide
  inj := by
    intro l l' a b r ha hb
    rcases l with _ | l <;> rcases l' with _ | l' <;>
      simp only [nodeRef, threeIn, Dict.get?, List.getElem?_cons_zero, List.getElem?_cons_succ, List.getElem?_nil,
        Option.bind_some, Option.bind_none, reduceCtorEq] at ha hb
    split_ifs at ha hb <;> simp_all <;> omega
  valid := by
    intro l a r ha
    rcases l with _ | l <;>
      simp only [nodeRef, threeIn, Dict.get?, List.getElem?_cons_zero, List.getElem?_cons_succ, List.getElem?_nil,
        Option.bind_some, Option.bind_none, reduceCtorEq] at ha
    simp only [threeIn]
    split_ifs at ha <;> simp_all <;> omega

theorem threeIn_noSelf : NoSelf threeIn := by
  intro l a r ha
  rcases l with _ | l <;>
    simp only [nodeRef, threeIn, Dict.get?, List.getElem?_cons_zero, List.getElem?_cons_succ, List.getElem?_nil,
      Option.bind_some, Option.bind_none, reduceCtorEq] at ha
  split_ifs at ha <;> simp_all [content, threeIn] <;> subst_vars <;> simp_all

/-- The deletion of `a` and of an id that is not there, while another thread is in the middle of a search: the hypotheses
hold, the reply is `False`, `a` is gone and the list of `b` no longer mentions it. -/
example : let ops : Nat → FOp Nat Nat := fun t => if t = 0 then .delete ["a", "x"] else .search 0 2
    let s := threeIn.run (exHPar [] 2) ops (List.replicate 5 1)
    s.thr 0 = .start ∧ s.thr 1 ≠ .start ∧ s.levels ≠ [] ∧
    (s.run (exHPar [] 2) ops (List.replicate 30 0)).thr 0 = .done (.flag false) ∧
    (s.run (exHPar [] 2) ops (List.replicate 30 0)).store = [("b", (5, none)), ("c", (9, none))] ∧
    absL (s.run (exHPar [] 2) ops (List.replicate 30 0)) = [[("b", []), ("c", [])]] := by decide +kernel

example (ops : Nat → FOp Nat Nat) (sched : List Nat) := C213_hnsw_links (exHPar [] 2) ops threeIn sched
  (by simp [threeIn]) threeIn_own threeIn_noSelf

example (ops : Nat → FOp Nat Nat) := C213_hnsw_objects (exHPar [] 2) ops threeIn 0 rfl (by decide) threeIn_own
  threeIn_noSelf

end Valori.Props
