import Verif.Model.HnswPar
import Verif.Lemmas.Hnsw
import Verif.Props.ParInsert

/-!
# Lemmas about threads inserting into and searching one HNSW index (C210, C211)
-/

namespace Valori

variable {V M D : Type}

/-- The rows a thread inserts. -/
def HOp.rows : HOp V M → List (FRow V M)
  | .insert rows => rows
  | .search _ _ => []

namespace HPar

/-- `levels[l][n]` of a list of levels. -/
def lnode (ls : List Level) (l : Nat) (n : Id) : Option (List Id) := (ls[l]?).bind (·.get? n)

theorem nodeOf_eq (s : HPar V M D) : s.nodeOf = lnode s.levels := rfl

theorem lnode_append (ls : List Level) (l : Nat) (n : Id) : lnode (ls ++ [[]]) l n = lnode ls l n := by
  unfold lnode
  rcases Nat.lt_trichotomy l ls.length with h | h | h
  · rw [List.getElem?_append_left h]
  · subst h; simp
  · rw [List.getElem?_eq_none (by simp; omega), List.getElem?_eq_none (by omega)]

theorem lnode_addNode {ls : List Level} {l : Nat} {d : Level} (h : ls[l]? = some d) (id : Id) (l' : Nat) (n : Id) :
    lnode (ls.set l (Hnsw.addNode d id)) l' n =
      if l' = l ∧ n = id ∧ lnode ls l id = none then some [] else lnode ls l' n := by
  have hl : l < ls.length := (List.getElem?_eq_some_iff.1 h).1
  unfold lnode
  by_cases e : l' = l
  · subst e
    rw [List.getElem?_set_self hl, h]
    simp only [Option.bind_some, true_and, Hnsw.addNode, Dict.mem_eq]
    by_cases hg : (d.get? id).isSome
    · have : ¬ d.get? id = none := by intro hc; rw [hc] at hg; cases hg
      simp [hg, this]
    · have : d.get? id = none := by simpa using hg
      have hm : ¬ d.mem id = true := hg
      show (if d.mem id = true then d else d.set id []).get? n = _
      rw [if_neg hm, Dict.get?_set]
      simp only [this, and_true]
  · rw [List.getElem?_set_ne (Ne.symm e), if_neg (fun hc => e hc.1)]

theorem lnode_setNode {ls : List Level} {l : Nat} {n : Id} {ns0 : List Id} (h : lnode ls l n = some ns0)
    (ns : List Id) (l' : Nat) (n' : Id) :
    lnode (setNode ls l n ns) l' n' = if l' = l ∧ n' = n then some ns else lnode ls l' n' := by
  unfold lnode at h ⊢
  unfold setNode
  rw [List.getElem?_modify]
  by_cases e : l' = l
  · subst e
    cases hd : ls[l']? with
    | none => rw [hd] at h; simp at h
    | some d => simp [Dict.get?_set]
  · rw [if_neg (fun hc => e hc.1)]
    cases ls[l']? with
    | none => rfl
    | some d => simp [Ne.symm e]

/-- `n` is a node of level `l`. -/
def onLevel (s : HPar V M D) (l : Nat) (n : Id) : Prop := (s.nodeOf l n).isSome

/-- `b` is in the list of `a` on level `l`. -/
def link (s : HPar V M D) (l : Nat) (a b : Id) : Prop := ∃ ns, s.nodeOf l a = some ns ∧ b ∈ ns

/-- Nothing is lost from `s` to `s'`. -/
structure Grow (s s' : HPar V M D) : Prop where
  st : ∀ id x, s.store.get? id = some x → s'.store.get? id = some x
  vec : ∀ id v, s.vectors.get? id = some v → s'.vectors.get? id = some v
  node : ∀ l n ns, s.nodeOf l n = some ns → ∃ ns', s'.nodeOf l n = some (ns ++ ns')
  len : s.levels.length ≤ s'.levels.length

theorem Grow.rfl' (s : HPar V M D) : Grow s s :=
  ⟨fun _ _ h => h, fun _ _ h => h, fun _ _ ns h => ⟨[], by simpa using h⟩, le_rfl⟩

theorem Grow.trans {a b c : HPar V M D} (h1 : Grow a b) (h2 : Grow b c) : Grow a c := by
  refine ⟨fun id x h => h2.st _ _ (h1.st _ _ h), fun id x h => h2.vec _ _ (h1.vec _ _ h), ?_, h1.len.trans h2.len⟩
  intro l n ns h
  obtain ⟨x, hx⟩ := h1.node l n ns h
  obtain ⟨y, hy⟩ := h2.node l n _ hx
  exact ⟨x ++ y, by rw [hy, List.append_assoc]⟩

theorem Grow.onLevel {s s' : HPar V M D} (h : Grow s s') {l : Nat} {n : Id} (hn : s.onLevel l n) :
    s'.onLevel l n := by
  obtain ⟨ns, hns⟩ := Option.isSome_iff_exists.1 hn
  obtain ⟨x, hx⟩ := h.node l n ns hns
  exact Option.isSome_iff_exists.2 ⟨_, hx⟩

theorem Grow.link {s s' : HPar V M D} (h : Grow s s') {l : Nat} {a b : Id} (hn : s.link l a b) :
    s'.link l a b := by
  obtain ⟨ns, hns, hb⟩ := hn
  obtain ⟨x, hx⟩ := h.node l a ns hns
  exact ⟨_, hx, List.mem_append_left _ hb⟩

/-- A row is in the storage, has a vector, and is a node of all its levels. -/
structure Full (s : HPar V M D) (lv : Nat) (r : FRow V M) : Prop where
  st : s.store.get? r.id = some (r.v, r.m)
  vec : s.vectors.get? r.id = some r.v
  node : ∀ l ≤ lv, s.onLevel l r.id

theorem Full.grow {s s' : HPar V M D} (g : Grow s s') {lv : Nat} {r : FRow V M} (h : Full s lv r) :
    Full s' lv r :=
  ⟨g.st _ _ h.st, g.vec _ _ h.vec, fun l hl => g.onLevel (h.node l hl)⟩

/-- What holds while a thread is at a statement of the insertion of row `r` with level `lv`; `m0` is the
top level at the beginning. -/
def PcOk (m0 : Nat) (s : HPar V M D) (lv : Nat) (r : FRow V M) : HIns → Prop
  | .store => True
  | .vec => s.store.get? r.id = some (r.v, r.m)
  | .len => s.store.get? r.id = some (r.v, r.m) ∧ s.vectors.get? r.id = some r.v
  | .count _ => s.store.get? r.id = some (r.v, r.m) ∧ s.vectors.get? r.id = some r.v
  | .test => s.store.get? r.id = some (r.v, r.m) ∧ s.vectors.get? r.id = some r.v
  | .grow => s.store.get? r.id = some (r.v, r.m) ∧ s.vectors.get? r.id = some r.v
  | .node l => s.store.get? r.id = some (r.v, r.m) ∧ s.vectors.get? r.id = some r.v ∧
      lv < s.levels.length ∧ ∀ l' < l, l' ≤ lv → s.onLevel l' r.id
  | .readMax => Full s lv r
  | .setMax n => Full s lv r ∧ ((∃ x, s.onLevel n x) ∨ n = m0)
  | .sample _ => Full s lv r
  | .has l todo => Full s lv r ∧ l ≤ lv ∧ ∀ nb ∈ todo, s.onLevel l nb
  | .push l nb todo => Full s lv r ∧ l ≤ lv ∧ s.onLevel l nb ∧ nb ≠ r.id ∧ ∀ nb ∈ todo, s.onLevel l nb
  | .backHas l nb todo => Full s lv r ∧ l ≤ lv ∧ s.link l nb r.id ∧ nb ≠ r.id ∧ ∀ nb ∈ todo, s.onLevel l nb
  | .backPush l nb todo => Full s lv r ∧ l ≤ lv ∧ s.link l nb r.id ∧ nb ≠ r.id ∧ ∀ nb ∈ todo, s.onLevel l nb

theorem PcOk.grow {m0 : Nat} {s s' : HPar V M D} (g : Grow s s') {lv : Nat} {r : FRow V M} {p : HIns}
    (h : PcOk m0 s lv r p) : PcOk m0 s' lv r p := by
  cases p with
  | store => trivial
  | vec => exact g.st _ _ h
  | len => exact ⟨g.st _ _ h.1, g.vec _ _ h.2⟩
  | count n => exact ⟨g.st _ _ h.1, g.vec _ _ h.2⟩
  | test => exact ⟨g.st _ _ h.1, g.vec _ _ h.2⟩
  | grow => exact ⟨g.st _ _ h.1, g.vec _ _ h.2⟩
  | node l =>
    exact ⟨g.st _ _ h.1, g.vec _ _ h.2.1, lt_of_lt_of_le h.2.2.1 g.len, fun l' h1 h2 => g.onLevel (h.2.2.2 l' h1 h2)⟩
  | readMax => exact Full.grow g h
  | setMax n => exact ⟨h.1.grow g, h.2.imp (fun ⟨x, hx⟩ => ⟨x, g.onLevel hx⟩) id⟩
  | sample l => exact Full.grow g h
  | has l todo => exact ⟨h.1.grow g, h.2.1, fun nb hn => g.onLevel (h.2.2 nb hn)⟩
  | push l nb todo =>
    exact ⟨h.1.grow g, h.2.1, g.onLevel h.2.2.1, h.2.2.2.1, fun nb hn => g.onLevel (h.2.2.2.2 nb hn)⟩
  | backHas l nb todo =>
    exact ⟨h.1.grow g, h.2.1, g.link h.2.2.1, h.2.2.2.1, fun nb hn => g.onLevel (h.2.2.2.2 nb hn)⟩
  | backPush l nb todo =>
    exact ⟨h.1.grow g, h.2.1, g.link h.2.2.1, h.2.2.2.1, fun nb hn => g.onLevel (h.2.2.2.2 nb hn)⟩

/-- What an inserting thread has achieved. -/
def InsOk (env : HParEnv V D) (m0 : Nat) (rows : List (FRow V M)) (s : HPar V M D) (t : Nat) : HAt M D → Prop
  | .start => True
  | .ins i p => i ≤ rows.length ∧ (∀ j < i, ∀ r, rows[j]? = some r → Full s (env.level t j) r) ∧
      (p ≠ .store → ∃ r, rows[i]? = some r ∧ PcOk m0 s (env.level t i) r p)
  | .srch _ => False
  | .done res => res = .ids (rows.map FRow.id) ∧ ∀ j r, rows[j]? = some r → Full s (env.level t j) r

theorem InsOk.grow {env : HParEnv V D} {m0 : Nat} {rows : List (FRow V M)} {s s' : HPar V M D} (g : Grow s s')
    {t : Nat} {a : HAt M D} (h : InsOk env m0 rows s t a) : InsOk env m0 rows s' t a := by
  cases a with
  | start => trivial
  | ins i p =>
    refine ⟨h.1, fun j hj r hr => (h.2.1 j hj r hr).grow g, fun hp => ?_⟩
    obtain ⟨r, hr, ho⟩ := h.2.2 hp
    exact ⟨r, hr, ho.grow g⟩
  | srch p => exact h.elim
  | done res => exact ⟨h.1, fun j r hr => (h.2 j r hr).grow g⟩

/-- A thread is between the two directions of a link between its id `b` and `a`. -/
def Mid (ops : Nat → HOp V M) (s : HPar V M D) (l : Nat) (a b : Id) : Prop :=
  ∃ t i todo r, (ops t).rows[i]? = some r ∧ r.id = b ∧
    (s.thr t = .ins i (.backHas l a todo) ∨ s.thr t = .ins i (.backPush l a todo))

/-- The part of the invariant about the shared data. -/
structure Glob (env : HParEnv V D) (ops : Nat → HOp V M) (s0 s : HPar V M D) : Prop where
  keep : Grow s0 s
  stFrom : ∀ id x, s.store.get? id = some x →
    s0.store.get? id = some x ∨ ∃ t, ∃ r ∈ (ops t).rows, r.id = id ∧ x = (r.v, r.m)
  vecFrom : ∀ id v, s.vectors.get? id = some v →
    s0.vectors.get? id = some v ∨ ∃ t, ∃ r ∈ (ops t).rows, r.id = id ∧ v = r.v
  vecStore : ∀ id v, s.vectors.get? id = some v → ∃ m, s.store.get? id = some (v, m)
  nodeVec : ∀ l id, s.onLevel l id → (s.vectors.get? id).isSome
  nodeFrom : ∀ l id, s.onLevel l id →
    s0.onLevel l id ∨ ∃ t j r, (ops t).rows[j]? = some r ∧ r.id = id ∧ l ≤ env.level t j
  vecNodup : s.vectors.keys.Nodup
  levNodup : ∀ d ∈ s.levels, Dict.keys d |>.Nodup
  nonempty : s.levels ≠ []
  linkOk : ∀ l a b, s.link l a b → s.onLevel l b ∧ a ≠ b
  sym : ∀ l a b, s.link l a b → s.link l b a ∨ Mid ops s l a b
  top : (∃ x, s.onLevel s.maxLevel x) ∨ s.maxLevel = s0.maxLevel

/-- A step that changes no more than the place of a thread and the count. -/
theorem Glob.move {env : HParEnv V D} {ops : Nat → HOp V M} {s0 s : HPar V M D} (h : Glob env ops s0 s)
    (n : Nat) (thr : Nat → HAt M D)
    (hs : ∀ l a b, s.link l a b → Mid ops s l a b → s.link l b a ∨ Mid ops { s with count := n, thr := thr } l a b) :
    Glob env ops s0 { s with count := n, thr := thr } := by
  refine ⟨⟨h.keep.st, h.keep.vec, h.keep.node, h.keep.len⟩, h.stFrom, h.vecFrom, h.vecStore, h.nodeVec, h.nodeFrom,
    h.vecNodup, h.levNodup, h.nonempty, h.linkOk, ?_, h.top⟩
  intro l a b hl
  rcases h.sym l a b hl with h1 | h1
  · exact .inl h1
  · exact hs l a b hl h1

/-- The place is not between the two directions of a link. -/
def notMid : HAt M D → Prop
  | .ins _ (.backHas _ _ _) => False
  | .ins _ (.backPush _ _ _) => False
  | _ => True

theorem Mid.update {ops : Nat → HOp V M} {s : HPar V M D} {t : Nat} (ht : notMid (s.thr t)) {s' : HPar V M D}
    (hth : ∀ t', t' ≠ t → s'.thr t' = s.thr t') {l : Nat} {a b : Id} (h : Mid ops s l a b) : Mid ops s' l a b := by
  obtain ⟨t', i, todo, r, h1, h2, h3⟩ := h
  have : t' ≠ t := by
    rintro rfl
    rcases h3 with h3 | h3 <;> rw [h3] at ht <;> exact ht
  exact ⟨t', i, todo, r, h1, h2, by rw [hth t' this]; exact h3⟩

/-- The shared data after a step that changes only levels or the top level. -/
theorem Glob.relevel {env : HParEnv V D} {ops : Nat → HOp V M} {s0 s : HPar V M D} (h : Glob env ops s0 s)
    (ls : List Level) (mx : Nat) (thr : Nat → HAt M D)
    (g : Grow s { s with levels := ls, maxLevel := mx, thr := thr })
    (hv : ∀ l id, ({ s with levels := ls, maxLevel := mx, thr := thr } : HPar V M D).onLevel l id →
      s.onLevel l id ∨ ((s.vectors.get? id).isSome ∧ ∃ t j r, (ops t).rows[j]? = some r ∧ r.id = id ∧ l ≤ env.level t j))
    (hn : ∀ d ∈ ls, (Dict.keys d).Nodup)
    (hl : ∀ l a b, ({ s with levels := ls, maxLevel := mx, thr := thr } : HPar V M D).link l a b →
      (s.onLevel l b ∧ a ≠ b) ∧ (({ s with levels := ls, maxLevel := mx, thr := thr } : HPar V M D).link l b a ∨
        Mid ops { s with levels := ls, maxLevel := mx, thr := thr } l a b))
    (ht : (∃ x, s.onLevel mx x) ∨ mx = s0.maxLevel) :
    Glob env ops s0 { s with levels := ls, maxLevel := mx, thr := thr } := by
  refine ⟨h.keep.trans g, h.stFrom, h.vecFrom, h.vecStore, ?_, ?_, h.vecNodup, hn, ?_, ?_, ?_, ?_⟩
  · intro l id hid
    rcases hv l id hid with h1 | h1
    · exact h.nodeVec l id h1
    · exact h1.1
  · intro l id hid
    rcases hv l id hid with h1 | h1
    · exact h.nodeFrom l id h1
    · exact .inr h1.2
  · intro hc
    have h1 := g.len
    simp only at hc h1
    rw [hc] at h1
    simp only [List.length_nil, Nat.le_zero, List.length_eq_zero_iff] at h1
    exact h.nonempty h1
  · intro l a b hab
    exact ⟨g.onLevel (hl l a b hab).1.1, (hl l a b hab).1.2⟩
  · intro l a b hab
    exact (hl l a b hab).2
  · rcases ht with ⟨x, hx⟩ | h1
    · exact .inl ⟨x, g.onLevel hx⟩
    · exact .inr h1

theorem setNode_nodup {ls : List Level} (h : ∀ d ∈ ls, (Dict.keys d).Nodup) (l : Nat) (n : Id) (ns : List Id) :
    ∀ d ∈ setNode ls l n ns, (Dict.keys d).Nodup := by
  intro d hd
  unfold setNode at hd
  obtain ⟨i, hi⟩ := List.getElem?_of_mem hd
  rw [List.getElem?_modify] at hi
  cases hg : ls[i]? with
  | none => rw [hg] at hi; simp at hi
  | some d0 =>
    rw [hg] at hi
    simp only [Option.map_eq_map, Option.map_some, Option.some.injEq] at hi
    have h0 := h d0 (List.mem_of_getElem? hg)
    split at hi
    · rw [← hi]; exact Dict.nodup_set h0 n ns
    · rw [← hi]; exact h0

theorem setNode_length (ls : List Level) (l : Nat) (n : Id) (ns : List Id) :
    (setNode ls l n ns).length = ls.length := by simp [setNode]

/-- Appending to the list of a node loses nothing. -/
theorem grow_setNode {s : HPar V M D} {l : Nat} {n : Id} {ns : List Id} (h : s.nodeOf l n = some ns) (x : Id)
    (mx : Nat) (thr : Nat → HAt M D) :
    Grow s { s with levels := setNode s.levels l n (ns ++ [x]), maxLevel := mx, thr := thr } := by
  refine ⟨fun _ _ h => h, fun _ _ h => h, ?_, by simp only [setNode_length]; exact le_rfl⟩
  intro l' n' ns' h'
  rw [nodeOf_eq] at h' h ⊢
  simp only [lnode_setNode h]
  split
  · rename_i e
    obtain ⟨rfl, rfl⟩ := e
    rw [h] at h'
    obtain rfl := Option.some.inj h'
    exact ⟨[x], rfl⟩
  · exact ⟨[], by rw [h', List.append_nil]⟩

theorem link_setNode {s : HPar V M D} {l : Nat} {n : Id} {ns : List Id} (h : s.nodeOf l n = some ns) (x : Id)
    (mx : Nat) (thr : Nat → HAt M D) (l' : Nat) (a b : Id) :
    ({ s with levels := setNode s.levels l n (ns ++ [x]), maxLevel := mx, thr := thr } : HPar V M D).link l' a b ↔
      s.link l' a b ∨ (l' = l ∧ a = n ∧ b = x) := by
  unfold HPar.link
  rw [nodeOf_eq] at h
  simp only [nodeOf_eq, lnode_setNode h]
  by_cases e : l' = l ∧ a = n
  · obtain ⟨rfl, rfl⟩ := e
    simp [h, or_comm]
  · rw [if_neg e]
    constructor
    · exact .inl
    · rintro (h1 | h1)
      · exact h1
      · exact absurd ⟨h1.1, h1.2.1⟩ e

theorem onLevel_setNode {s : HPar V M D} {l : Nat} {n : Id} {ns : List Id} (h : s.nodeOf l n = some ns) (x : Id)
    (mx : Nat) (thr : Nat → HAt M D) (l' : Nat) (a : Id) :
    ({ s with levels := setNode s.levels l n (ns ++ [x]), maxLevel := mx, thr := thr } : HPar V M D).onLevel l' a ↔
      s.onLevel l' a := by
  unfold HPar.onLevel
  rw [nodeOf_eq] at h
  simp only [nodeOf_eq, lnode_setNode h]
  split
  · rename_i e
    obtain ⟨rfl, rfl⟩ := e
    simp [h]
  · rfl

theorem Glob.link_key {env : HParEnv V D} {ops : Nat → HOp V M} {s0 s : HPar V M D} (_ : Glob env ops s0 s)
    {l : Nat} {a b : Id} (hl : s.link l a b) : s.onLevel l a := by
  obtain ⟨ns, hns, -⟩ := hl
  exact Option.isSome_iff_exists.2 ⟨ns, hns⟩

/-- The invariant of a run. -/
structure HInv (env : HParEnv V D) (ops : Nat → HOp V M) (s0 s : HPar V M D) : Prop where
  glob : Glob env ops s0 s
  ins : ∀ t rows, ops t = .insert rows → InsOk env s0.maxLevel rows s t (s.thr t)

/-- What a step of a thread must give. -/
structure Good (env : HParEnv V D) (ops : Nat → HOp V M) (s0 s s' : HPar V M D) (t : Nat) : Prop where
  grow : Grow s s'
  glob : Glob env ops s0 s'
  own : ∀ rows, ops t = .insert rows → InsOk env s0.maxLevel rows s' t (s'.thr t)
  thr : ∀ t', t' ≠ t → s'.thr t' = s.thr t'

theorem Good.inv {env : HParEnv V D} {ops : Nat → HOp V M} {s0 s s' : HPar V M D} {t : Nat}
    (h : HInv env ops s0 s) (g : Good env ops s0 s s' t) : HInv env ops s0 s' := by
  refine ⟨g.glob, fun t' rows ho => ?_⟩
  by_cases e : t' = t
  · subst e; exact g.own rows ho
  · rw [g.thr t' e]; exact (h.ins t' rows ho).grow g.grow

/-- A move of a thread that is not between the two directions of a link. -/
theorem good_move {env : HParEnv V D} {ops : Nat → HOp V M} {s0 s : HPar V M D} (h : HInv env ops s0 s) {t : Nat}
    (n : Nat) (a : HAt M D) (hm : notMid (s.thr t))
    (ha : ∀ rows, ops t = .insert rows → InsOk env s0.maxLevel rows s t a) :
    Good env ops s0 s { s with count := n, thr := Function.update s.thr t a } t := by
  have g : Grow s { s with count := n, thr := Function.update s.thr t a } :=
    ⟨fun _ _ h => h, fun _ _ h => h, fun _ _ ns h => ⟨[], by rw [List.append_nil]; exact h⟩, le_rfl⟩
  refine ⟨g, h.glob.move n _ fun l a b hl hmid => .inr ?_, fun rows ho => ?_, fun t' ht => ?_⟩
  · exact hmid.update hm (fun t' ht => Function.update_of_ne ht _ _)
  · simp only [Function.update_self]; exact (ha rows ho).grow g
  · exact Function.update_of_ne ht _ _

theorem good_ins {env : HParEnv V D} {ops : Nat → HOp V M} {s0 s : HPar V M D} {old : List Id}
    (hf : Props.FreshRows (fun t => (ops t).rows) old) (hold : ∀ id, (s0.store.get? id).isSome → id ∈ old)
    (h : HInv env ops s0 s) {t i : Nat} {p : HIns} {rows : List (FRow V M)}
    (ho : ops t = .insert rows) (ht : s.thr t = .ins i p) :
    Good env ops s0 s (stepIns env rows s t i p) t := by
  have hrows : (ops t).rows = rows := by rw [ho]; rfl
  obtain ⟨hi, hdone, hcur⟩ : InsOk env s0.maxLevel rows s t (.ins i p) := ht ▸ h.ins t rows ho
  unfold stepIns
  simp only
  cases hr : rows[i]? with
  | none =>
    have hl : rows.length ≤ i := List.getElem?_eq_none_iff.1 hr
    by_cases hp : p = .store
    · subst hp
      refine good_move h s.count _ (by rw [ht]; trivial) fun rows' ho' => ?_
      rw [ho] at ho'
      cases ho'
      refine ⟨rfl, fun j r hj => hdone j ?_ r hj⟩
      exact lt_of_lt_of_le (List.getElem?_eq_some_iff.1 hj).1 hl
    · obtain ⟨r, hr', -⟩ := hcur hp
      rw [hr] at hr'; cases hr'
  | some r =>
    have hlt : i < rows.length := (List.getElem?_eq_some_iff.1 hr).1
    have hrm : r ∈ (ops t).rows := by rw [hrows]; exact List.mem_of_getElem? hr
    -- a move to another place in the same row
    have go : ∀ (n : Nat) (p' : HIns), notMid (s.thr t) → p' ≠ .store → PcOk s0.maxLevel s (env.level t i) r p' →
        Good env ops s0 s { s with count := n, thr := Function.update s.thr t (.ins i p') } t := by
      intro n p' hm _ hok
      refine good_move h n _ hm fun rows' ho' => ?_
      rw [ho] at ho'
      cases ho'
      exact ⟨hi, hdone, fun _ => ⟨r, hr, hok⟩⟩
    have own : ∀ (s' : HPar V M D) (p' : HIns), Grow s s' → PcOk s0.maxLevel s' (env.level t i) r p' →
        s'.thr = Function.update s.thr t (.ins i p') →
        ∀ rows, ops t = .insert rows → InsOk env s0.maxLevel rows s' t (s'.thr t) := by
      intro s' p' g hok hth rows' ho'
      rw [ho] at ho'
      cases ho'
      rw [hth, Function.update_self]
      exact ⟨hi, fun j hj r' hr' => (hdone j hj r' hr').grow g, fun _ => ⟨r, hr, hok⟩⟩
    have other : ∀ a : HAt M D, ∀ t', t' ≠ t → Function.update s.thr t a t' = s.thr t' :=
      fun a t' ht' => Function.update_of_ne ht' _ _
    have cur : p ≠ .store → PcOk s0.maxLevel s (env.level t i) r p := by
      intro hp
      obtain ⟨r', hr', hok⟩ := hcur hp
      rw [hr] at hr'
      cases hr'
      exact hok
    cases p with
    | store =>
      have g : Grow s { s with store := s.store.set r.id (r.v, r.m), thr := Function.update s.thr t (.ins i .vec) } := by
        refine ⟨?_, fun _ _ h => h, fun _ _ ns h => ⟨[], by rw [List.append_nil]; exact h⟩, le_rfl⟩
        intro id x hx
        simp only [Dict.get?_set]
        split
        · rename_i e
          subst e
          rcases h.glob.stFrom r.id x hx with h1 | ⟨t', r', h1, h2, h3⟩
          · exact absurd (hold r.id (by rw [h1]; rfl)) (hf.new t r hrm)
          · obtain ⟨j, hj⟩ := List.getElem?_of_mem h1
            obtain ⟨j', hj'⟩ := List.getElem?_of_mem hrm
            obtain ⟨rfl, rfl⟩ := hf.inj hj hj' h2
            rw [hj] at hj'
            obtain rfl := Option.some.inj hj'
            rw [h3]
        · exact hx
      refine ⟨g, ⟨h.glob.keep.trans g, ?_, h.glob.vecFrom, ?_, h.glob.nodeVec, h.glob.nodeFrom, h.glob.vecNodup,
        h.glob.levNodup, h.glob.nonempty, h.glob.linkOk, ?_, h.glob.top⟩, ?_, other _⟩
      · intro id x hx
        simp only [Dict.get?_set] at hx
        split at hx
        · rename_i e
          exact .inr ⟨t, r, hrm, e.symm, (Option.some.inj hx).symm⟩
        · exact h.glob.stFrom id x hx
      · intro id v hv
        obtain ⟨m, hm⟩ := h.glob.vecStore id v hv
        exact ⟨m, g.st _ _ hm⟩
      · intro l a b hl
        exact (h.glob.sym l a b hl).imp id (Mid.update (by rw [ht]; trivial) (other _))
      · exact own _ .vec g (by simp [PcOk]) rfl
    | vec =>
      have hst := cur (by simp)
      have g : Grow s { s with vectors := s.vectors.set r.id r.v, thr := Function.update s.thr t (.ins i .len) } := by
        refine ⟨fun _ _ h => h, ?_, fun _ _ ns h => ⟨[], by rw [List.append_nil]; exact h⟩, le_rfl⟩
        intro id x hx
        simp only [Dict.get?_set]
        split
        · rename_i e
          subst e
          obtain ⟨m, hm⟩ := h.glob.vecStore r.id x hx
          have hst' : s.store.get? r.id = some (r.v, r.m) := hst
          rw [hst'] at hm
          simp only [Option.some.injEq, Prod.mk.injEq] at hm
          rw [hm.1]
        · exact hx
      refine ⟨g, ⟨h.glob.keep.trans g, h.glob.stFrom, ?_, ?_, ?_, h.glob.nodeFrom,
        Dict.nodup_set h.glob.vecNodup _ _, h.glob.levNodup, h.glob.nonempty, h.glob.linkOk, ?_, h.glob.top⟩, ?_, other _⟩
      · intro id x hx
        simp only [Dict.get?_set] at hx
        split at hx
        · rename_i e
          exact .inr ⟨t, r, hrm, e.symm, (Option.some.inj hx).symm⟩
        · exact h.glob.vecFrom id x hx
      · intro id v hv
        simp only [Dict.get?_set] at hv
        split at hv
        · rename_i e
          subst e
          obtain rfl := Option.some.inj hv
          exact ⟨r.m, hst⟩
        · exact h.glob.vecStore id v hv
      · intro l id hl
        obtain ⟨x, hx⟩ := Option.isSome_iff_exists.1 (h.glob.nodeVec l id hl)
        exact Option.isSome_iff_exists.2 ⟨x, g.vec _ _ hx⟩
      · intro l a b hl
        exact (h.glob.sym l a b hl).imp id (Mid.update (by rw [ht]; trivial) (other _))
      · exact own _ .len g ⟨hst, by simp⟩ rfl
    | len => exact go s.count _ (by rw [ht]; trivial) (by simp) (cur (by simp))
    | count n => exact go n _ (by rw [ht]; trivial) (by simp) (cur (by simp))
    | test =>
      simp only
      obtain ⟨h1, h2⟩ := cur (by simp)
      by_cases hc : s.levels.length ≤ env.level t i
      · simp only [hc, if_true]
        exact go s.count .grow (by rw [ht]; trivial) (by simp) ⟨h1, h2⟩
      · simp only [hc, if_false]
        exact go s.count (.node 0) (by rw [ht]; trivial) (by simp) ⟨h1, h2, by omega, by simp⟩
    | grow =>
      obtain ⟨h1, h2⟩ := cur (by simp)
      simp only
      have hnode : ∀ l n, lnode (s.levels ++ [[]]) l n = lnode s.levels l n := lnode_append s.levels
      have g : Grow s { s with levels := s.levels ++ [[]], thr := Function.update s.thr t (.ins i .test) } := by
        refine ⟨fun _ _ h => h, fun _ _ h => h, ?_, by simp⟩
        intro l n ns hn
        rw [nodeOf_eq] at hn ⊢
        simp only [hnode]
        exact ⟨[], by rw [List.append_nil]; exact hn⟩
      refine ⟨g, h.glob.relevel _ s.maxLevel _ g ?_ ?_ ?_ h.glob.top, own _ .test g ⟨h1, h2⟩ rfl, other _⟩
      · intro l id hl
        unfold HPar.onLevel at hl
        rw [nodeOf_eq] at hl
        simp only [hnode] at hl
        exact .inl hl
      · intro d hd
        rcases List.mem_append.1 hd with hd | hd
        · exact h.glob.levNodup d hd
        · simp only [List.mem_singleton] at hd
          subst hd
          simp [Dict.keys]
      · intro l a b hl
        have hl' : s.link l a b := by
          unfold HPar.link at hl
          rw [nodeOf_eq] at hl
          simp only [hnode] at hl
          exact hl
        refine ⟨h.glob.linkOk l a b hl', ?_⟩
        exact (h.glob.sym l a b hl').imp g.link (Mid.update (by rw [ht]; trivial) (other _))
    | node l =>
      obtain ⟨h1, h2, h3, h4⟩ := cur (by simp)
      simp only
      by_cases hc : env.level t i < l
      · rw [if_pos hc]
        exact go s.count .readMax (by rw [ht]; trivial) (by simp)
          ⟨h1, h2, fun l' hl' => h4 l' (by omega) hl'⟩
      · rw [if_neg hc]
        obtain ⟨d, hd⟩ : ∃ d, s.levels[l]? = some d := ⟨s.levels[l], List.getElem?_eq_getElem (by omega)⟩
        simp only [hd]
        have hnode := lnode_addNode hd r.id
        have g : Grow s { s with levels := s.levels.set l (Hnsw.addNode d r.id)
                                 thr := Function.update s.thr t (.ins i (.node (l + 1))) } := by
          refine ⟨fun _ _ h => h, fun _ _ h => h, ?_, by simp⟩
          intro l' n ns hn
          rw [nodeOf_eq] at hn ⊢
          simp only [hnode]
          split
          · rename_i e
            rw [e.1, e.2.1, e.2.2] at hn
            cases hn
          · exact ⟨[], by rw [List.append_nil]; exact hn⟩
        refine ⟨g, h.glob.relevel _ s.maxLevel _ g ?_ ?_ ?_ h.glob.top, ?_, other _⟩
        · intro l' id hl
          unfold HPar.onLevel at hl
          rw [nodeOf_eq] at hl
          simp only [hnode] at hl
          split at hl
          · rename_i e
            rw [e.1, e.2.1]
            exact .inr ⟨by rw [h2]; rfl, t, i, r, by rw [hrows]; exact hr, rfl, by omega⟩
          · exact .inl hl
        · intro d' hd'
          rcases List.mem_or_eq_of_mem_set hd' with hd' | hd'
          · exact h.glob.levNodup d' hd'
          · subst hd'
            unfold Hnsw.addNode
            split
            · exact h.glob.levNodup d (List.mem_of_getElem? hd)
            · exact Dict.nodup_set (h.glob.levNodup d (List.mem_of_getElem? hd)) _ _
        · intro l' a b hl
          have hl' : s.link l' a b := by
            unfold HPar.link at hl
            rw [nodeOf_eq] at hl
            simp only [hnode] at hl
            obtain ⟨ns, hns, hb⟩ := hl
            split at hns
            · cases hns; cases hb
            · exact ⟨ns, hns, hb⟩
          refine ⟨h.glob.linkOk l' a b hl', ?_⟩
          exact (h.glob.sym l' a b hl').imp g.link (Mid.update (by rw [ht]; trivial) (other _))
        · refine own _ (.node (l + 1)) g ⟨h1, h2, by simpa using h3, ?_⟩ rfl
          intro l' hl1 hl2
          by_cases e : l' = l
          · subst e
            unfold HPar.onLevel
            rw [nodeOf_eq]
            simp only [hnode]
            split
            · rfl
            · rename_i hne
              simp only [true_and] at hne
              exact Option.isSome_iff_ne_none.2 hne
          · exact g.onLevel (h4 l' (by omega) hl2)
    | readMax =>
      have hfull : Full s (env.level t i) r := cur (by simp)
      refine go s.count (.setMax (max s.maxLevel (env.level t i))) (by rw [ht]; trivial) (by simp) ⟨hfull, ?_⟩
      rcases le_total s.maxLevel (env.level t i) with hle | hle
      · rw [max_eq_right hle]
        exact .inl ⟨r.id, hfull.node _ le_rfl⟩
      · rw [max_eq_left hle]
        exact h.glob.top
    | setMax n =>
      obtain ⟨hfull, hn⟩ := cur (by simp)
      simp only
      have g : Grow s { s with maxLevel := n, thr := Function.update s.thr t (.ins i (.sample 0)) } :=
        ⟨fun _ _ h => h, fun _ _ h => h, fun _ _ ns h => ⟨[], by rw [List.append_nil]; exact h⟩, le_rfl⟩
      refine ⟨g, h.glob.relevel s.levels n _ g (fun l id hl => .inl hl) h.glob.levNodup ?_ hn,
        own _ (.sample 0) g (Full.grow g hfull) rfl, other _⟩
      intro l a b hl
      refine ⟨h.glob.linkOk l a b hl, ?_⟩
      exact (h.glob.sym l a b hl).imp g.link (Mid.update (by rw [ht]; trivial) (other _))
    | sample l =>
      have hfull : Full s (env.level t i) r := cur (by simp)
      simp only
      by_cases hc : env.level t i < l
      · rw [if_pos hc]
        refine good_move h s.count _ (by rw [ht]; trivial) fun rows' ho' => ?_
        rw [ho] at ho'
        cases ho'
        refine ⟨hlt, fun j hj r' hr' => ?_, fun hp => absurd rfl hp⟩
        by_cases e : j = i
        · subst e
          rw [hr] at hr'
          cases hr'
          exact hfull
        · exact hdone j (by omega) r' hr'
      · rw [if_neg hc]
        have hn := hfull.node l (by omega)
        have hsome : ∃ d, s.levels[l]? = some d := by
          unfold HPar.onLevel HPar.nodeOf at hn
          cases hd : s.levels[l]? with
          | none => rw [hd] at hn; cases hn
          | some d => exact ⟨d, rfl⟩
        obtain ⟨d, hd⟩ := hsome
        simp only [hd]
        refine go s.count (.has l _) (by rw [ht]; trivial) (by simp) ⟨hfull, by omega, ?_⟩
        intro nb hnb
        have := (List.mem_filter.1 hnb).2
        simp only [decide_eq_true_eq] at this
        rw [Dict.mem_keys] at this
        unfold HPar.onLevel HPar.nodeOf
        rw [hd]
        exact this
    | has l todo =>
      obtain ⟨hfull, hl, htodo⟩ := cur (by simp)
      cases todo with
      | nil => exact go s.count (.sample (l + 1)) (by rw [ht]; trivial) (by simp) hfull
      | cons nb todo =>
        simp only
        by_cases e : nb = r.id
        · rw [if_pos e]
          exact go s.count (.has l todo) (by rw [ht]; trivial) (by simp)
            ⟨hfull, hl, fun x hx => htodo x (List.mem_cons_of_mem _ hx)⟩
        · rw [if_neg e]
          obtain ⟨ns, hns⟩ := Option.isSome_iff_exists.1 (htodo nb (by simp))
          simp only [hns]
          by_cases hc : r.id ∈ ns
          · simp only [hc, if_true]
            exact go s.count (.backHas l nb todo) (by rw [ht]; trivial) (by simp)
              ⟨hfull, hl, ⟨ns, hns, hc⟩, e, fun x hx => htodo x (List.mem_cons_of_mem _ hx)⟩
          · simp only [hc, if_false]
            exact go s.count (.push l nb todo) (by rw [ht]; trivial) (by simp)
              ⟨hfull, hl, htodo nb (by simp), e, fun x hx => htodo x (List.mem_cons_of_mem _ hx)⟩
    | push l nb todo =>
      obtain ⟨hfull, hl, hnb, e, htodo⟩ := cur (by simp)
      obtain ⟨ns, hns⟩ := Option.isSome_iff_exists.1 hnb
      simp only [hns]
      have g := grow_setNode hns r.id s.maxLevel (Function.update s.thr t (.ins i (.backHas l nb todo)))
      refine ⟨g, h.glob.relevel _ s.maxLevel _ g ?_ (setNode_nodup h.glob.levNodup _ _ _) ?_ h.glob.top, ?_, other _⟩
      · intro l' id hl'
        exact .inl ((onLevel_setNode hns r.id _ _ l' id).1 hl')
      · intro l' a b hab
        rcases (link_setNode hns r.id _ _ l' a b).1 hab with hab | ⟨rfl, rfl, rfl⟩
        · refine ⟨h.glob.linkOk l' a b hab, ?_⟩
          exact (h.glob.sym l' a b hab).imp g.link (Mid.update (by rw [ht]; trivial) (other _))
        · refine ⟨⟨hfull.node l' hl, e⟩, .inr ⟨t, i, todo, r, by rw [hrows]; exact hr, rfl, .inl ?_⟩⟩
          exact Function.update_self ..
      · exact own _ (.backHas l nb todo) g
          ⟨hfull.grow g, hl, (link_setNode hns r.id _ _ l nb r.id).2 (.inr ⟨rfl, rfl, rfl⟩), e,
            fun x hx => g.onLevel (htodo x hx)⟩ rfl
    | backHas l nb todo =>
      obtain ⟨hfull, hl, hnb, e, htodo⟩ := cur (by simp)
      obtain ⟨ns, hns⟩ := Option.isSome_iff_exists.1 (hfull.node l hl)
      simp only [hns]
      have move : ∀ p' : HIns, p' ≠ .store → PcOk s0.maxLevel s (env.level t i) r p' →
          (s.link l r.id nb ∨ p' = .backPush l nb todo) →
          Good env ops s0 s { s with thr := Function.update s.thr t (.ins i p') } t := by
        intro p' _ hok hlink
        have g : Grow s { s with thr := Function.update s.thr t (.ins i p') } :=
          ⟨fun _ _ h => h, fun _ _ h => h, fun _ _ ns h => ⟨[], by rw [List.append_nil]; exact h⟩, le_rfl⟩
        refine ⟨g, h.glob.move s.count _ ?_, own _ p' g (hok.grow g) rfl, other _⟩
        rintro l' a b hab ⟨t', i', todo', r', h1, h2, h3⟩
        by_cases e' : t' = t
        · subst e'
          rw [ht] at h3
          rcases h3 with h3 | h3
          · cases h3
            have : r' = r := by
              have h1' := h1
              rw [hrows, hr] at h1'
              exact (Option.some.inj h1').symm
            subst this
            subst h2
            rcases hlink with hlink | hlink
            · exact .inl hlink
            · refine .inr ⟨t', i, todo, r', h1, rfl, .inr ?_⟩
              simp only [Function.update_self, hlink]
          · cases h3
        · exact .inr ⟨t', i', todo', r', h1, h2, by
            simp only [Function.update_of_ne e']; exact h3⟩
      by_cases hc : nb ∈ ns
      · simp only [hc, if_true]
        exact move (.has l todo) (by simp) ⟨hfull, hl, htodo⟩ (.inl ⟨ns, hns, hc⟩)
      · simp only [hc, if_false]
        exact move (.backPush l nb todo) (by simp) ⟨hfull, hl, hnb, e, htodo⟩ (.inr rfl)
    | backPush l nb todo =>
      obtain ⟨hfull, hl, hnb, e, htodo⟩ := cur (by simp)
      obtain ⟨ns, hns⟩ := Option.isSome_iff_exists.1 (hfull.node l hl)
      simp only [hns]
      have g := grow_setNode hns nb s.maxLevel (Function.update s.thr t (.ins i (.has l todo)))
      refine ⟨g, h.glob.relevel _ s.maxLevel _ g ?_ (setNode_nodup h.glob.levNodup _ _ _) ?_ h.glob.top, ?_, other _⟩
      · intro l' id hl'
        exact .inl ((onLevel_setNode hns nb _ _ l' id).1 hl')
      · intro l' a b hab
        rcases (link_setNode hns nb _ _ l' a b).1 hab with hab | ⟨rfl, rfl, rfl⟩
        · refine ⟨h.glob.linkOk l' a b hab, ?_⟩
          rcases h.glob.sym l' a b hab with h1 | ⟨t', i', todo', r', h1, h2, h3⟩
          · exact .inl (g.link h1)
          · by_cases e' : t' = t
            · subst e'
              rw [ht] at h3
              rcases h3 with h3 | h3
              · cases h3
              · cases h3
                have : r' = r := by
                  have h1' := h1
                  rw [hrows, hr] at h1'
                  exact (Option.some.inj h1').symm
                subst this
                subst h2
                exact .inl ((link_setNode hns nb _ _ l r'.id nb).2 (.inr ⟨rfl, rfl, rfl⟩))
            · exact .inr ⟨t', i', todo', r', h1, h2, by
                simp only [Function.update_of_ne e']; exact h3⟩
        · exact ⟨⟨h.glob.link_key hnb, e.symm⟩, .inl (g.link hnb)⟩
      · exact own _ (.has l todo) g ⟨hfull.grow g, hl, fun x hx => g.onLevel (htodo x hx)⟩ rfl

/-! ## Searching threads -/

/-- A candidate has a vector at the distance found. -/
def Cand (env : HParEnv V D) (q : V) (s : HPar V M D) (x : Id × D) : Prop :=
  ∃ v, s.vectors.get? x.1 = some v ∧ env.dist q v = .ok x.2

/-- A result is stored with this distance and metadata. -/
def HitOk (env : HParEnv V D) (q : V) (s : HPar V M D) (x : Spec.Hit D M) : Prop :=
  ∃ v, s.store.get? x.id = some (v, x.md) ∧ env.dist q v = .ok x.dist

theorem Cand.grow {env : HParEnv V D} {q : V} {s s' : HPar V M D} (g : Grow s s') {x : Id × D}
    (h : Cand env q s x) : Cand env q s' x := by
  obtain ⟨v, h1, h2⟩ := h
  exact ⟨v, g.vec _ _ h1, h2⟩

theorem HitOk.grow {env : HParEnv V D} {q : V} {s s' : HPar V M D} (g : Grow s s') {x : Spec.Hit D M}
    (h : HitOk env q s x) : HitOk env q s' x := by
  obtain ⟨v, h1, h2⟩ := h
  exact ⟨v, g.st _ _ h1, h2⟩

variable [LinearOrder D]

/-- What holds at the statements of a search for `k₀` results. -/
def SrOk (env : HParEnv V D) (q : V) (k₀ : Int) (s : HPar V M D) : HSr M D → Prop
  | .limit => True
  | .topMax k => 0 ≤ k ∧ k ≤ k₀
  | .topLen k _ => 0 ≤ k ∧ k ≤ k₀
  | .top k cl => 0 ≤ k ∧ k ≤ k₀ ∧ cl < s.levels.length
  | .iter k cl => 0 ≤ k ∧ k ≤ k₀ ∧ ∃ x, s.onLevel cl x
  | .next k cl n => 0 ≤ k ∧ k ≤ k₀ ∧ (∃ x, s.onLevel cl x) ∧ n ≠ 0
  | .entry k cl e => 0 ≤ k ∧ k ≤ k₀ ∧ s.onLevel cl e
  | .walk k cl cands todo found => 0 ≤ k ∧ k ≤ k₀ ∧ cl < s.levels.length ∧ (∀ x ∈ cands, Cand env q s x) ∧
      (∀ x ∈ todo, Cand env q s x) ∧ ∀ x ∈ found, Cand env q s x
  | .nbr k cl cands todo found n _ => 0 ≤ k ∧ k ≤ k₀ ∧ s.onLevel cl n ∧ (∀ x ∈ cands, Cand env q s x) ∧
      (∀ x ∈ todo, Cand env q s x) ∧ ∀ x ∈ found, Cand env q s x
  | .info todo acc => (∀ x ∈ todo, Cand env q s x) ∧ (∀ x ∈ acc, HitOk env q s x) ∧
      (acc.map Spec.Hit.dist ++ todo.map Prod.snd).Pairwise (· ≤ ·) ∧
      ((acc.length + todo.length : Nat) : Int) ≤ k₀

/-- What holds for a searching thread. -/
def SearchOk (env : HParEnv V D) (q : V) (k₀ : Int) (s : HPar V M D) : HAt M D → Prop
  | .start => True
  | .ins _ _ => False
  | .srch p => SrOk env q k₀ s p
  | .done (.hits l) => (∀ x ∈ l, HitOk env q s x) ∧ (l.map Spec.Hit.dist).Pairwise (· ≤ ·) ∧ (l.length : Int) ≤ k₀
  | .done .raised => True
  | .done _ => False

theorem onLevel_lt {s : HPar V M D} {l : Nat} {n : Id} (h : s.onLevel l n) : l < s.levels.length := by
  unfold HPar.onLevel HPar.nodeOf at h
  by_contra hc
  rw [List.getElem?_eq_none (by omega)] at h
  cases h

theorem SearchOk.grow {env : HParEnv V D} {q : V} {k₀ : Int} {s s' : HPar V M D} (g : Grow s s') {a : HAt M D}
    (h : SearchOk env q k₀ s a) : SearchOk env q k₀ s' a := by
  cases a with
  | start => trivial
  | ins i p => exact h.elim
  | done r =>
    cases r with
    | hits l => exact ⟨fun x hx => (h.1 x hx).grow g, h.2⟩
    | raised => trivial
    | ids l => exact h.elim
    | flag b => exact h.elim
  | srch p =>
    cases p with
    | limit => trivial
    | topMax k => exact h
    | topLen k mx => exact h
    | top k cl => exact ⟨h.1, h.2.1, lt_of_lt_of_le h.2.2 g.len⟩
    | iter k cl => exact ⟨h.1, h.2.1, h.2.2.imp fun _ hx => g.onLevel hx⟩
    | next k cl n => exact ⟨h.1, h.2.1, h.2.2.1.imp fun _ hx => g.onLevel hx, h.2.2.2⟩
    | entry k cl e => exact ⟨h.1, h.2.1, g.onLevel h.2.2⟩
    | walk k cl cands todo found =>
      obtain ⟨h0, h1, h2, h3, h4, h5⟩ := h
      exact ⟨h0, h1, lt_of_lt_of_le h2 g.len, fun x hx => (h3 x hx).grow g, fun x hx => (h4 x hx).grow g,
        fun x hx => (h5 x hx).grow g⟩
    | nbr k cl cands todo found n j =>
      obtain ⟨h0, h1, h2, h3, h4, h5⟩ := h
      exact ⟨h0, h1, g.onLevel h2, fun x hx => (h3 x hx).grow g, fun x hx => (h4 x hx).grow g,
        fun x hx => (h5 x hx).grow g⟩
    | info todo acc =>
      obtain ⟨h1, h2, h3, h4⟩ := h
      exact ⟨fun x hx => (h1 x hx).grow g, fun x hx => (h2 x hx).grow g, h3, h4⟩

/-- One statement of a search: the invariant, and when it raises. -/
theorem stepSr_ok {env : HParEnv V D} {ops : Nat → HOp V M} {s0 s : HPar V M D} (hg : Glob env ops s0 s)
    {q : V} {k₀ : Int} (hk : 0 ≤ k₀) {p : HSr M D} (h : SrOk env q k₀ s p) :
    SearchOk env q k₀ s (stepSr env q k₀ s p) ∧
    (stepSr env q k₀ s p = .done .raised →
      (∃ k cl n d, p = .next k cl n ∧ s.levels[cl]? = some d ∧ d.length ≠ n) ∨
      ∃ id v e, s.vectors.get? id = some v ∧ env.dist q v = .error e) := by
  have hsub : ∀ (l : List (Id × D)) (n : Int), (∀ x ∈ l, Cand env q s x) →
      ∀ x ∈ sliceTo (pySortBy Prod.snd l) n, Cand env q s x := by
    intro l n hl x hx
    have := (sliceTo_sublist _ _).subset hx
    rw [(pySortBy_perm _ _).mem_iff] at this
    exact hl x this
  cases p with
  | limit =>
    refine ⟨⟨?_, min_le_left _ _⟩, fun hc => by cases hc⟩
    exact le_min hk (Int.natCast_nonneg _)
  | topMax k => exact ⟨h, fun hc => by cases hc⟩
  | topLen k mx =>
    refine ⟨⟨h.1, h.2, ?_⟩, fun hc => by cases hc⟩
    have := List.length_pos_of_ne_nil hg.nonempty
    have := Nat.min_le_right mx (s.levels.length - 1)
    omega
  | top k cl =>
    obtain ⟨h0, h1, h2⟩ := h
    simp only [stepSr, List.getElem?_eq_getElem h2]
    split
    · exact ⟨⟨h0, h1, h2, by simp, by simp, by simp⟩, fun hc => by cases hc⟩
    · rename_i hne
      refine ⟨⟨h0, h1, ?_⟩, fun hc => by cases hc⟩
      cases hd : s.levels[cl] with
      | nil => rw [hd] at hne; simp at hne
      | cons e d =>
        refine ⟨e.1, ?_⟩
        unfold HPar.onLevel HPar.nodeOf
        rw [List.getElem?_eq_getElem h2, hd]
        simp [Dict.get?]
  | iter k cl =>
    obtain ⟨h0, h1, x, hx⟩ := h
    have h2 := onLevel_lt hx
    simp only [stepSr, List.getElem?_eq_getElem h2]
    refine ⟨⟨h0, h1, ⟨x, hx⟩, ?_⟩, fun hc => by cases hc⟩
    intro hc
    have : s.levels[cl] = [] := List.length_eq_zero_iff.1 hc
    unfold HPar.onLevel HPar.nodeOf at hx
    rw [List.getElem?_eq_getElem h2, this] at hx
    cases hx
  | next k cl n =>
    obtain ⟨h0, h1, ⟨x, hx⟩, hn⟩ := h
    have h2 := onLevel_lt hx
    simp only [stepSr, List.getElem?_eq_getElem h2]
    by_cases hl : (s.levels[cl]).length = n
    · rw [if_neg (fun hc => hc hl)]
      cases hd : s.levels[cl] with
      | nil => rw [hd] at hl; exact absurd hl.symm hn
      | cons e d =>
        refine ⟨⟨h0, h1, ?_⟩, fun hc => by cases hc⟩
        unfold HPar.onLevel HPar.nodeOf
        rw [List.getElem?_eq_getElem h2, hd]
        simp [Dict.get?]
    · rw [if_pos hl]
      exact ⟨trivial, fun _ => .inl ⟨k, cl, n, _, rfl, List.getElem?_eq_getElem h2, hl⟩⟩
  | entry k cl e =>
    obtain ⟨h0, h1, h2⟩ := h
    obtain ⟨v, hv⟩ := Option.isSome_iff_exists.1 (hg.nodeVec cl e h2)
    simp only [stepSr, hv]
    cases hd : env.dist q v with
    | error x => exact ⟨trivial, fun _ => .inr ⟨e, v, x, hv, hd⟩⟩
    | ok d =>
      have hc : ∀ x ∈ [(e, d)], Cand env q s x := by
        intro x hx
        simp only [List.mem_singleton] at hx
        subst hx
        exact ⟨v, hv, hd⟩
      exact ⟨⟨h0, h1, onLevel_lt h2, hc, hc, by simp⟩, fun hc => by cases hc⟩
  | walk k cl cands todo found =>
    obtain ⟨h0, h1, h2, h3, h4, h5⟩ := h
    cases todo with
    | nil =>
      simp only [stepSr]
      cases cl with
      | zero =>
        refine ⟨?_, fun hc => by cases hc⟩
        simp only [roundEnd]
        have hc : ∀ x ∈ cands ++ found, Cand env q s x := fun x hx =>
          (List.mem_append.1 hx).elim (h3 x) (h5 x)
        refine ⟨hsub _ _ hc, by simp, ?_, ?_⟩
        · simp only [List.map_nil, List.nil_append, List.pairwise_map]
          exact (pySortBy_sorted Prod.snd _).sublist (sliceTo_sublist _ _)
        · rw [sliceTo_nonneg _ h0]
          simp only [List.length_nil, List.length_take, Nat.zero_add]
          omega
      | succ cl =>
        simp only [roundEnd]
        exact ⟨⟨h0, h1, by omega, hsub _ _ h5, hsub _ _ h5, by simp⟩, fun hc => by cases hc⟩
    | cons x todo =>
      obtain ⟨n, d0⟩ := x
      simp only [stepSr, List.getElem?_eq_getElem h2]
      have h4' : ∀ x ∈ todo, Cand env q s x := fun x hx => h4 x (List.mem_cons_of_mem _ hx)
      split
      · rename_i hm
        refine ⟨⟨h0, h1, ?_, h3, h4', h5⟩, fun hc => by cases hc⟩
        unfold HPar.onLevel HPar.nodeOf
        rw [List.getElem?_eq_getElem h2]
        exact hm
      · exact ⟨⟨h0, h1, h2, h3, h4', h5⟩, fun hc => by cases hc⟩
  | nbr k cl cands todo found n j =>
    obtain ⟨h0, h1, h2, h3, h4, h5⟩ := h
    obtain ⟨ns, hns⟩ := Option.isSome_iff_exists.1 h2
    simp only [stepSr, hns]
    cases hj : ns[j]? with
    | none => exact ⟨⟨h0, h1, onLevel_lt h2, h3, h4, h5⟩, fun hc => by cases hc⟩
    | some nb =>
      simp only
      cases hv : s.vectors.get? nb with
      | none => exact ⟨⟨h0, h1, h2, h3, h4, h5⟩, fun hc => by cases hc⟩
      | some v =>
        simp only
        cases hd : env.dist q v with
        | error x => exact ⟨trivial, fun _ => .inr ⟨nb, v, x, hv, hd⟩⟩
        | ok d =>
          refine ⟨⟨h0, h1, h2, h3, h4, ?_⟩, fun hc => by cases hc⟩
          intro x hx
          rcases List.mem_append.1 hx with hx | hx
          · exact h5 x hx
          · simp only [List.mem_singleton] at hx
            subst hx
            exact ⟨v, hv, hd⟩
  | info todo acc =>
    obtain ⟨h1, h2, h3, h4⟩ := h
    cases todo with
    | nil =>
      refine ⟨⟨h2, by simpa using h3, by simpa using h4⟩, fun hc => by cases hc⟩
    | cons x todo =>
      obtain ⟨id, d⟩ := x
      obtain ⟨v, hv, hd⟩ := h1 (id, d) (by simp)
      obtain ⟨m, hm⟩ := hg.vecStore id v hv
      simp only [stepSr, hm]
      refine ⟨⟨fun x hx => h1 x (List.mem_cons_of_mem _ hx), ?_, ?_, ?_⟩, fun hc => by cases hc⟩
      · intro x hx
        rcases List.mem_append.1 hx with hx | hx
        · exact h2 x hx
        · simp only [List.mem_singleton] at hx
          subst hx
          exact ⟨v, hm, hd⟩
      · simpa using h3
      · simp only [List.length_append, List.length_cons, List.length_nil] at h4 ⊢
        omega

/-- The invariant of a run with searches. -/
structure SInv (env : HParEnv V D) (ops : Nat → HOp V M) (s0 s : HPar V M D) : Prop where
  base : HInv env ops s0 s
  srch : ∀ t q k, 0 ≤ k → ops t = .search q k → SearchOk env q k s (s.thr t)

theorem sinv_step {env : HParEnv V D} {ops : Nat → HOp V M} {s0 s : HPar V M D} {old : List Id}
    (hf : Props.FreshRows (fun t => (ops t).rows) old) (hold : ∀ id, (s0.store.get? id).isSome → id ∈ old)
    (h : SInv env ops s0 s) (t : Nat) : SInv env ops s0 (step env ops s t) ∧ Grow s (step env ops s t) := by
  have fin : ∀ s', Good env ops s0 s s' t → (∀ q k, 0 ≤ k → ops t = .search q k → SearchOk env q k s' (s'.thr t)) →
      SInv env ops s0 s' ∧ Grow s s' := by
    intro s' g hs
    refine ⟨⟨g.inv h.base, fun t' q k hk ho => ?_⟩, g.grow⟩
    by_cases e : t' = t
    · subst e; exact hs q k hk ho
    · rw [g.thr t' e]; exact (h.srch t' q k hk ho).grow g.grow
  have move : ∀ a : HAt M D, notMid (s.thr t) → (∀ q k, 0 ≤ k → ops t = .search q k → SearchOk env q k s a) →
      (∀ rows, ops t = .insert rows → InsOk env s0.maxLevel rows s t a) →
      SInv env ops s0 { s with thr := Function.update s.thr t a } ∧ Grow s { s with thr := Function.update s.thr t a } := by
    intro a hm h1 h2
    have g := good_move h.base s.count a hm h2
    refine fin _ g fun q k hk ho => ?_
    simp only [Function.update_self]
    exact (h1 q k hk ho).grow g.grow
  unfold step
  cases ho : ops t with
  | insert rows =>
    cases ht : s.thr t with
    | start =>
      refine move _ (by rw [ht]; trivial) (fun q k _ hc => by rw [ho] at hc; cases hc) fun rows' ho' => ?_
      exact ⟨Nat.zero_le _, fun j hj => absurd hj (Nat.not_lt_zero _), fun hc => absurd rfl hc⟩
    | ins i p => exact fin _ (good_ins hf hold h.base ho ht) fun q k _ hc => by rw [ho] at hc; cases hc
    | srch p => exact ⟨h, .rfl' s⟩
    | done r => exact ⟨h, .rfl' s⟩
  | search q k =>
    cases ht : s.thr t with
    | start =>
      refine move _ (by rw [ht]; trivial) (fun q' k' hk' ho' => ?_) (fun rows hc => by rw [ho] at hc; cases hc)
      rw [ho] at ho'
      cases ho'
      split
      · exact ⟨by simp, by simp, by simpa using hk'⟩
      · trivial
    | ins i p => exact ⟨h, .rfl' s⟩
    | srch p =>
      refine move _ (by rw [ht]; trivial) (fun q' k' hk' ho' => ?_) (fun rows hc => by rw [ho] at hc; cases hc)
      have hs := h.srch t q' k' hk' ho'
      rw [ho] at ho'
      cases ho'
      rw [ht] at hs
      exact (stepSr_ok h.base.glob hk' hs).1
    | done r => exact ⟨h, .rfl' s⟩

theorem sinv_run {env : HParEnv V D} {ops : Nat → HOp V M} {s0 : HPar V M D} {old : List Id}
    (hf : Props.FreshRows (fun t => (ops t).rows) old) (hold : ∀ id, (s0.store.get? id).isSome → id ∈ old)
    (sched : List Nat) : ∀ s, SInv env ops s0 s → SInv env ops s0 (run env ops s sched) := by
  unfold run
  induction sched with
  | nil => exact fun s h => h
  | cons t ts ih => exact fun s h => ih _ (sinv_step hf hold h t).1

end HPar
end Valori
