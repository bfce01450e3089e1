import Verif.Lemmas.Hnsw
import Verif.Spec.HnswDrawn

/-!
# Levels of an HNSW index after a history
-/

namespace Valori.Hnsw.Dr
open Spec

variable {σ V M D : Type} {B : Backend σ V M} {okId : Id → Prop} {okM : M → Prop}
  {L : Lawful B okId okM} {live : List (Item V M)}

/-- Level `i`, empty when there is none. -/
def lv (f : Hnsw V) (i : Nat) : Level := (f.levels[i]?).getD []

/-- The level of a draw. -/
def lvlOf (env : HnswEnv V D) (i : Nat) : Nat := min (env.rnd i).level 10

theorem onLevels_get (g : Nat → Level → Level) (level : Nat) (ds : List Level) :
    ∀ (l i : Nat), (onLevels g level l ds)[i]? =
      ds[i]?.map fun d => if l + i ≤ level then g (l + i) d else d := by
  induction ds with
  | nil => intro l i; simp [onLevels]
  | cons d ds ih =>
    intro l i
    cases i with
    | zero => simp [onLevels]
    | succ i =>
      simp only [onLevels, List.getElem?_cons_succ, ih]
      congr 1
      funext d
      rw [show l + 1 + i = l + (i + 1) by omega]

theorem onLevels_length (g : Nat → Level → Level) (level : Nat) (ds : List Level) :
    ∀ l : Nat, (onLevels g level l ds).length = ds.length := by
  induction ds with
  | nil => intro l; rfl
  | cons d ds ih => intro l; simp [onLevels, ih]

theorem pad_get (levels : List Level) (level i : Nat) (h : i ≤ level) :
    (pad levels level)[i]? = some ((levels[i]?).getD []) := by
  simp only [pad]
  by_cases hi : i < levels.length
  · rw [List.getElem?_append_left hi, List.getElem?_eq_getElem hi]; rfl
  · rw [List.getElem?_append_right (by omega), List.getElem?_replicate,
      if_pos (by omega), List.getElem?_eq_none (by omega)]
    rfl

theorem pad_get_above (levels : List Level) (level i : Nat) (h : level < i) :
    (pad levels level)[i]? = levels[i]? := by
  simp only [pad]
  by_cases hi : i < levels.length
  · rw [List.getElem?_append_left hi]
  · rw [List.getElem?_append_right (by omega), List.getElem?_replicate,
      if_neg (by omega), List.getElem?_eq_none (by omega)]

theorem lv_insert (env : HnswEnv V D) (id : Id) (v : V) (f : Hnsw V) (i : Nat) :
    lv (insertInternal env id v f) i =
      if i ≤ lvlOf env f.draws then insertLevel id ((env.rnd f.draws).pick i) (lv f i) else lv f i := by
  by_cases h : i ≤ lvlOf env f.draws
  · rw [if_pos h]
    simp only [lvlOf] at h
    simp only [lv, insertInternal, onLevels_get, Nat.zero_add, pad_get _ _ _ h, Option.map_some,
      Option.getD_some, if_pos h]
  · rw [if_neg h]
    simp only [lvlOf] at h
    simp only [lv, insertInternal, onLevels_get, Nat.zero_add, if_neg h]
    rw [pad_get_above _ _ _ (by omega)]
    simp

theorem insert_levels_length (env : HnswEnv V D) (id : Id) (v : V) (f : Hnsw V) :
    (insertInternal env id v f).levels.length = max f.levels.length (lvlOf env f.draws + 1) := by
  simp only [insertInternal, onLevels_length, pad, List.length_append, List.length_replicate, lvlOf]
  omega

theorem remove_levels (id : Id) (f : Hnsw V) :
    (removeInternal id f).levels = f.levels.map (removeLevel id) := by
  simp only [removeInternal]; split <;> rfl

theorem lv_remove (id : Id) (f : Hnsw V) (i : Nat) :
    lv (removeInternal id f) i = removeLevel id (lv f i) := by
  simp only [lv, remove_levels, List.getElem?_map]
  cases f.levels[i]? with
  | none => simp [removeLevel, Dict.mem]
  | some d => rfl

/-- The levels are those drawn. -/
structure Lev (env : HnswEnv V D) (g : Drawn) (f : Hnsw V) : Prop where
  draws : f.draws = g.draws
  top : f.maxLevel = g.top
  len : f.levels.length = g.top + 1
  ok : ∀ i, GraphOk (lv f i)
  keys : ∀ i, (lv f i).keys = g.on i

theorem Lev.insert {env : HnswEnv V D} {g : Drawn} {f : Hnsw V} (h : Lev env g f) (id : Id)
    (hid : id ∉ g.on 0) (v : V) : Lev env (g.add (lvlOf env) id) (insertInternal env id v f) := by
  have hnot : ∀ i, id ∉ g.on i := by
    intro i hi
    apply hid
    simp only [Drawn.on, List.mem_map, List.mem_filter] at hi ⊢
    obtain ⟨p, ⟨h1, -⟩, h2⟩ := hi
    exact ⟨p, ⟨h1, by simp⟩, h2⟩
  refine ⟨by simp [insertInternal, Drawn.add, h.draws], ?_, ?_, ?_, ?_⟩
  · simp [insertInternal, Drawn.add, h.top, h.draws, lvlOf]
  · rw [insert_levels_length, h.len, h.draws]
    simp only [Drawn.add]; omega
  · intro i
    rw [lv_insert]
    split
    · exact ((h.ok i).insertLevel id _).1
    · exact h.ok i
  · intro i
    rw [lv_insert, h.draws]
    simp only [Drawn.on, Drawn.add, List.filter_append, List.map_append]
    split
    · rename_i hle
      rw [((h.ok i).insertLevel id _).2, h.keys, if_neg (hnot i)]
      simp [Drawn.on, hle]
    · rename_i hle
      rw [h.keys]
      simp [Drawn.on, hle]

theorem Lev.remove {env : HnswEnv V D} {g : Drawn} {f : Hnsw V} (h : Lev env g f) (id : Id) :
    Lev env { g with nodes := g.nodes.filter fun p => p.1 ≠ id } (removeInternal id f) := by
  refine ⟨?_, ?_, ?_, ?_, ?_⟩
  · rw [← h.draws]; simp only [removeInternal]; split <;> rfl
  · rw [← h.top]; simp only [removeInternal]; split <;> rfl
  · rw [remove_levels, List.length_map, h.len]
  · intro i; rw [lv_remove]; exact ((h.ok i).removeLevel id).1
  · intro i
    rw [lv_remove, ((h.ok i).removeLevel id).2.1, (h.ok i).keys.erase_eq_filter, h.keys]
    simp only [Drawn.on, List.filter_map, List.filter_filter]
    congr 1
    apply List.filter_congr
    intro p _
    by_cases hp : p.1 = id <;> simp [Function.comp, hp]

/-- All nodes of a level are linked, on every level. -/
def Full (f : Hnsw V) : Prop := ∀ i, Clique (lv f i).keys (lv f i)

theorem Full.insert {env : HnswEnv V D} {m : Nat} (hp : SampleAll env m) {g : Drawn} {f : Hnsw V}
    (h : Lev env g f) (hf : Full f) (id : Id) (hid : id ∉ g.on 0) (hm : (g.on 0).length + 1 ≤ m) (v : V) :
    Full (insertInternal env id v f) := by
  intro i
  have hle : (g.on i).length ≤ (g.on 0).length := by
    simp only [Drawn.on, List.length_map]
    refine List.Sublist.length_le ?_
    refine List.monotone_filter_right _ ?_
    intro p _
    simp
  have hnot : id ∉ g.on i := by
    intro hi
    apply hid
    simp only [Drawn.on, List.mem_map, List.mem_filter] at hi ⊢
    obtain ⟨p, ⟨h1, -⟩, h2⟩ := hi
    exact ⟨p, ⟨h1, by simp⟩, h2⟩
  rw [lv_insert]
  split
  · rw [((h.ok i).insertLevel id _).2, if_neg (by rw [h.keys]; exact hnot)]
    refine (hf i).insertLevel rfl (h.ok i).keys (by rw [h.keys]; exact hnot) (hp f.draws i) ?_
    rw [h.keys]; omega
  · exact hf i

theorem Full.remove {env : HnswEnv V D} {g : Drawn} {f : Hnsw V} (h : Lev env g f) (hf : Full f)
    (id : Id) : Full (removeInternal id f) := by
  intro i
  rw [lv_remove]
  intro a ha b hb hab
  obtain ⟨-, hk, hn⟩ := (h.ok i).removeLevel id
  rw [hk, (h.ok i).keys.mem_erase_iff] at ha hb
  exact hn b a hb.1 ha.1 (hf i a ha.2 b hb.2 hab)

/-! ## Histories -/

theorem insertLoop_fold (env : HnswEnv V D) (mds : Option (List (Option M))) (rows : List (Id × V)) :
    ∀ (i : Nat) (f f' : Hnsw V) (s s' : σ) (l : List Id),
      insertLoop env B mds i rows f s = (.ok l, f', s') →
      f' = rows.foldl (fun f r => insertInternal env r.1 r.2 f) f := by
  induction rows with
  | nil => intro i f f' s s' l h; simp only [insertLoop, Prod.mk.injEq] at h; exact h.2.1.symm
  | cons r rows ih =>
    obtain ⟨id, v⟩ := r
    intro i f f' s s' l h
    simp only [insertLoop] at h
    split at h
    · simp at h
    · split at h
      · rename_i hr
        simp only [Prod.mk.injEq] at h
        obtain ⟨-, rfl⟩ := h
        exact ih _ _ _ _ _ _ hr
      · simp at h

theorem deleteLoop_fold (dels : List Id) : ∀ (ok b : Bool) (f f' : Hnsw V) (s s' : σ),
    deleteLoop B dels ok f s = (.ok b, f', s') →
    f' = dels.foldl (fun f id => removeInternal id f) f := by
  induction dels with
  | nil => intro ok b f f' s s' h; simp only [deleteLoop, Prod.mk.injEq] at h; exact h.2.1.symm
  | cons id dels ih =>
    intro ok b f f' s s' h
    simp only [deleteLoop] at h
    split at h
    · simp at h
    · exact ih _ _ _ _ _ _ h

theorem lev_fold {env : HnswEnv V D} (rows : List (Id × V)) : ∀ {g : Drawn} {f : Hnsw V}, Lev env g f →
    (rows.map Prod.fst).Nodup → (∀ r ∈ rows, r.1 ∉ g.on 0) →
    Lev env (rows.foldl (fun g r => g.add (lvlOf env) r.1) g)
      (rows.foldl (fun f r => insertInternal env r.1 r.2 f) f) ∧
    ∀ m, SampleAll env m → (g.on 0).length + rows.length ≤ m → Full f →
      Full (rows.foldl (fun f r => insertInternal env r.1 r.2 f) f) := by
  induction rows with
  | nil => intro g f h _ _; exact ⟨h, fun _ _ _ hf => hf⟩
  | cons r rows ih =>
    intro g f h hnd hr
    simp only [List.map_cons, List.nodup_cons] at hnd
    have h1 := hr r (by simp)
    have hon : (g.add (lvlOf env) r.1).on 0 = g.on 0 ++ [r.1] := by simp [Drawn.on, Drawn.add]
    obtain ⟨i1, i2⟩ := ih (h.insert r.1 h1 r.2) hnd.2 (by
      intro x hx
      rw [hon, List.mem_append, List.mem_singleton]
      rintro (hx' | hx')
      · exact hr x (by simp [hx]) hx'
      · exact hnd.1 (hx' ▸ List.mem_map.2 ⟨x, hx, rfl⟩))
    refine ⟨i1, ?_⟩
    intro m hp hm hf
    refine i2 m hp ?_ (Full.insert hp h hf r.1 h1 ?_ r.2)
    · rw [hon]; simp only [List.length_append, List.length_cons, List.length_nil] at hm ⊢; omega
    · simp only [List.length_cons] at hm; omega

theorem lev_remove_fold {env : HnswEnv V D} (dels : List Id) : ∀ {g : Drawn} {f : Hnsw V}, Lev env g f →
    Lev env { g with nodes := g.nodes.filter fun p => p.1 ∉ dels }
      (dels.foldl (fun f id => removeInternal id f) f) ∧
    (Full f → Full (dels.foldl (fun f id => removeInternal id f) f)) := by
  induction dels with
  | nil =>
    intro g f h
    have : ({ g with nodes := g.nodes.filter fun p => p.1 ∉ ([] : List Id) } : Drawn) = g := by
      simp
    rw [this]
    exact ⟨h, id⟩
  | cons x dels ih =>
    intro g f h
    obtain ⟨i1, i2⟩ := ih (h.remove x)
    refine ⟨?_, fun hf => i2 (Full.remove h hf x)⟩
    have : (g.nodes.filter fun p => p.1 ≠ x).filter (fun p => p.1 ∉ dels) =
        g.nodes.filter fun p => p.1 ∉ x :: dels := by
      rw [List.filter_filter]
      apply List.filter_congr
      intro p _
      by_cases h1 : p.1 = x <;> by_cases h2 : p.1 ∈ dels <;> simp [h1, h2]
    simp only [this] at i1
    exact i1

theorem loadAll_fold (env : HnswEnv V D) {all : List (Item V M)} (hn : (Live.idsOf all).Nodup)
    (todo : List (Item V M)) : ∀ (f : Hnsw V) (s : σ), (∀ x ∈ todo, x ∈ all) → L.inv s →
    L.content s = Live.find all →
    ∃ s', loadAll env B (Live.idsOf todo) f s =
      (.ok (), (todo.map fun x => (x.id, x.vec)).foldl (fun f r => insertInternal env r.1 r.2 f) f, s') := by
  induction todo with
  | nil => intro f s _ _ _; exact ⟨s, rfl⟩
  | cons x todo ih =>
    intro f s ha hs hc
    have hf : L.content s x.id = some (x.vec, x.md) := by rw [hc]; exact Live.find_mem hn (ha x (by simp))
    obtain ⟨s1, e1, i1, c1⟩ := L.retrieve hs (L.dom hs (by rw [hf]; rfl))
    obtain ⟨s', e⟩ := ih (insertInternal env x.id x.vec f) s1 (fun y hy => ha y (by simp [hy])) i1
      (by rw [c1, hc])
    refine ⟨s', ?_⟩
    simp only [Live.idsOf, List.map_cons, loadAll, e1, hf] at e ⊢
    exact e

theorem on_zero (g : Drawn) : g.on 0 = g.nodes.map Prod.fst := by simp [Drawn.on]

theorem Lev.on_live {env : HnswEnv V D} {g : Drawn} {f : Hnsw V} (h : Lev env g f) (hg : Gr live f) :
    g.on 0 = Live.idsOf live := by
  rw [← h.keys 0]
  exact hg.base_keys.1

theorem fold_live (lvl : Nat → Nat) (live : List (Item V M)) : ∀ g : Drawn,
    (live.map fun x => (x.id, x.vec)).foldl (fun g r => g.add lvl r.1) g =
      live.foldl (fun g x => g.add lvl x.id) g := by
  induction live with
  | nil => intro g; rfl
  | cons x live ih => intro g; simp only [List.map_cons, List.foldl_cons]; exact ih _

theorem init_lev (env : HnswEnv V D) {s s' : σ} (hn : (Live.idsOf live).Nodup)
    (hl : B.list s none = (.ok (Live.idsOf live), s')) (hs : L.inv s')
    (hc : L.content s' = Live.find live) :
    ∃ t, Hnsw.init env B Hnsw.new s = (.ok (), t) ∧
      Lev env (Drawn.after (V := V) (M := M) (lvlOf env) live []) t.1 ∧
      ∀ n, SampleAll env n → live.length ≤ n → Full t.1 := by
  set f0 : Hnsw V := { (Hnsw.new : Hnsw V) with inited := true, levels := [[]] } with hf0
  have hlv : ∀ i, lv f0 i = [] := by
    intro i
    cases i <;> simp [lv, hf0]
  have h0 : Lev env ⟨[], 0, 0⟩ f0 :=
    ⟨rfl, rfl, rfl, fun i => by rw [hlv]; exact GraphOk.empty, fun i => by rw [hlv]; rfl⟩
  have hfull : Full f0 := by
    intro i a ha; rw [hlv] at ha; simp [Dict.keys] at ha
  obtain ⟨s2, e⟩ := loadAll_fold env hn live f0 s' (fun x hx => hx) hs hc
  obtain ⟨i1, i2⟩ := lev_fold (live.map fun x => (x.id, x.vec)) h0 (by
    rw [List.map_map]; exact hn) (by intro r _; simp [Drawn.on])
  rw [fold_live] at i1
  refine ⟨(_, s2), by simp only [Hnsw.init, hl]; rw [← hf0, e], i1, ?_⟩
  intro n hp hle
  exact i2 n hp (by simpa [Drawn.on] using hle) hfull

variable [LinearOrder D]

theorem Lev.call {env : HnswEnv V D} {t : Hnsw V × σ} (h : Inv L live t) {g : Drawn}
    (hl : Lev env g t.1) (c : IxCall V M) (hc : Live.CallOk okId okM live c) :
    Lev env (Drawn.next (lvlOf env) g c) (Hnsw.call env B t c).2.1 ∧
      ∀ n, SampleAll env n → (Live.next live c).length ≤ n → Full t.1 →
        Full (Hnsw.call env B t c).2.1 := by
  obtain ⟨f, s⟩ := t
  have hi : f.inited = true := h.gr.inited
  have hon := hl.on_live h.gr
  cases c with
  | insert nd rows mds =>
    by_cases hnd : nd = 2
    · subst hnd
      obtain ⟨h1, h2, h3⟩ := hc
      obtain ⟨f', s', e, c, -⟩ := insertLoop_spec env mds h3 rows 0 live f s h h1 h2
      have e' : Hnsw.insert env B 2 rows mds f s = (.ok (rows.map Prod.fst), f', s') := by
        simp [Hnsw.insert, hi, e]
      have hf' := insertLoop_fold _ _ _ _ _ _ _ _ _ e
      simp only [Hnsw.call, e', Live.next, if_true, Drawn.next]
      obtain ⟨i1, i2⟩ := lev_fold rows hl h1 (by
        intro r hr
        rw [hon]
        exact Live.has_false_iff.1 (h2 r hr).2.2)
      rw [hf']
      refine ⟨i1, fun n hp hn hF => i2 n hp ?_ hF⟩
      rw [hon]
      simpa [Flat.items_length, Live.idsOf] using hn
    · have e : Hnsw.insert env B nd rows mds f s = (.error .index, f, s) := by
        simp [Hnsw.insert, hi, hnd]
      simp only [Hnsw.call, e, Live.next, hnd, if_false, Drawn.next]
      exact ⟨hl, fun _ _ _ hc => hc⟩
  | delete ids =>
    obtain ⟨f', s', e, c, -⟩ := deleteLoop_spec ids true live f s h hc
    have e' : Hnsw.delete B ids f s = (.ok (Live.removeAll live ids).1, f', s') := by
      simp [Hnsw.delete, hi, e]
    have hf' := deleteLoop_fold _ _ _ _ _ _ _ e
    simp only [Hnsw.call, e', Drawn.next]
    rw [hf']
    obtain ⟨i1, i2⟩ := lev_remove_fold ids hl
    exact ⟨i1, fun _ _ _ => i2⟩
  | update id v m =>
    have hsame : (Hnsw.call env B (f, s) (.update id v m)).2.1.levels = f.levels ∧
        (Hnsw.call env B (f, s) (.update id v m)).2.1.maxLevel = f.maxLevel ∧
        (Hnsw.call env B (f, s) (.update id v m)).2.1.draws = f.draws := by
      simp only [Hnsw.call, Hnsw.update, hi]
      rcases B.update s id v m with ⟨_ | _ | _, s1⟩
      · simp
      · simp
      · by_cases hm : f.vectors.mem id = true <;> simp [hm]
    obtain ⟨a1, a2, a3⟩ := hsame
    have hlv : ∀ i, lv (Hnsw.call env B (f, s) (.update id v m)).2.1 i = lv f i := by
      intro i; simp only [lv, a1]
    refine ⟨⟨a3.trans hl.draws, a2.trans hl.top, (congrArg List.length a1).trans hl.len,
      fun i => by rw [hlv]; exact hl.ok i, fun i => by rw [hlv]; exact hl.keys i⟩, ?_⟩
    intro n _ _ hF i
    rw [hlv]; exact hF i
  | search nd q k =>
    have hf : (Hnsw.call env B (f, s) (.search nd q k)).2.1 = f := by
      by_cases hnd : nd = 1
      · subst hnd
        obtain ⟨r, s', e, -⟩ := h.search (env := env) q k
        simp only [Hnsw.call, e]
        cases r <;> rfl
      · have e : Hnsw.search env B nd q k f s = (.error .index, f, s) := by
          simp [Hnsw.search, hi, hnd]
        simp only [Hnsw.call, e]
    rw [hf]
    exact ⟨hl, fun _ _ _ hc => hc⟩

theorem Lev.run {env : HnswEnv V D} {t : Hnsw V × σ} (h : Inv L live t) {g : Drawn} (hl : Lev env g t.1)
    (cs : List (IxCall V M)) (hc : Live.HistOk okId okM live cs) :
    Lev env (cs.foldl (Drawn.next (lvlOf env)) g) (Hnsw.run env B t cs).2.1 ∧
      ∀ n, SampleAll env n → (∀ p, p <+: cs → (Live.after live p).length ≤ n) → Full t.1 →
        Full (Hnsw.run env B t cs).2.1 := by
  induction cs generalizing live t g with
  | nil => exact ⟨hl, fun _ _ _ hf => hf⟩
  | cons c cs ih =>
    obtain ⟨c1, c2⟩ := Lev.call (env := env) h hl c hc.1
    obtain ⟨i1, i2⟩ := ih (h.call (env := env) c hc.1).1 c1 hc.2
    refine ⟨i1, fun n hp hn hF => i2 n hp ?_ (c2 n hp (hn [c] (by simp)) hF)⟩
    intro p hp'
    exact hn (c :: p) (by simpa using hp')

/-! ## Searches -/

/-- A top level with at most one node leads nowhere. -/
theorem candidates_lone {env : HnswEnv V D} {q : V} {f : Hnsw V} {g : Drawn} (hl : Lev env g f)
    (ht : 1 ≤ g.top) (h1 : (g.on g.top).length ≤ 1) {c : List (Id × D)}
    (hv : f.vectors = vecs live) (hc : candidates env q f = .ok c) : c = [] := by
  simp only [candidates] at hc
  have hcur : min f.maxLevel (f.levels.length - 1) = g.top := by
    rw [hl.top, hl.len]; omega
  rw [hcur] at hc
  change (match entry env q f (lv f g.top) with
    | .error e => _ | .ok c0 => _) = _ at hc
  cases he : entry env q f (lv f g.top) with
  | error e => rw [he] at hc; cases hc
  | ok c0 =>
    rw [he] at hc
    simp only at hc
    obtain ⟨T, hT⟩ : ∃ T, g.top = T + 1 := ⟨g.top - 1, by omega⟩
    have hk : ∀ x ∈ c0, x.1 ∈ (lv f g.top).keys := by
      intro x hx
      have : x.1 ∈ c0.map Prod.fst := List.mem_map.2 ⟨x, hx, rfl⟩
      rw [(entry_spec hv he).2] at this
      exact List.mem_of_mem_take this
    have hnb : ∀ n ∈ (lv f g.top).keys, nbrs (lv f g.top) n = [] := by
      intro n hn
      rw [List.eq_nil_iff_forall_not_mem]
      intro x hx
      have hx' := (hl.ok g.top).nbr_key hx
      have hne : x ≠ n := fun e => (hl.ok g.top).irr n (e ▸ hx)
      rw [hl.keys] at hn hx'
      match hon : g.on g.top with
      | [] => rw [hon] at hn; simp at hn
      | [a] =>
        rw [hon] at hn hx'
        simp only [List.mem_singleton] at hn hx'
        exact hne (hx'.trans hn.symm)
      | a :: b :: r => rw [hon] at h1; simp at h1
    have hexp : expand (env.dist q) f.vectors (lv f g.top) c0 = .ok [] := by
      clear he hc
      induction c0 with
      | nil => rfl
      | cons x c0 ih =>
        obtain ⟨n, d⟩ := x
        have e1 : nbrs (lv f g.top) n = [] := hnb n (hk (n, d) (by simp))
        simp only [expand, e1, scanNbrs, ih (fun y hy => hk y (by simp [hy])), List.append_nil]
    have hdesc : ∀ l, descend env q f l [] = .ok [] := by
      intro l
      induction l with
      | zero => rfl
      | succ l ih =>
        simp only [descend, expand]
        have : sliceTo (pySortBy Prod.snd ([] : List (Id × D))) env.efSearch = [] := by
          simp [sliceTo, pySortBy]
        rw [this, ih]
    have : descend env q f g.top c0 = .ok [] := by
      rw [hT] at hexp ⊢
      simp only [descend]
      change (match expand (env.dist q) f.vectors (lv f (T + 1)) c0 with
        | .error e => _ | .ok new => _) = _
      rw [hexp]
      have : sliceTo (pySortBy Prod.snd ([] : List (Id × D))) env.efSearch = [] := by
        simp [sliceTo, pySortBy]
      simp only [this, hdesc]
    rw [this] at hc
    simpa using hc.symm

theorem on_mono (g : Drawn) {i j : Nat} (h : i ≤ j) : ∀ x ∈ g.on j, x ∈ g.on i := by
  intro x hx
  simp only [Drawn.on, List.mem_map, List.mem_filter, decide_eq_true_eq] at hx ⊢
  obtain ⟨p, ⟨h1, h2⟩, h3⟩ := hx
  exact ⟨p, ⟨h1, h.trans h2⟩, h3⟩

omit [LinearOrder D] in
theorem Full.nbrs_perm {env : HnswEnv V D} {f : Hnsw V} {g : Drawn} (hl : Lev env g f) (hF : Full f)
    (i : Nat) {n : Id} (hn : n ∈ g.on i) : (nbrs (lv f i) n).Perm ((g.on i).erase n) := by
  have hnd : (g.on i).Nodup := by rw [← hl.keys]; exact (hl.ok i).keys
  rw [List.perm_ext_iff_of_nodup ((hl.ok i).nd n) (hnd.erase n)]
  intro x
  rw [hnd.mem_erase_iff]
  constructor
  · intro hx
    refine ⟨fun e => (hl.ok i).irr n (e ▸ hx), ?_⟩
    rw [← hl.keys]; exact (hl.ok i).nbr_key hx
  · rintro ⟨h1, h2⟩
    rw [← hl.keys] at h2 hn
    exact hF i x h2 n hn h1

omit [LinearOrder D] in
theorem Full.expand_ids {env : HnswEnv V D} {f : Hnsw V} {g : Drawn} (hl : Lev env g f)
    (hg : Gr live f) (dist : V → Except Err D) (i : Nat) {cs c : List (Id × D)}
    (hc : expand dist f.vectors (lv f i) cs = .ok c) :
    c.map Prod.fst = cs.flatMap (fun x => nbrs (lv f i) x.1) ∧ ∀ x ∈ c, x.1 ∈ g.on i := by
  rw [hg.vec] at hc
  have h2 := (expand_spec hc).2
  rw [List.filter_eq_self.2] at h2
  · refine ⟨h2, fun x hx => ?_⟩
    have : x.1 ∈ c.map Prod.fst := List.mem_map.2 ⟨x, hx, rfl⟩
    rw [h2, List.mem_flatMap] at this
    obtain ⟨y, -, hy⟩ := this
    rw [← hl.keys]; exact (hl.ok i).nbr_key hy
  · intro x hx
    rw [List.mem_flatMap] at hx
    obtain ⟨y, -, hy⟩ := hx
    have := (hl.ok i).nbr_key hy
    rw [hl.keys] at this
    have := on_mono g (Nat.zero_le i) x this
    rw [hl.on_live hg] at this
    simpa using this

omit [LinearOrder D] in
theorem Full.expand_length {env : HnswEnv V D} {f : Hnsw V} {g : Drawn} (hl : Lev env g f) (hF : Full f)
    (hg : Gr live f) (dist : V → Except Err D) (i : Nat) {cs c : List (Id × D)}
    (hcs : ∀ x ∈ cs, x.1 ∈ g.on i) (hc : expand dist f.vectors (lv f i) cs = .ok c) :
    c.length = cs.length * ((g.on i).length - 1) := by
  have h := congrArg List.length (Full.expand_ids hl hg dist i hc).1
  rw [List.length_map] at h
  rw [h]
  clear h hc
  induction cs with
  | nil => simp
  | cons x cs ih =>
    have hx := hcs x (by simp)
    rw [List.flatMap_cons, List.length_append, ih fun y hy => hcs y (by simp [hy]),
      (Full.nbrs_perm hl hF i hx).length_eq, List.length_erase_of_mem hx, List.length_cons,
      Nat.add_mul, Nat.one_mul, Nat.add_comm]

theorem descend_walk {env : HnswEnv V D} (hef : 0 ≤ env.efSearch) {q : V} {f : Hnsw V} {g : Drawn}
    (hl : Lev env g f) (hF : Full f) (hg : Gr live f) : ∀ (l : Nat) {cs c : List (Id × D)},
    (∀ x ∈ cs, x.1 ∈ g.on l) → descend env q f l cs = .ok c →
    c.length = g.walk env.efSearch.toNat l cs.length ∧ ∀ x ∈ c, x.1 ∈ g.on 0 := by
  intro l
  induction l with
  | zero =>
    intro cs c hcs h
    simp only [descend, Except.ok.injEq] at h
    subst h
    exact ⟨rfl, hcs⟩
  | succ l ih =>
    intro cs c hcs h
    simp only [descend] at h
    cases he : expand (env.dist q) f.vectors (lv f (l + 1)) cs with
    | error e =>
      rw [show ((f.levels[l + 1]?).getD []) = lv f (l + 1) from rfl, he] at h
      cases h
    | ok new =>
      rw [show ((f.levels[l + 1]?).getD []) = lv f (l + 1) from rfl, he] at h
      simp only at h
      have hlen := Full.expand_length hl hF hg _ _ hcs he
      have hmem := (Full.expand_ids hl hg _ _ he).2
      obtain ⟨i1, i2⟩ := ih (by
        intro x hx
        have := (sliceTo_sublist _ _).subset hx
        rw [(pySortBy_perm _ _).mem_iff] at this
        exact on_mono g (Nat.le_succ l) _ (hmem x this)) h
      refine ⟨?_, i2⟩
      rw [i1]
      simp only [Drawn.walk]
      congr 1
      rw [sliceTo_nonneg _ hef, List.length_take, (pySortBy_perm _ _).length_eq, hlen]

theorem perm_interleave {α β : Type} (l : List α) (f : α → β) (g : α → List β) :
    (l.map f ++ l.flatMap g).Perm (l.flatMap fun x => f x :: g x) := by
  induction l with
  | nil => simp
  | cons a l ih =>
    simp only [List.map_cons, List.flatMap_cons, List.cons_append]
    refine List.Perm.cons _ ?_
    rw [← List.append_assoc]
    refine (List.Perm.append_right _ List.perm_append_comm).trans ?_
    rw [List.append_assoc]
    exact List.Perm.append_left _ ih

theorem perm_const {α β : Type} (l : List α) (f : α → List β) (r : List β) (h : ∀ x ∈ l, (f x).Perm r) :
    (l.flatMap f).Perm ((List.replicate l.length r).flatten) := by
  induction l with
  | nil => simp
  | cons a l ih =>
    simp only [List.flatMap_cons, List.length_cons, List.replicate_succ, List.flatten_cons]
    exact (h a (by simp)).append (ih fun x hx => h x (by simp [hx]))

/-- In a full graph every live vector is seen equally often. -/
theorem candidates_ids {env : HnswEnv V D} (hef : 0 ≤ env.efSearch) {q : V} {f : Hnsw V} {g : Drawn}
    (hl : Lev env g f) (hF : Full f) (hg : Gr live f) {c : List (Id × D)}
    (hc : candidates env q f = .ok c) :
    (c.map Prod.fst).Perm
      ((List.replicate (g.copies env.efSearch.toNat) (Live.idsOf live)).flatten) := by
  simp only [candidates] at hc
  have hcur : min f.maxLevel (f.levels.length - 1) = g.top := by
    rw [hl.top, hl.len]; omega
  rw [hcur, show (f.levels[g.top]?).getD [] = lv f g.top from rfl,
    show (f.levels[0]?).getD [] = lv f 0 from rfl] at hc
  cases he : entry env q f (lv f g.top) with
  | error e => rw [he] at hc; cases hc
  | ok c0 =>
    rw [he] at hc
    simp only at hc
    have hk := (entry_spec hg.vec he).2
    rw [hl.keys] at hk
    have hlen0 : c0.length = min 1 (g.on g.top).length := by
      have := congrArg List.length hk
      simpa using this
    have hmem0 : ∀ x ∈ c0, x.1 ∈ g.on g.top := by
      intro x hx
      have : x.1 ∈ c0.map Prod.fst := List.mem_map.2 ⟨x, hx, rfl⟩
      rw [hk] at this
      exact List.mem_of_mem_take this
    cases hdd : descend env q f g.top c0 with
    | error e => rw [hdd] at hc; cases hc
    | ok c1 =>
      rw [hdd] at hc
      simp only at hc
      obtain ⟨w1, w2⟩ := descend_walk hef hl hF hg _ hmem0 hdd
      rw [hlen0] at w1
      change c1.length = g.copies env.efSearch.toNat at w1
      rw [← w1]
      by_cases h1 : c1.isEmpty = true
      · rw [if_pos h1] at hc
        simp only [Except.ok.injEq] at hc
        subst hc
        rw [List.isEmpty_iff] at h1
        subst h1
        simp
      · rw [if_neg h1] at hc
        cases hx : expand (env.dist q) f.vectors (lv f 0) c1 with
        | error e => rw [hx] at hc; cases hc
        | ok fin =>
          rw [hx] at hc
          simp only [Except.ok.injEq] at hc
          subst hc
          rw [List.map_append, (Full.expand_ids hl hg _ _ hx).1]
          refine (perm_interleave c1 Prod.fst _).trans (perm_const c1 _ _ ?_)
          intro x hx
          have hx0 := w2 x hx
          have := ((Full.nbrs_perm hl hF 0 hx0).cons x.1).trans (List.perm_cons_erase hx0).symm
          rw [hl.on_live hg] at this
          exact this

theorem candidates_copies {env : HnswEnv V D} (hef : 0 ≤ env.efSearch) {q : V} {f : Hnsw V} {g : Drawn}
    (hl : Lev env g f) (hF : Full f) (hg : Gr live f) {dq : V → D}
    (hd : ∀ v d, env.dist q v = .ok d → dq v = d) {c : List (Id × D)}
    (hc : candidates env q f = .ok c) :
    c.Perm ((List.replicate (g.copies env.efSearch.toNat)
      (live.map fun x => (x.id, dq x.vec))).flatten) := by
  set F : Id → Id × D := fun i => (i, match Live.find live i with | some (v, _) => dq v | none => dq q)
    with hFdef
  have hlive : ∀ x ∈ live, F x.id = (x.id, dq x.vec) := by
    intro x hx
    simp only [hFdef, Live.find_mem hg.nd hx]
  have h1 : c = (c.map Prod.fst).map F := by
    rw [List.map_map]
    conv_lhs => rw [← List.map_id c]
    apply List.map_congr_left
    intro x hx
    obtain ⟨y, y1, y2, y3⟩ := candidates_spec hg.vec hc x hx
    simp only [Function.comp, id]
    rw [← y2, hlive y y1, y2, hd _ _ y3]
  have h2 : (live.map fun x => (x.id, dq x.vec)) = (Live.idsOf live).map F := by
    rw [Live.idsOf, List.map_map]
    apply List.map_congr_left
    intro x hx
    exact (hlive x hx).symm
  rw [h1, h2, ← List.map_replicate, ← List.map_flatten]
  exact (candidates_ids hef hl hF hg hc).map F

end Valori.Hnsw.Dr
