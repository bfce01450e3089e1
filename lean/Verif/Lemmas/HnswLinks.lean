import Verif.Lemmas.Hnsw
import Mathlib.Combinatorics.Enumerative.DoubleCounting
import Mathlib.Tactic.Ring

/-! Counting the links of the HNSW graph. -/

namespace Valori
open Spec (Item Hit IxCall IxReply IsTopK put)
open Spec

variable {σ V M D : Type} {B : Backend σ V M} {okId : Id → Prop} {okM : M → Prop}

namespace Hnsw
variable {L : Lawful B okId okM} {live : List (Item V M)}

/-! ## Predicates kept by every call -/

/-- `P` survives insertions of fresh ids. -/
structure KeepsInsert (env : HnswEnv V D) (M : Type) (P : List Level → Prop) : Prop where
  insert : ∀ {live : List (Item V M)} {f : Hnsw V} {id : Id} (v : V), Gr live f →
    id ∉ Live.idsOf live → P f.levels → P (insertInternal env id v f).levels

/-- `P` survives insertions of fresh ids and removals. -/
structure Keeps (env : HnswEnv V D) (M : Type) (P : List Level → Prop) : Prop
    extends KeepsInsert env M P where
  remove : ∀ {live : List (Item V M)} {f : Hnsw V} (id : Id), Gr live f → P f.levels →
    P (f.levels.map (removeLevel id))

theorem removeInternal_levels (id : Id) (f : Hnsw V) :
    (removeInternal id f).levels = f.levels.map (removeLevel id) := by
  simp only [removeInternal]; split <;> rfl

variable {P : List Level → Prop}

theorem insertLoop_keeps {env : HnswEnv V D} (hP : KeepsInsert env M P) (mds : Option (List (Option M)))
    (hm : ∀ x : List (Option M), mds = some x → ∀ m, some m ∈ x → okM m)
    (rows : List (Id × V)) : ∀ (i : Nat) (live : List (Item V M)) (f : Hnsw V) (s : σ),
    Inv L live (f, s) → (rows.map Prod.fst).Nodup →
    (∀ r ∈ rows, r.1 ≠ "" ∧ okId r.1 ∧ Live.has live r.1 = false) → P f.levels →
    P (insertLoop env B mds i rows f s).2.1.levels := by
  induction rows with
  | nil => intro i live f s h _ _ hp; exact hp
  | cons r rows ih =>
    obtain ⟨id, v⟩ := r
    intro i live f s h hnd hr hp
    obtain ⟨h1, h2, h3⟩ := hr (id, v) (by simp)
    simp only [List.map_cons, List.nodup_cons] at hnd
    obtain ⟨s1, e1, i1, c1⟩ := L.store (v := v) (m := Live.mdAt mds i) h.st h2 h1
      (fun x hx => Flat.mdAt_ok hm i x hx)
    have h3' := Live.has_false_iff.1 h3
    have hI : Inv L (live ++ [⟨id, v, Live.mdAt mds i⟩]) (insertInternal env id v f, s1) :=
      ⟨h.gr.insertInternal env h3' v _, i1, by
        simp only at c1 ⊢
        rw [c1, Live.find_append_single h3', show L.content s = Live.find live from h.cont]⟩
    have := ih (i + 1) _ _ s1 hI hnd.2 (by
      intro r hr'
      obtain ⟨g1, g2, g3⟩ := hr r (by simp [hr'])
      refine ⟨g1, g2, ?_⟩
      rw [Live.has_false_iff] at g3 ⊢
      simp only [Live.idsOf, List.map_append, List.map_cons, List.map_nil, List.mem_append,
        List.mem_singleton, not_or]
      exact ⟨g3, fun e => hnd.1 (e ▸ List.mem_map.2 ⟨r, hr', rfl⟩)⟩)
      (hP.insert v h.gr h3' hp)
    simp only [insertLoop]
    simp only [Live.mdAt_eq_rowMeta, e1]
    cases hx : insertLoop env B mds (i + 1) rows (insertInternal env id v f) s1 with
    | mk r t =>
      rw [hx] at this
      cases r <;> exact this

theorem deleteLoop_keeps {env : HnswEnv V D} (hP : Keeps env M P) (dels : List Id) :
    ∀ (ok : Bool) (live : List (Item V M)) (f : Hnsw V) (s : σ), Inv L live (f, s) →
    (∀ id ∈ dels, okId id) → P f.levels → P (deleteLoop B dels ok f s).2.1.levels := by
  induction dels with
  | nil => intro ok live f s h _ hp; exact hp
  | cons id dels ih =>
    intro ok live f s h hd hp
    obtain ⟨s1, e1, i1, c1⟩ := L.delete h.st (hd id (by simp))
    rw [show L.content (f, s).2 = Live.find live from h.cont] at e1 c1
    have hI : Inv L (Live.remove live id) (removeInternal id f, s1) :=
      ⟨h.gr.removeInternal id, i1, by rw [Live.find_remove]; exact c1⟩
    simp only [deleteLoop, e1]
    exact ih _ _ _ s1 hI (fun x hx => hd x (by simp [hx]))
      (by rw [removeInternal_levels]; exact hP.remove id h.gr hp)

variable [LinearOrder D]

theorem Inv.call_keeps {env : HnswEnv V D} (hP : Keeps env M P) {t : Hnsw V × σ} (h : Inv L live t)
    (c : IxCall V M) (hc : Live.CallOk okId okM live c) (hp : P t.1.levels) :
    P (Hnsw.call env B t c).2.1.levels := by
  obtain ⟨f, s⟩ := t
  have hi : f.inited = true := h.gr.inited
  cases c with
  | insert nd rows mds =>
    by_cases hnd : nd = 2
    · subst hnd
      obtain ⟨h1, h2, h3⟩ := hc
      have := insertLoop_keeps hP.toKeepsInsert mds h3 rows 0 live f s h h1 h2 hp
      simp only [Hnsw.call, Hnsw.insert, hi]
      cases hx : insertLoop env B mds 0 rows f s with
      | mk r t =>
        rw [hx] at this
        cases r <;> exact this
    · have e : Hnsw.insert env B nd rows mds f s = (.error .index, f, s) := by
        simp [Hnsw.insert, hi, hnd]
      simp only [Hnsw.call, e]
      exact hp
  | delete ids =>
    have := deleteLoop_keeps (B := B) hP ids true live f s h hc hp
    simp only [Hnsw.call, Hnsw.delete, hi]
    cases hx : deleteLoop B ids true f s with
    | mk r t =>
      rw [hx] at this
      cases r <;> exact this
  | update id v m =>
    simp only [Hnsw.call, Hnsw.update, hi]
    cases hx : B.update s id v m with
    | mk r s' =>
      rcases r with e | b
      · exact hp
      · cases b
        · exact hp
        · simp only [Bool.not_true, Bool.false_eq_true, if_false]
          split <;> exact hp
  | search nd q k =>
    by_cases hnd : nd = 1
    · subst hnd
      obtain ⟨r, s', e, -⟩ := h.search (env := env) q k
      simp only [Hnsw.call, e]
      cases r <;> exact hp
    · have e : Hnsw.search env B nd q k f s = (.error .index, f, s) := by
        simp [Hnsw.search, hi, hnd]
      simp only [Hnsw.call, e]
      exact hp

theorem Inv.run_keeps {env : HnswEnv V D} (hP : Keeps env M P) {t : Hnsw V × σ} (h : Inv L live t)
    (cs : List (IxCall V M)) (hc : Live.HistOk okId okM live cs) (hp : P t.1.levels) :
    P (Hnsw.run env B t cs).2.1.levels := by
  induction cs generalizing live t with
  | nil => exact hp
  | cons c cs ih => exact ih (h.call (env := env) c hc.1).1 hc.2 (h.call_keeps hP c hc.1 hp)

omit [LinearOrder D] in
theorem loadAll_keeps {env : HnswEnv V D} (hP : Keeps env M P) {all : List (Item V M)}
    (hn : (Live.idsOf all).Nodup) (todo : List (Item V M)) :
    ∀ (done : List (Item V M)) (f : Hnsw V) (s : σ), all = done ++ todo → Gr done f → L.inv s →
    L.content s = Live.find all → P f.levels →
    P (loadAll env B (Live.idsOf todo) f s).2.1.levels := by
  induction todo with
  | nil => intro done f s ha h hs hc hp; exact hp
  | cons x todo ih =>
    intro done f s ha h hs hc hp
    have hx : x ∈ all := by rw [ha]; simp
    have hf : L.content s x.id = some (x.vec, x.md) := by rw [hc]; exact Live.find_mem hn hx
    obtain ⟨s1, e1, i1, c1⟩ := L.retrieve hs (L.dom hs (by rw [hf]; rfl))
    have hfresh : x.id ∉ Live.idsOf done := by
      rw [ha, Live.idsOf, List.map_append, List.map_cons, List.nodup_append] at hn
      intro hm
      exact hn.2.2 _ hm _ (by simp) rfl
    have := ih (done ++ [x]) _ s1 (by simp [ha])
      (h.insertInternal env hfresh x.vec x.md) i1 (by rw [c1, hc]) (hP.insert x.vec h hfresh hp)
    simp only [Live.idsOf, List.map_cons, loadAll, e1, hf] at this ⊢
    exact this

omit [LinearOrder D] in
theorem init_keeps {env : HnswEnv V D} (hP : Keeps env M P) {s s' : σ} (hn : (Live.idsOf live).Nodup)
    (hl : B.list s none = (.ok (Live.idsOf live), s')) (hs : L.inv s')
    (hc : L.content s' = Live.find live) (hp : P [[]]) :
    P (Hnsw.init env B Hnsw.new s).2.1.levels := by
  have := loadAll_keeps (B := B) hP hn live [] { (Hnsw.new : Hnsw V) with
    inited := true, levels := [[]] } s' rfl
    ⟨rfl, by simp, rfl, rfl, ⟨by simp [GraphOk.empty, Dict.keys], by simp [Dict.keys]⟩⟩ hs hc hp
  simp only [Hnsw.init, hl]
  cases hx : loadAll env B (Live.idsOf live) { (Hnsw.new : Hnsw V) with
    inited := true, levels := [[]] } s' with
  | mk r t =>
    rw [hx] at this
    cases r <;> exact this

/-! ## Every link is owed to one of its ends -/

/-- Every link was made by one of its ends, and no node made more than `m`. -/
def Owed (m : Nat) (d : Level) : Prop :=
  ∃ out : Id → List Id, (∀ n, (out n).length ≤ m) ∧ ∀ n x, x ∈ nbrs d n → x ∈ out n ∨ n ∈ out x

theorem Owed.empty (m : Nat) : Owed m [] := ⟨fun _ => [], by simp, by simp [nbrs, Dict.get?]⟩

theorem Owed.insertLevel {m : Nat} {d : Level} (h : Owed m d) (hg : GraphOk d) {id : Id}
    (hid : id ∉ d.keys) {pick : List Id → List Id} (hp : ∀ l, (pick l).length ≤ m) :
    Owed m (insertLevel id pick d) := by
  obtain ⟨out, h1, h2⟩ := h
  refine ⟨fun n => if n = id then pick (addNode d id).keys else out n, ?_, ?_⟩
  · intro n; simp only; split
    · exact hp _
    · exact h1 n
  · intro n x hx
    simp only [Hnsw.insertLevel, mem_connect, nbrs_addNode, List.mem_filter] at hx
    rcases hx with hx | ⟨rfl, -, hx, -⟩ | ⟨rfl, -, hx, -⟩
    · have hn : n ≠ id := fun e => hid (e ▸ key_of_nbrs hx)
      have hxn : x ≠ id := fun e => hid (e ▸ hg.nbr_key hx)
      simp only [if_neg hn, if_neg hxn]
      exact h2 n x hx
    · left; simpa using hx
    · right; simpa using hx

theorem removeLevel_sub {d : Level} (hg : GraphOk d) (id : Id) (n x : Id)
    (h : x ∈ nbrs (removeLevel id d) n) : x ∈ nbrs d n := by
  simp only [Hnsw.removeLevel] at h
  split at h
  · obtain ⟨g1, g2, g3⟩ := mem_unlink id (nbrs d id) hg.nd
    have hk : (unlink id (nbrs d id) d).keys.Nodup := by rw [g2]; exact hg.keys
    have hnb : nbrs ((unlink id (nbrs d id) d).pop id) n =
        if n = id then [] else nbrs (unlink id (nbrs d id) d) n := by
      show (Dict.get? ((unlink id (nbrs d id) d).pop id) n).getD [] = _
      rw [Dict.get?_pop hk]; split <;> rfl
    rw [hnb] at h
    split at h
    · simp at h
    · exact ((g3 n x).1 h).1
  · exact h

omit [LinearOrder D] in
theorem keeps_owed {env : HnswEnv V D} {m : Nat}
    (hp : ∀ i l nodes, ((env.rnd i).pick l nodes).length ≤ m) :
    Keeps env M (fun ls => ∀ d ∈ ls, Owed m d) := by
  refine ⟨⟨?_⟩, ?_⟩
  · intro live f id v hg hid h d hd
    obtain ⟨d0, hd0, he⟩ := onLevels_mem (f := fun l => Hnsw.insertLevel id ((env.rnd f.draws).pick l))
      (pad f.levels (min (env.rnd f.draws).level 10)) hd
    have hpad : Owed m d0 ∧ GraphOk d0 ∧ id ∉ d0.keys := by
      simp only [pad, List.mem_append, List.mem_replicate] at hd0
      rcases hd0 with hd0 | ⟨-, rfl⟩
      · exact ⟨h d0 hd0, (hg.lev.all d0 hd0).1, fun hk => hid ((hg.lev.all d0 hd0).2 id hk)⟩
      · exact ⟨Owed.empty m, GraphOk.empty, by simp [Dict.keys]⟩
    rcases he with rfl | ⟨j, rfl⟩
    · exact hpad.1
    · exact hpad.1.insertLevel hpad.2.1 hpad.2.2 (hp _ _)
  · intro live f id hg h d hd
    obtain ⟨d0, hd0, rfl⟩ := List.mem_map.1 hd
    obtain ⟨out, h1, h2⟩ := h d0 hd0
    exact ⟨out, h1, fun n x hx => h2 n x (removeLevel_sub (hg.lev.all d0 hd0).1 id n x hx)⟩

/-- At most `2 m` links per node on average. -/
theorem Owed.card {m : Nat} {d : Level} (h : Owed m d) (hg : GraphOk d) :
    (d.keys.map fun n => (nbrs d n).length).sum ≤ 2 * m * d.keys.length := by
  classical
  obtain ⟨out, h1, h2⟩ := h
  set K := d.keys.toFinset with hK
  have hKc : K.card = d.keys.length := List.toFinset_card_of_nodup hg.keys
  have hsum : (d.keys.map fun n => (nbrs d n).length).sum = ∑ n ∈ K, (nbrs d n).length :=
    (List.sum_toFinset _ hg.keys).symm
  have hle : ∀ n ∈ K, (nbrs d n).length ≤ m + (K.filter fun x => n ∈ out x).card := by
    intro n _
    rw [← List.toFinset_card_of_nodup (hg.nd n)]
    calc (nbrs d n).toFinset.card
        ≤ ((out n).toFinset ∪ K.filter fun x => n ∈ out x).card := by
          apply Finset.card_le_card
          intro x hx
          have hx' := List.mem_toFinset.1 hx
          rcases h2 n x hx' with h | h
          · exact Finset.mem_union_left _ (List.mem_toFinset.2 h)
          · exact Finset.mem_union_right _
              (Finset.mem_filter.2 ⟨List.mem_toFinset.2 (hg.nbr_key hx'), h⟩)
      _ ≤ (out n).toFinset.card + (K.filter fun x => n ∈ out x).card := Finset.card_union_le _ _
      _ ≤ m + _ := Nat.add_le_add_right ((List.toFinset_card_le _).trans (h1 n)) _
  have hdc : ∑ n ∈ K, (K.filter fun x => n ∈ out x).card =
      ∑ x ∈ K, (K.filter fun n => n ∈ out x).card :=
    Finset.sum_card_bipartiteAbove_eq_sum_card_bipartiteBelow (fun n x => n ∈ out x)
  have hb : ∀ x ∈ K, (K.filter fun n => n ∈ out x).card ≤ m := by
    intro x _
    refine (Finset.card_le_card (t := (out x).toFinset) ?_).trans
      ((List.toFinset_card_le _).trans (h1 x))
    intro n hn
    exact List.mem_toFinset.2 (Finset.mem_filter.1 hn).2
  rw [hsum]
  calc ∑ n ∈ K, (nbrs d n).length
      ≤ ∑ n ∈ K, (m + (K.filter fun x => n ∈ out x).card) := Finset.sum_le_sum hle
    _ = K.card * m + ∑ x ∈ K, (K.filter fun n => n ∈ out x).card := by
        rw [Finset.sum_add_distrib, hdc, Finset.sum_const, Nat.nsmul_eq_mul]
    _ ≤ K.card * m + K.card * m := by
        gcongr
        exact (Finset.sum_le_sum hb).trans (by simp)
    _ = 2 * m * d.keys.length := by rw [hKc]; ring

end Hnsw
end Valori
