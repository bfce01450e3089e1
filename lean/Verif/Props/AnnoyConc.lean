import Verif.Lemmas.AnnoyConc

/-!
# C245: threads that insert, search and delete on one Annoy index
-/

namespace Valori.Props
open Valori Valori.AConc
open Valori.Spec (AnHit)

variable {L V F M : Type} {env : AConcEnv L V F} {ops : Nat → AOp V M} {s0 : AConc L V F M} {held : L → Nat → Prop}
  {sched : List Nat} {t : Nat}

/-- **C245** An id that was given before and that nobody deletes keeps its vector and its metadata. -/
theorem C245_untouched (hl : LibOk env held) (hr : AtRest held s0) (h0 : ∀ t, s0.thr t = .start) (ha : Apart ops s0)
    {id : Nat} (hid : id < s0.nextId) (hn : ¬ Named ops id) (sched : List Nat) :
    (s0.run env ops sched).vectors[id]? = s0.vectors[id]? ∧ (s0.run env ops sched).metas[id]? = s0.metas[id]? := by
  have h := run_invA hl hr h0 ha sched
  exact ⟨(h.vec id hid).resolve_right fun x => hn x.2, (h.md id hid).resolve_right fun x => hn x.2⟩

/-- **C245** An insertion does not raise; it returns the next ids in order, and its vectors and metadata are under
them. -/
theorem C245_inserted (hl : LibOk env held) (hr : AtRest held s0) (h0 : ∀ t, s0.thr t = .start) (ha : Apart ops s0)
    {rows : List (V × M)} (ho : ops t = .insert rows) {r : ARes F M} (hd : (s0.run env ops sched).thr t = .done r) :
    r = .ids (List.range' s0.nextId rows.length) ∧
      ∀ (i : Nat) (v : V) (m : M), rows[i]? = some (v, m) → (s0.run env ops sched).vectors[s0.nextId + i]? = some (some v) ∧
        (s0.run env ops sched).metas[s0.nextId + i]? = some (some m) := by
  have h := run_invA hl hr h0 ha sched
  have h1 := h.ins t rows ho
  rw [hd] at h1
  obtain ⟨h1, -, h2, h3⟩ := h1
  refine ⟨h1, fun i v m hi => ?_⟩
  have hlt := (List.getElem?_eq_some_iff.1 hi).1
  rw [h.newVec t rows ho i (by omega), h.newMd t rows ho i (by omega), hi]
  exact ⟨rfl, rfl⟩

/-- **C245** A deletion does not raise; it returns `True`, and vector and metadata of each of its ids are gone for
good. -/
theorem C245_deleted (hl : LibOk env held) (hr : AtRest held s0) (h0 : ∀ t, s0.thr t = .start) (ha : Apart ops s0)
    {ids : List Nat} (ho : ops t = .delete ids) {r : ARes F M} (hd : (s0.run env ops sched).thr t = .done r) :
    r = .flag true ∧ ∀ id ∈ ids, Gone (s0.run env ops sched) id := by
  have h1 := (run_invA hl hr h0 ha sched).del t ids ho
  rw [hd] at h1
  exact h1

/-- **C245** A search does not raise; it returns all the neighbours that the library named at some moment of the
execution, in its order, each with the similarity made from its distance and with its own metadata; only the metadata of
an id that some thread deletes may be missing. -/
theorem C245_search (hl : LibOk env held) (hr : AtRest held s0) (h0 : ∀ t, s0.thr t = .start) (ha : Apart ops s0)
    {q : V} {k : Int} (ho : ops t = .search q k) {r : ARes F M} (hd : (s0.run env ops sched).thr t = .done r) :
    ∃ l p sk ns, r = .hits l ∧ p <+: sched ∧ env.nns (s0.run env ops p).lib q k sk = some ns ∧
      l.map (fun h => (h.id, h.score)) = ns.map (fun x => (x.1, env.sim x.2)) ∧ ∀ h ∈ l, MetaOk ops s0 h.id h.md := by
  have h1 := (run_invA hl hr h0 ha sched).sr t q k ho
  rw [hd] at h1
  obtain ⟨l, h1, p, sk, ns, h2, h3, h4, -, h6⟩ := h1
  exact ⟨l, p, sk, ns, h1, h2, h3, by simpa using h4, h6⟩

/-- **C245** When all calls have ended, the index is at rest again. -/
theorem C245_at_rest (hl : LibOk env held) (hr : AtRest held s0) (h0 : ∀ t, s0.thr t = .start) (ha : Apart ops s0)
    (hall : ∀ t, (s0.run env ops sched).thr t = .start ∨ ∃ r, (s0.run env ops sched).thr t = .done r) :
    AtRest held (s0.run env ops sched) := by
  have h := run_invA hl hr h0 ha sched
  have hsz : ∃ n, Sizes (s0.run env ops sched) n n n := by
    by_cases hi : ∃ t rows, ops t = .insert rows
    · obtain ⟨t, rows, ho⟩ := hi
      have h1 := h.ins t rows ho
      rcases hall t with e | ⟨r, e⟩ <;> rw [e] at h1
      · exact ⟨_, h1⟩
      · exact ⟨_, h1.2⟩
    · exact ⟨_, h.quiet fun t rows ho => hi ⟨t, rows, ho⟩⟩
  obtain ⟨n, h1, h2, h3⟩ := hsz
  exact ⟨by omega, by omega, fun x hx => by have := h.lib x hx; omega⟩

/-! ## A case -/

/-- A library that knows all its vectors and names them all, numbers as vectors and distances. -/
def anv : AConcEnv (List (Nat × Nat)) Nat Nat where
  searchK := -1
  numTrees := 10
  addItem l id v := some (l ++ [(id, v)])
  nns l q k _ := some ((l.map fun x => (x.1, max q x.2 - min q x.2)).take k.toNat)
  sim d := 100 - d

/-- Two vectors. -/
def anTwo : AConc (List (Nat × Nat)) Nat Nat Nat := ⟨[some 3, some 5], [some 30, some 50], 2, [(0, 3), (1, 5)], fun _ => .start⟩

/-- An insertion, a deletion and searches. -/
def anOps : Nat → AOp Nat Nat
  | 0 => .insert [(7, 70), (8, 80)]
  | 1 => .delete [0]
  | _ => .search 4 5

/-- The ids the library of the case was given. -/
def anHeld (l : List (Nat × Nat)) (n : Nat) : Prop := n ∈ l.map Prod.fst

theorem anv_ok : LibOk anv anHeld where
  add _ _ _ := ⟨_, rfl⟩
  grows l id v l' n h h' := by
    cases h
    simp only [anHeld, List.map_append, List.mem_append, List.map_cons, List.map_nil, List.mem_singleton] at h' ⊢
    exact h'
  answers _ _ _ _ := ⟨_, rfl⟩
  named l q k sk ns h x hx := by
    cases h
    have := List.mem_of_mem_take hx
    obtain ⟨y, hy, rfl⟩ := List.mem_map.1 this
    exact List.mem_map.2 ⟨y, hy, rfl⟩

theorem anTwo_rest : AtRest anHeld anTwo := by
  refine ⟨rfl, rfl, fun n h => ?_⟩
  simp only [anHeld, anTwo, List.map_cons, List.map_nil, List.mem_cons, List.not_mem_nil, or_false] at h
  show n < 2
  omega

theorem anOps_apart : Apart anOps anTwo := by
  refine ⟨fun t u rows rows' h h' => ?_, fun t ids h id hid => ?_⟩
  · match t, u with
    | 0, 0 => rfl
    | 1, _ => cases h
    | _ + 2, _ => cases h
    | 0, 1 => cases h'
    | 0, _ + 2 => cases h'
  · match t with
    | 0 => cases h
    | 1 =>
      cases h
      rw [List.mem_singleton] at hid
      subst hid
      decide
    | _ + 2 => cases h

/-- The hypotheses of the theorems can be met, and all calls end: a search between the two rows of the insertion, with
the deletion in its midst. -/
example : LibOk anv anHeld ∧ AtRest anHeld anTwo ∧ (∀ t, anTwo.thr t = .start) ∧ Apart anOps anTwo ∧
    ¬ Named anOps 1 ∧
    (let e := anTwo.run anv anOps ([0, 0, 0, 0, 0, 0, 0, 2, 2, 2, 1, 1, 1, 1] ++ List.replicate 6 2 ++ List.replicate 6 0)
     e.thr 0 = .done (.ids [2, 3]) ∧ e.thr 1 = .done (.flag true) ∧
     e.thr 2 = .done (.hits [⟨0, 99, none⟩, ⟨1, 99, some 50⟩, ⟨2, 97, some 70⟩]) ∧
     e.vectors = [none, some 5, some 7, some 8]) := by
  refine ⟨anv_ok, anTwo_rest, fun _ => rfl, anOps_apart, ?_, rfl, rfl, rfl, rfl⟩
  rintro ⟨t, ids, h, hid⟩
  match t with
  | 0 => cases h
  | 1 => cases h; simp at hid
  | _ + 2 => cases h

/-! ## What goes wrong otherwise -/

/-- Two insertions. -/
def anTwice : Nat → AOp Nat Nat
  | 0 => .insert [(7, 70)]
  | 1 => .insert [(8, 80)]
  | _ => .search 8 5

/-- **C245**, two threads that insert: both return the same id, the index has one vector with the metadata of the other,
and a search gives it as the answer. -/
theorem C245_two_inserts_refuted :
    let e := anTwo.run anv anTwice [0, 1, 0, 1, 0, 1, 0, 1, 0, 1, 1, 0, 0, 1, 2, 2, 2, 2, 2, 2, 2, 2, 2, 2]
    e.thr 0 = .done (.ids [2]) ∧ e.thr 1 = .done (.ids [2]) ∧ e.vectors = [some 3, some 5, some 7, some 8] ∧
      e.metas = [some 30, some 50, some 80, some 70] ∧ e.nextId = 3 ∧
      e.thr 2 = .done (.hits [⟨0, 95, some 30⟩, ⟨1, 97, some 50⟩, ⟨2, 99, some 80⟩, ⟨2, 100, some 80⟩]) :=
  ⟨rfl, rfl, rfl, rfl, rfl, rfl⟩

/-- An insertion and a deletion of the id that it is about to give. -/
def anEarly : Nat → AOp Nat Nat
  | 0 => .insert [(7, 70)]
  | _ => .delete [2]

/-- **C245**, a deletion of an id that is being inserted: it raises after it has taken away the vector, and the metadata
stays; and alone, before the insertion, it would have returned `True` and changed nothing. -/
theorem C245_early_delete_refuted :
    (let e := anTwo.run anv anEarly [0, 0, 0, 0, 0, 1, 1, 1, 1, 0, 0]
     e.thr 1 = .done .raised ∧ e.thr 0 = .done (.ids [2]) ∧ e.vectors = [some 3, some 5, none] ∧
       e.metas = [some 30, some 50, some 70]) ∧
    (anTwo.run anv anEarly [1, 1]).thr 1 = .done (.flag true) :=
  ⟨⟨rfl, rfl, rfl, rfl⟩, rfl⟩

/-- **C245**, two threads that insert, on every index at rest and with every library: there is an execution in which both
return the same id, and under it is the vector of the one with the metadata of the other. -/
theorem C245_same_id_refuted (hl : LibOk env held) (hr : AtRest held s0) (a b : V × M)
    (ha : ops 0 = .insert [a]) (hb : ops 1 = .insert [b]) (h0 : s0.thr 0 = .start) (h1 : s0.thr 1 = .start) :
    ∃ sched, let e := s0.run env ops sched
      e.thr 0 = .done (.ids [s0.nextId]) ∧ e.thr 1 = .done (.ids [s0.nextId]) ∧
        e.vectors[s0.nextId]? = some (some a.1) ∧ e.metas[s0.nextId]? = some (some b.2) ∧
        e.vectors.length = e.nextId + 1 := by
  obtain ⟨l1, e1⟩ := hl.add s0.lib s0.nextId a.1
  obtain ⟨l2, e2⟩ := hl.add l1 s0.nextId b.1
  have hv := hr.vec
  have hm := hr.md
  refine ⟨[0, 1, 0, 1, 0, 1, 0, 1, 0, 1, 1, 0, 0, 1], ?_⟩
  simp [run, step, ha, hb, h0, h1, stepIns, nextRow, Function.update, e1, e2]
  refine ⟨?_, ?_, hv⟩
  · rw [List.getElem?_append_right (by omega), hv, Nat.sub_self]; rfl
  · rw [List.getElem?_append_right (by omega), hm, Nat.sub_self]; rfl

/-- **C245**, a deletion of the id that is being inserted, on every index at rest and with every library: there is an
execution in which it raises after it has taken away the vector, and the metadata stays. -/
theorem C245_half_deleted_refuted (hl : LibOk env held) (hr : AtRest held s0) (a : V × M)
    (ha : ops 0 = .insert [a]) (hb : ops 1 = .delete [s0.nextId]) (h0 : s0.thr 0 = .start) (h1 : s0.thr 1 = .start) :
    ∃ sched, let e := s0.run env ops sched
      e.thr 0 = .done (.ids [s0.nextId]) ∧ e.thr 1 = .done .raised ∧
        e.vectors[s0.nextId]? = some none ∧ e.metas[s0.nextId]? = some (some a.2) := by
  obtain ⟨l1, e1⟩ := hl.add s0.lib s0.nextId a.1
  have hv := hr.vec
  have hm := hr.md
  refine ⟨[0, 0, 0, 0, 0, 1, 1, 1, 1, 0, 0], ?_⟩
  simp [run, step, ha, hb, h0, h1, stepIns, stepDel, nextRow, nextDel, Function.update, e1, hv, hm]

end Valori.Props
