import Verif.Lemmas.Flat
import Verif.Lemmas.TopK
import Verif.Props.Storage

/-!
# Properties C13 - C19: the flat index

Theorems hold over every storage that behaves as a map (`Lawful`: memory, disk, hybrid, see
`memLawful`, `diskLawful`, `hybLawful`), every metric, every tie-breaking of the sort.
-/

namespace Valori.Props
open Valori Valori.Spec

variable {σ V M D : Type} [LinearOrder D] {B : Backend σ V M} {okId : Id → Prop} {okM : M → Prop}

/-- The storage holds exactly `live`, listed in that order. -/
def Holds (L : Lawful B okId okM) (s : σ) (live : List (Item V M)) : Prop :=
  L.inv s ∧ (B.list s none).1 = .ok (live.map Item.id) ∧ ∀ id, L.content s id = Live.find live id

/-- A new flat index, initialised on storage state `s`. -/
def flatOn (B : Backend σ V M) (s : σ) : Flat V × σ := (Flat.init B Flat.new s).2

omit [LinearOrder D] in
theorem flatOn_inv {L : Lawful B okId okM} {s : σ} {live : List (Item V M)}
    (h : Holds L s live) : Flat.Inv L live (flatOn B s) := by
  obtain ⟨hs, hl, hc⟩ := h
  obtain ⟨l, s', e, i', c', hnd, hmem⟩ := L.list hs
  rw [e] at hl
  simp only [Except.ok.injEq] at hl
  subst hl
  have e2 : flatOn B s = (⟨live.map Item.id, [], live.length, true⟩, s') := by
    simp [flatOn, Flat.init, e, Flat.new]
  rw [e2]
  refine ⟨⟨rfl, rfl, hnd, ?_, i', ?_⟩, rfl⟩
  · intro x _ v hv; simp [Dict.get?] at hv
  · simp only; rw [c']; funext id; exact hc id

/-! Concrete data for the examples: one-dimensional vectors, absolute difference. -/

def exArgsort (l : List Nat) : List Nat :=
  (List.range l.length).insertionSort (fun i j => l[i]?.getD 0 ≤ l[j]?.getD 0)

theorem exArgsort_ok : IsArgsort exArgsort := by
  intro l
  refine ⟨List.perm_insertionSort _ _, ?_⟩
  have h := @List.pairwise_insertionSort _ (fun i j : Nat => l[i]?.getD 0 ≤ l[j]?.getD 0) _
    ⟨fun a b => le_total _ _⟩ ⟨fun a b c => le_trans⟩ (List.range l.length)
  refine h.imp ?_
  intro i j hij a b ha hb
  simpa [ha, hb] using hij

/-- Vectors are natural numbers, 0 is "not finite", 1000 has another dimension. -/
def exFlat : FlatEnv Nat Nat where
  metricOk := true
  dim v := if v = 1000 then 2 else 1
  finite v := v != 0
  dist a b := (a - b) + (b - a)
  argsort := exArgsort

/-- Open in-memory storage without content. -/
def exMem : Mem Nat Nat := Mem.init Mem.new

theorem exMem_holds : Holds memLawful exMem ([] : List (Item Nat Nat)) :=
  ⟨⟨Mem.Inv.empty true, rfl, Spec.Store.WF.empty true, by
    intro id h; trivial⟩, rfl, fun _ => rfl⟩

/-- A history that inserts three rows, updates one, deletes one and inserts again. -/
def exHist : List (IxCall Nat Nat) :=
  [.insert 2 [("a", 10), ("b", 20), ("c", 30)] (some [some 1, none]),
   .update "b" 25 (some 7), .delete ["a", "zz"], .insert 2 [("d", 29)] none,
   .search 1 28 2]

theorem exHist_ok : Live.HistOk (fun _ => True) (fun _ => True) [] exHist := by
  simp [exHist, Live.HistOk, Live.CallOk, Live.next, Live.removeAll, Live.remove, Live.items,
    Live.has, Live.replace]

/-! ## C13 -/

/-- **C13** In every state reached by index calls, a search with `k ≥ 0` that returns gives an
exact `k`-nearest-neighbour answer over the live vectors. -/
theorem C13_flat_exact (L : Lawful B okId okM) (env : FlatEnv V D) (ha : IsArgsort env.argsort)
    (s : σ) (live : List (Item V M)) (hs : Holds L s live) (h : List (IxCall V M))
    (hok : Live.HistOk okId okM live h) (q : V) (k : Int) (hk : 0 ≤ k) (hits : List (Hit D M)) :
    let t := (Flat.run env B (flatOn B s) h).2
    (Flat.search env B 1 q k t.1 t.2).1 = .ok hits →
    IsTopK (env.dist q) (Live.after live h) k.toNat hits := by
  intro t heq
  have hinv : Flat.Inv L (Live.after live h) t := ((flatOn_inv hs).run ha h hok).2
  obtain ⟨r, f', s', e, -, hr⟩ := hinv.search ha q k
  rw [e] at heq
  simp only at heq
  subst heq
  by_cases hl : Live.after live h = []
  · rw [if_pos hl] at hr
    cases hr
    rw [hl]
    exact ⟨by simp, by simp, by simp, by simp, by simp⟩
  · rw [if_neg hl] at hr
    split at hr
    · obtain ⟨full, hp, hsd, he⟩ := hr
      cases he
      have hlen : full.length = (Live.after live h).length := by simpa using hp.length_eq
      have : sliceTo full (min k ((Live.after live h).length : Int)) = full.take k.toNat := by
        rw [sliceTo_nonneg _ (by omega)]
        by_cases hle : k ≤ ((Live.after live h).length : Int)
        · rw [min_eq_left hle]
        · rw [min_eq_right (by omega), List.take_of_length_le (by omega),
            List.take_of_length_le (by omega)]
      rw [this]
      exact isTopK_of_sorted hinv.nd (env.dist q) hp hsd k.toNat
    · cases hr

example : (Flat.search exFlat (memBackend Nat Nat) 1 28 2
    (Flat.run exFlat (memBackend Nat Nat) (flatOn (memBackend Nat Nat) exMem) exHist).2.1
    (Flat.run exFlat (memBackend Nat Nat) (flatOn (memBackend Nat Nat) exMem) exHist).2.2).1 =
    .ok [⟨"d", 1, none⟩, ⟨"c", 2, none⟩] := by decide

/-- What an exact answer fixes: two exact answers to the same question have the same
distances, and agree on every result that is not tied with the last one. -/
theorem C13_exact_unique (dist : V → D) (live : List (Item V M)) (hn : (live.map Item.id).Nodup)
    (k : Nat) (a b : List (Hit D M)) (ha : IsTopK dist live k a) (hb : IsTopK dist live k b) :
    a.map Hit.dist = b.map Hit.dist ∧
    ∀ x ∈ a, ∀ y ∈ a, x.dist < y.dist → x ∈ b :=
  ⟨ha.dists_unique hn (List.Perm.refl _) hb,
   fun _ hx _ hy hlt => ha.mem_of_lt hn (List.Perm.refl _) hb hx hy hlt⟩

example : IsTopK (fun v : Nat => v) [(⟨"a", 1, none⟩ : Item Nat Nat), ⟨"b", 1, none⟩, ⟨"c", 2, none⟩] 1
    [⟨"b", 1, none⟩] := by
  refine ⟨by decide, by decide, by decide, by decide, by decide⟩

/-! ## C14 -/

/-- When a flat search raises on the live items `l`. -/
def flatFails (env : FlatEnv V D) (l : List (Item V M)) (q : V) : Bool :=
  !l.isEmpty && !(env.metricOk && env.finite q && decide (0 < env.dim q) &&
    l.all fun x => env.finite x.vec && decide (env.dim x.vec = env.dim q))

omit [LinearOrder D] in
theorem failsB_eq (env : FlatEnv V D) :
    (Flat.failsB env : List (Item V M) → V → Bool) = flatFails env := by
  funext l q
  simp [Flat.failsB, flatFails, Flat.checkOk, List.all_map, Function.comp_def]

/-- **C14** Replies to every history are those of the abstract list of live items, and at the
end the reported count, the storage and a retrieve of any id agree with that list. -/
theorem C14_flat_history (L : Lawful B okId okM) (env : FlatEnv V D) (ha : IsArgsort env.argsort)
    (s : σ) (live : List (Item V M)) (hs : Holds L s live) (h : List (IxCall V M))
    (hok : Live.HistOk okId okM live h) :
    let t := (Flat.run env B (flatOn B s) h).2
    (Flat.run env B (flatOn B s) h).1 = Live.replies (flatFails env) live h ∧
    t.1.statCount = some (Live.after live h).length ∧
    ((Live.after live h).map Item.id).Nodup ∧
    (∀ id, okId id → (B.retrieve t.2 id).1 = .ok (Live.find (Live.after live h) id)) ∧
    ∃ l, (B.list t.2 none).1 = .ok l ∧ ∀ id, id ∈ l ↔ id ∈ (Live.after live h).map Item.id := by
  intro t
  have hrun := (flatOn_inv hs).run ha h hok
  rw [failsB_eq] at hrun
  have hinv : Flat.Inv L (Live.after live h) t := hrun.2
  refine ⟨hrun.1, ?_, hinv.nd, ?_, ?_⟩
  · simp [Flat.statCount, hinv.inited, hinv.cnt]
  · intro id hid
    obtain ⟨s', e, -, -⟩ := L.retrieve hinv.st hid
    rw [e, hinv.cont]
  · obtain ⟨l, s', e, -, -, -, hm⟩ := L.list hinv.st
    refine ⟨l, by rw [e], ?_⟩
    intro id
    rw [hm, hinv.cont, Live.find_isSome, Live.has_iff]

example : (Flat.run exFlat (memBackend Nat Nat) (flatOn (memBackend Nat Nat) exMem) exHist).1 =
    [.ids ["a", "b", "c"], .flag true, .flag false, .ids ["d"], .answered] ∧
    Live.after [] exHist = [⟨"b", 25, some 7⟩, ⟨"c", 30, none⟩, ⟨"d", 29, none⟩] := by decide

/-! ## C15 -/

/-- A call that inserts a row under `id`. -/
def inserts (id : String) : IxCall V M → Prop
  | .insert _ rows _ => id ∈ rows.map Prod.fst
  | _ => False

theorem items_ids (mds : Option (List (Option M))) (i : Nat) (rows : List (String × V)) :
    (Live.items mds i rows).map Item.id = rows.map Prod.fst := by
  induction rows generalizing i with
  | nil => rfl
  | cons r rows ih => simp [Live.items, ih]

theorem removeAll_sub (l : List (Item V M)) (ids : List String) (x : String)
    (hx : x ∈ ((Live.removeAll l ids).2).map Item.id) : x ∈ l.map Item.id ∧ x ∉ ids := by
  induction ids generalizing l with
  | nil => exact ⟨hx, by simp⟩
  | cons id ids ih =>
    obtain ⟨h1, h2⟩ := ih (Live.remove l id) hx
    obtain ⟨y, hy, rfl⟩ := List.mem_map.1 h1
    simp only [Live.remove, List.mem_filter, decide_eq_true_eq] at hy
    exact ⟨List.mem_map.2 ⟨y, hy.1, rfl⟩, by simp [hy.2, h2]⟩

/-- An id that is not live stays so until it is inserted. -/
theorem after_not_mem (l : List (Item V M)) (id : String) (hid : id ∉ l.map Item.id)
    (h : List (IxCall V M)) (hq : ∀ c ∈ h, ¬ inserts id c) :
    id ∉ (Live.after l h).map Item.id := by
  induction h generalizing l with
  | nil => exact hid
  | cons c cs ih =>
    refine ih (Live.next l c) ?_ (fun c' hc' => hq c' (by simp [hc']))
    have hc := hq c (by simp)
    cases c with
    | insert nd rows mds =>
      simp only [Live.next]
      split
      · simp only [List.map_append, items_ids, List.mem_append, not_or]; exact ⟨hid, hc⟩
      · exact hid
    | delete ids => exact fun hm => hid (removeAll_sub _ _ _ hm).1
    | update i v m =>
      rw [show (Live.next l (.update i v m)).map Item.id = l.map Item.id from
        Live.idsOf_replace l i v m]
      exact hid
    | search => exact hid

/-- **C15** (flat) After a delete, no search returns the id until it is inserted again. -/
theorem C15_flat_deleted_gone (L : Lawful B okId okM) (env : FlatEnv V D)
    (ha : IsArgsort env.argsort) (s : σ) (live : List (Item V M)) (hs : Holds L s live)
    (h h' : List (IxCall V M)) (ids : List String) (id : String) (hid : id ∈ ids)
    (hok : Live.HistOk okId okM live (h ++ .delete ids :: h')) (hq : ∀ c ∈ h', ¬ inserts id c)
    (q : V) (k : Int) (hits : List (Hit D M)) :
    let t := (Flat.run env B (flatOn B s) (h ++ .delete ids :: h')).2
    (Flat.search env B 1 q k t.1 t.2).1 = .ok hits → id ∉ hits.map Hit.id := by
  intro t heq
  have hinv : Flat.Inv L (Live.after live (h ++ .delete ids :: h')) t :=
    ((flatOn_inv hs).run ha _ hok).2
  have hnot : id ∉ (Live.after live (h ++ .delete ids :: h')).map Item.id := by
    have : Live.after live (h ++ .delete ids :: h') =
        Live.after ((Live.removeAll (Live.after live h) ids).2) h' := by
      simp [Live.after, List.foldl_append, Live.next]
    rw [this]
    exact after_not_mem _ _ (fun hm => (removeAll_sub _ _ _ hm).2 hid) h' hq
  obtain ⟨r, f', s', e, -, hr⟩ := hinv.search ha q k
  rw [e] at heq
  simp only at heq
  subst heq
  by_cases hl : Live.after live (h ++ .delete ids :: h') = []
  · rw [if_pos hl] at hr; cases hr; simp
  · rw [if_neg hl] at hr
    split at hr
    · obtain ⟨full, hp, hsd, he⟩ := hr
      cases he
      intro hm
      simp only [attachMd, List.map_map, List.mem_map, Function.comp] at hm
      obtain ⟨y, hy, rfl⟩ := hm
      have := hp.mem_iff.1 ((sliceTo_sublist _ _).subset hy)
      obtain ⟨x, hx, rfl⟩ := List.mem_map.1 this
      exact hnot (List.mem_map.2 ⟨x, hx, rfl⟩)
    · cases hr

example : ∃ h h' : List (IxCall Nat Nat),
    Live.HistOk (fun _ => True) (fun _ => True) [] (h ++ .delete ["a"] :: h') ∧
    (∀ c ∈ h', ¬ inserts "a" c) ∧ h ≠ [] ∧ h' ≠ [] :=
  ⟨[.insert 2 [("a", 1), ("b", 2)] none], [.insert 2 [("c", 3)] none], by
    simp [Live.HistOk, Live.CallOk, Live.next, Live.removeAll, Live.remove, Live.items, Live.has],
    by simp [inserts], by simp, by simp⟩

/-! ## C16 -/

/-- **C16** In every reachable state an insert with fresh ids returns one id per row in order;
the `i`-th id then retrieves the `i`-th row with the `i`-th metadata entry (none when the list
is missing or short); every other id retrieves what it did before. -/
theorem C16_insert_pairs (L : Lawful B okId okM) (env : FlatEnv V D) (ha : IsArgsort env.argsort)
    (s : σ) (live : List (Item V M)) (hs : Holds L s live) (h : List (IxCall V M))
    (hok : Live.HistOk okId okM live h) (rows : List (String × V))
    (mds : Option (List (Option M)))
    (hins : Live.CallOk okId okM (Live.after live h) (.insert 2 rows mds)) :
    let t := (Flat.run env B (flatOn B s) h).2
    let r := Flat.insert B 2 rows mds t.1 t.2
    r.1 = .ok (rows.map Prod.fst) ∧
    (∀ i id v, rows[i]? = some (id, v) →
      (B.retrieve r.2.2 id).1 = .ok (some (v,
        match mds with | none => none | some l => if h : i < l.length then l[i] else none))) ∧
    (∀ id, okId id → id ∉ rows.map Prod.fst →
      (B.retrieve r.2.2 id).1 = (B.retrieve t.2 id).1) := by
  intro t r
  have hinv : Flat.Inv L (Live.after live h) t := ((flatOn_inv hs).run ha h hok).2
  obtain ⟨h1, h2, h3⟩ := hins
  obtain ⟨f', s', e, c⟩ := Flat.insertLoop_spec mds h3 rows 0 _ t.1 t.2 hinv.toCore h1 h2
  have hr : r = (.ok (rows.map Prod.fst), { f' with count := f'.ids.length }, s') := by
    simp only [r, Flat.insert, hinv.inited, e]; rfl
  have hitem : ∀ (rows : List (String × V)) (j i : Nat) (id : String) (v : V),
      rows[i]? = some (id, v) → ⟨id, v, Live.mdAt mds (j + i)⟩ ∈ Live.items mds j rows := by
    intro rows
    induction rows with
    | nil => intro j i id v hh; simp at hh
    | cons r rows ih =>
      intro j i id v hh
      cases i with
      | zero => simp at hh; subst hh; simp [Live.items]
      | succ i =>
        have := ih (j + 1) i id v (by simpa using hh)
        simp only [Live.items, List.mem_cons]
        right
        rw [show j + (i + 1) = j + 1 + i by omega]; exact this
  rw [hr]
  refine ⟨rfl, ?_, ?_⟩
  · intro i id v hi
    have hmem := hitem rows 0 i id v hi
    have hf := Live.find_mem c.nd (List.mem_append_right (Live.after live h) hmem)
    have hr' : (id, v) ∈ rows := List.mem_of_getElem? hi
    obtain ⟨s'', e2, -, -⟩ := L.retrieve c.st (h2 _ hr').2.1
    simp only at e2 hf ⊢
    rw [e2, c.cont, hf]
    congr 2
    simp only [Nat.zero_add, Live.mdAt]
    cases mds with
    | none => rfl
    | some l =>
      simp only
      split
      · rename_i hlt; simp [hlt]
      · rename_i hge; simp [hge]
  · intro id hid hnot
    obtain ⟨s1, e1, -, -⟩ := L.retrieve c.st hid
    obtain ⟨s2, e2, -, -⟩ := L.retrieve hinv.st hid
    simp only at e1 ⊢
    rw [e1, e2, c.cont, hinv.cont, Live.find_append]
    have : Live.find (Live.items mds 0 rows) id = none := by
      rw [Live.find_eq_none, Live.idsOf, items_ids]; exact hnot
    rw [this, Option.or_none]

example : Live.CallOk (fun _ => True) (fun _ => True) (Live.after [] exHist)
    (.insert 2 [("x", 1), ("y", 2)] (some [some 5]) : IxCall Nat Nat) := by
  simp [Live.CallOk, Live.after, exHist, Live.next, Live.removeAll, Live.remove, Live.items,
    Live.has, Live.replace]

/-! ## C17 -/

/-- `Stored B mds i rows s s'`: storing `rows` one after the other, numbered from `i`, leads
from `s` to `s'` without an exception. -/
inductive Stored (B : Backend σ V M) (mds : Option (List (Option M))) :
    Nat → List (String × V) → σ → σ → Prop
  | nil (i s) : Stored B mds i [] s s
  | cons {i id v rows s s1 s2 b} : B.store s id v (Live.mdAt mds i) = (.ok b, s1) →
      Stored B mds (i + 1) rows s1 s2 → Stored B mds i ((id, v) :: rows) s s2

/-- **C17** (partial: prefix instead of nothing) Over any backend whatsoever, when an insert
raises, then exactly the rows before some failing row were stored and added to the index, the
failing store was the last storage call, and the reported count did not move. -/
theorem C17_failed_insert_partial (B : Backend σ V M) (f : Flat V) (s : σ)
    (hi : f.inited = true) (rows : List (String × V)) (mds : Option (List (Option M))) (e : Err)
    (hfail : (Flat.insert B 2 rows mds f s).1 = .error e) :
    ∃ done id v rest s1 s2 e', rows = done ++ (id, v) :: rest ∧ Stored B mds 0 done s s1 ∧
      B.store s1 id v (Live.mdAt mds done.length) = (.error e', s2) ∧
      (Flat.insert B 2 rows mds f s).2.1.ids = f.ids ++ done.map Prod.fst ∧
      (Flat.insert B 2 rows mds f s).2.1.statCount = f.statCount ∧
      (Flat.insert B 2 rows mds f s).2.2 = s2 := by
  have key : ∀ (rows : List (String × V)) (i : Nat) (f : Flat V) (s : σ) (e : Err)
      (t : Flat V × σ), Flat.insertLoop B mds i rows f s = (.error e, t) →
      ∃ done id v rest s1 s2 e', rows = done ++ (id, v) :: rest ∧ Stored B mds i done s s1 ∧
        B.store s1 id v (Live.mdAt mds (i + done.length)) = (.error e', s2) ∧
        t.1.ids = f.ids ++ done.map Prod.fst ∧ t.1.count = f.count ∧ t.1.inited = f.inited ∧
        t.2 = s2 := by
    intro rows
    induction rows with
    | nil => intro i f s e t h; simp [Flat.insertLoop] at h
    | cons r rows ih =>
      obtain ⟨id, v⟩ := r
      intro i f s e t h
      simp only [Flat.insertLoop, Live.mdAt_eq_rowMeta] at h
      cases hst : B.store s id v (Live.mdAt mds i) with
      | mk r s1 =>
      cases r with
      | error e' =>
        rw [hst] at h
        simp only [Prod.mk.injEq] at h
        obtain ⟨-, rfl⟩ := h
        exact ⟨[], id, v, rows, s, s1, e', rfl, .nil _ _, by simpa using hst, by simp, rfl, rfl,
          rfl⟩
      | ok b =>
        rw [hst] at h
        simp only at h
        split at h
        · simp at h
        · rename_i e' t' h'
          simp only [Prod.mk.injEq] at h
          obtain ⟨-, rfl⟩ := h
          obtain ⟨done, id', v', rest, s2, s3, e3, h1, h2, h3, h4, h5, h6, h7⟩ := ih _ _ _ _ _ h'
          refine ⟨(id, v) :: done, id', v', rest, s2, s3, e3, by simp [h1], .cons hst h2, ?_, ?_,
            h5, h6, h7⟩
          · rw [← h3]; congr 2; simp; omega
          · rw [h4]; simp
  simp only [Flat.insert, hi] at hfail ⊢
  cases hl : Flat.insertLoop B mds 0 rows f s with
  | mk r t =>
  cases r with
  | ok l => rw [hl] at hfail; simp at hfail
  | error e' =>
    obtain ⟨done, id, v, rest, s1, s2, e3, h1, h2, h3, h4, h5, h6, h7⟩ := key _ _ _ _ _ _ hl
    refine ⟨done, id, v, rest, s1, s2, e3, h1, h2, by simpa using h3, ?_, ?_, ?_⟩
    · simpa using h4
    · simp [Flat.statCount, h5, h6]
    · simpa using h7

/-- Metadata 99 cannot be pickled. -/
def exEnvBad : DiskEnv Nat := { exEnv with picklable := fun m => m != 99 }

/-- **C17** (refuted) Inserting two rows on disk storage, the second with metadata that cannot
be pickled, raises, yet the first row is found by a search, the reported count is 0, and after
a restart every search raises. -/
theorem C17_failed_insert_refuted :
    let B := diskBackend (V := Nat) exEnvBad
    let t0 := flatOn B (Disk.init (Disk.opened (emptyDir Nat Nat)))
    let r := Flat.insert B 2 [("a", 10), ("b", 20)] (some [none, some 99]) t0.1 t0.2
    r.1 = .error .index ∧
    (Flat.search exFlat B 1 10 5 r.2.1 r.2.2).1 = .ok [⟨"a", 0, none⟩] ∧
    r.2.1.statCount = some 0 ∧
    (let t1 := flatOn B (Disk.init (Disk.opened r.2.2.dir))
     (Flat.search exFlat B 1 10 5 t1.1 t1.2).1 = .error .index) := by
  decide

/-! ## C18 -/

/-- **C18** On a live index a flat search raises exactly when the metric is unsupported, or the
query or a live vector is not finite, or dimensions differ (or are zero). -/
theorem C18_flat_search_fails_iff (L : Lawful B okId okM) (env : FlatEnv V D)
    (ha : IsArgsort env.argsort) (s : σ) (live : List (Item V M)) (hs : Holds L s live)
    (h : List (IxCall V M)) (hok : Live.HistOk okId okM live h)
    (hne : Live.after live h ≠ []) (q : V) (k : Int) :
    let t := (Flat.run env B (flatOn B s) h).2
    (∃ e, (Flat.search env B 1 q k t.1 t.2).1 = .error e) ↔
      env.metricOk = false ∨ env.finite q = false ∨ env.dim q = 0 ∨
      ∃ x ∈ Live.after live h, env.finite x.vec = false ∨ env.dim x.vec ≠ env.dim q := by
  intro t
  have hinv : Flat.Inv L (Live.after live h) t := ((flatOn_inv hs).run ha h hok).2
  obtain ⟨r, f', s', e, -, hr⟩ := hinv.search ha q k
  rw [e]
  rw [if_neg hne] at hr
  have hck : Flat.checkOk env q ((Live.after live h).map Item.vec) = false ↔
      env.metricOk = false ∨ env.finite q = false ∨ env.dim q = 0 ∨
      ∃ x ∈ Live.after live h, env.finite x.vec = false ∨ env.dim x.vec ≠ env.dim q := by
    simp only [Flat.checkOk, List.all_map, Bool.and_eq_false_iff, decide_eq_false_iff_not,
      List.all_eq_false, Function.comp, Bool.not_eq_true, or_assoc, Nat.not_lt, Nat.le_zero]
  rw [← hck]
  cases hc : Flat.checkOk env q ((Live.after live h).map Item.vec)
  · rw [hc] at hr; simp at hr; simp [hr]
  · rw [hc] at hr
    simp only [if_true] at hr
    obtain ⟨full, -, -, he⟩ := hr
    simp [he]

/-- One bad row (value 0 is "not finite") makes every search raise until it is deleted. -/
example : (Flat.run exFlat (memBackend Nat Nat) (flatOn (memBackend Nat Nat) exMem)
    [.insert 2 [("a", 10), ("b", 0)] none, .search 1 5 1, .search 1 7 3, .delete ["b"],
      .search 1 5 1]).1 =
    [.ids ["a", "b"], .raised, .raised, .flag true, .answered] := by decide

/-! ## C19 -/

/-- `reopen` opens a new storage object on what the old one left on disk. -/
def Durable (L : Lawful B okId okM) (reopen : σ → σ) : Prop :=
  ∀ s, L.inv s → L.inv (reopen s) ∧ L.content (reopen s) = L.content s

/-- **C19** With durable storage, closing everything and opening a new index on the reopened
storage keeps live ids, vectors and metadata; every search raises in both or answers in both,
with the same distances, and with the same results up to ties with the last one. -/
theorem C19_flat_restart (L : Lawful B okId okM) (reopen : σ → σ) (hd : Durable L reopen)
    (env : FlatEnv V D) (ha : IsArgsort env.argsort) (s : σ) (live : List (Item V M))
    (hs : Holds L s live) (h : List (IxCall V M)) (hok : Live.HistOk okId okM live h)
    (q : V) (k : Int) (hk : 0 ≤ k) :
    let t := (Flat.run env B (flatOn B s) h).2
    let t' := flatOn B (reopen t.2)
    (∀ id, okId id → (B.retrieve t'.2 id).1 = (B.retrieve t.2 id).1) ∧
    t'.1.statCount = t.1.statCount ∧
    ((∃ e, (Flat.search env B 1 q k t.1 t.2).1 = .error e) ↔
      ∃ e, (Flat.search env B 1 q k t'.1 t'.2).1 = .error e) ∧
    (∀ a b, (Flat.search env B 1 q k t.1 t.2).1 = .ok a →
      (Flat.search env B 1 q k t'.1 t'.2).1 = .ok b →
      a.map Hit.dist = b.map Hit.dist ∧
      (∀ x ∈ a, ∀ y ∈ a, x.dist < y.dist → x ∈ b) ∧
      (∀ x ∈ b, ∀ y ∈ b, x.dist < y.dist → x ∈ a)) := by
  intro t t'
  have hinv : Flat.Inv L (Live.after live h) t := ((flatOn_inv hs).run ha h hok).2
  obtain ⟨hr1, hr2⟩ := hd t.2 hinv.st
  obtain ⟨f'', s'', live', einit, hinv'', hfind⟩ := Flat.init_inv (f := Flat.new) hr1
    (by intro id v v' m _ hg; simp [Flat.new, Dict.get?] at hg)
  have ht' : t' = (f'', s'') := by simp [t', flatOn, einit]
  have hinv' : Flat.Inv L live' t' := by rw [ht']; exact hinv''
  have hfeq : Live.find live' = Live.find (Live.after live h) := by
    funext id; rw [hfind, hr2, hinv.cont]
  have hperm : (Live.after live h).Perm live' := by
    have n1 : (Live.after live h).Nodup := List.Nodup.of_map _ hinv.nd
    have n2 : live'.Nodup := List.Nodup.of_map _ hinv'.nd
    rw [List.perm_ext_iff_of_nodup n1 n2]
    intro x
    have key : ∀ {l₁ l₂ : List (Item V M)}, (Live.idsOf l₁).Nodup →
        Live.find l₁ = Live.find l₂ → x ∈ l₁ → x ∈ l₂ := by
      intro l₁ l₂ hn he hx
      have := Live.find_mem hn hx
      rw [he] at this
      exact Live.mem_of_find this
    exact ⟨key hinv.nd hfeq.symm, key hinv'.nd hfeq⟩
  have hfail : (∃ e, (Flat.search env B 1 q k t.1 t.2).1 = .error e) ↔
      ∃ e, (Flat.search env B 1 q k t'.1 t'.2).1 = .error e := by
    have iff : ∀ {l : List (Item V M)} {t : Flat V × σ}, Flat.Inv L l t →
        ((∃ e, (Flat.search env B 1 q k t.1 t.2).1 = .error e) ↔ flatFails env l q = true) := by
      intro l t hi
      have hc := (hi.call ha (.search 1 q k) trivial).1
      rw [failsB_eq] at hc
      simp only [Flat.call, Live.reply] at hc
      cases hsr : Flat.search env B 1 q k t.1 t.2 with
      | mk r t2 =>
        rw [hsr] at hc
        cases r <;> simp at hc ⊢ <;> cases hf : flatFails env l q <;> simp_all
    rw [iff hinv, iff hinv']
    have : flatFails env (Live.after live h) q = flatFails env live' q := by
      unfold flatFails
      have e1 : (Live.after live h).isEmpty = live'.isEmpty := by
        rw [Bool.eq_iff_iff, List.isEmpty_iff_length_eq_zero, List.isEmpty_iff_length_eq_zero,
          hperm.length_eq]
      rw [e1, hperm.all_eq]
    rw [this]
  refine ⟨?_, ?_, hfail, ?_⟩
  · intro id hid
    obtain ⟨s1, e1, -, -⟩ := L.retrieve hinv'.st hid
    obtain ⟨s2, e2, -, -⟩ := L.retrieve hinv.st hid
    rw [e1, e2, hinv'.cont, hinv.cont, hfeq]
  · simp [Flat.statCount, hinv.inited, hinv'.inited, hinv.cnt, hinv'.cnt, hperm.length_eq]
  · intro a b hae hbe
    have h1 := C13_flat_exact L env ha s live hs h hok q k hk a hae
    have hholds : Holds L (reopen t.2) live' := by
      refine ⟨hr1, ?_, fun id => (hfind id).symm⟩
      obtain ⟨l, s1, e, -⟩ := L.list hr1
      have hids := hinv''.ids
      have : f''.ids = l := by
        have := einit
        simp only [Flat.init, e, Prod.mk.injEq] at this
        rw [← this.2.1]
      rw [e]; simp only at hids ⊢
      rw [← this, hids]
    have h2 := C13_flat_exact L env ha (reopen t.2) live' hholds [] trivial q k hk b hbe
    have hn' := hinv'.nd
    exact ⟨h1.dists_unique hinv.nd hperm h2,
      fun x hx y hy hlt => h1.mem_of_lt hinv.nd hperm h2 hx hy hlt,
      fun x hx y hy hlt => h2.mem_of_lt hinv'.nd hperm.symm h1 hx hy hlt⟩

variable [ByteSize V] [ByteSize M]

omit [ByteSize V] [ByteSize M] in
/-- **C19** Disk storage is durable. -/
theorem C19_disk_durable (env : DiskEnv M) (hg : ∀ l, (env.glob l).Perm l) :
    Durable (diskLawful (V := V) env hg)
      (fun s => Disk.init (Disk.opened ((diskBackend env).close s).dir)) := by
  intro s ⟨h1, h2, h3, h4⟩
  have h1 : s.Inv := h1
  exact ⟨⟨⟨h1.ok, fun _ => rfl⟩, rfl, h3, h4⟩, rfl⟩

/-- **C19** Hybrid storage is durable, for any memory limit after the restart. -/
theorem C19_hybrid_durable (env : DiskEnv M) (hg : ∀ l, (env.glob l).Perm l) (limit : Int) :
    Durable (hybLawful (V := V) env hg)
      (fun s => Hyb.init (Hyb.opened ((hybBackend env).close s).disk.dir limit)) := by
  intro s ⟨h1, h2, h3, h4⟩
  have h1 : Hyb.Inv env (OwnName env) s := h1
  refine ⟨⟨⟨Mem.Inv.empty true, ⟨h1.disk.ok, fun _ => rfl⟩, rfl, rfl, ?_⟩, rfl, h3, h4⟩, rfl⟩
  intro x y hx
  simp [Hyb.init, Hyb.opened, Mem.init, Mem.at', Mem.contentOf] at hx

omit [ByteSize V] [ByteSize M] in
/-- Hypotheses of C19 are met by a new disk backend. -/
example : Holds (diskLawful exEnv (fun _ => List.Perm.refl _))
    (Disk.init (Disk.opened (emptyDir Nat Nat))) ([] : List (Item Nat Nat)) := by
  refine ⟨⟨⟨emptyDir_ok, fun _ => rfl⟩, rfl, ⟨by simp [diskRefines, Disk.abs, emptyDir, Disk.init, Disk.opened, Dict.keys], ?_⟩, ?_⟩, rfl, fun _ => rfl⟩
  · intro id; simp [diskRefines, Disk.abs, emptyDir, Disk.init, Disk.opened, Dict.keys, Dir.content, Dict.get?]
  · intro id h; simp [diskRefines, Disk.abs, emptyDir, Disk.init, Disk.opened, Dir.content, Dict.get?] at h

end Valori.Props
