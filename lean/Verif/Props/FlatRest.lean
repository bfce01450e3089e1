import Verif.Lemmas.FlatRest
import Verif.Props.FlatCache
import Verif.Props.LoneFlat

/-!
# C244: what threads leave on a flat index whose vectors are all cached; C243 for that index
-/

namespace Valori.Props
open Valori Valori.FConc
open Valori.Spec (Item Hit IsTopK put)
open Valori.Spec

variable {V M D : Type} {env : FlatEnv V D} {ops : Nat → FOp V M} {s0 s : FConc V M D}

/-- **C244** An id that no thread inserts, updates or deletes stays as it was in the storage, in the cache and in the
list of ids, at every moment. -/
theorem C244_untouched (h0 : ∀ t, s0.thr t = .start) (hs : Settled s0) (ha : Apart ops s0) {id : Id}
    (hn : ∀ t, ¬ opTouches (ops t) id) (sched : List Nat) : Same id s0 (s0.run env ops sched) :=
  (run_invF h0 hs ha sched).idle id hn

/-- **C244** When an insertion has returned, it has returned the ids of its rows, and each row is stored, cached and
listed once. -/
theorem C244_inserted (h0 : ∀ t, s0.thr t = .start) (hs : Settled s0) (ha : Apart ops s0) {t : Nat}
    {rows : List (FRow V M)} (ho : ops t = .insert rows) {sched : List Nat} {x : FRes M D}
    (hd : (s0.run env ops sched).thr t = .done x) :
    x = .ids (rows.map FRow.id) ∧ ∀ r ∈ rows, In (s0.run env ops sched) r.id r.v r.m := by
  have h := (run_invF (env := env) h0 hs ha sched).thr t
  rw [ho, hd] at h
  exact h

/-- **C244** When an update has returned, it has returned whether the id was stored at the beginning; if so, the storage
and the cache have the new vector and the id is listed once; if not, the id is nowhere. -/
theorem C244_updated (h0 : ∀ t, s0.thr t = .start) (hs : Settled s0) (ha : Apart ops s0) {t : Nat} {id : Id} {v : V}
    {m : Option M} (ho : ops t = .update id v m) {sched : List Nat} {x : FRes M D}
    (hd : (s0.run env ops sched).thr t = .done x) :
    x = .flag (s0.store.get? id).isSome ∧ ((s0.store.get? id).isSome → In (s0.run env ops sched) id v m) ∧
      (s0.store.get? id = none → Gone (s0.run env ops sched) id) := by
  have h := (run_invF (env := env) h0 hs ha sched).thr t
  rw [ho, hd] at h
  exact h

/-- **C244** When a deletion has returned, its ids are nowhere any more, and it has returned `True` exactly if they were
different and all stored at the beginning. -/
theorem C244_deleted (h0 : ∀ t, s0.thr t = .start) (hs : Settled s0) (ha : Apart ops s0) {t : Nat} {l : List Id}
    (ho : ops t = .delete l) {sched : List Nat} {x : FRes M D} (hd : (s0.run env ops sched).thr t = .done x) :
    (∀ id ∈ l, Gone (s0.run env ops sched) id) ∧
      ∃ ok, x = .flag ok ∧ (ok = true ↔ l.Nodup ∧ ∀ id ∈ l, (s0.store.get? id).isSome) := by
  have h := (run_invF (env := env) h0 hs ha sched).thr t
  rw [ho, hd] at h
  exact h

theorem settled_in {id : Id} {v : V} {m : Option M} (h : In s id v m) :
    s.cache.get? id = (s.store.get? id).map Prod.fst ∧ s.ids.count id = if (s.store.get? id).isSome then 1 else 0 := by
  rw [h.store, h.cache, h.ids]; exact ⟨rfl, rfl⟩

theorem settled_gone {id : Id} (h : Gone s id) :
    s.cache.get? id = (s.store.get? id).map Prod.fst ∧ s.ids.count id = if (s.store.get? id).isSome then 1 else 0 := by
  rw [h.store, h.cache, h.ids]; exact ⟨rfl, rfl⟩

/-- **C244** When all threads that touch ids have returned, storage, cache and list of ids agree again. -/
theorem C244_at_rest (h0 : ∀ t, s0.thr t = .start) (hs : Settled s0) (ha : Apart ops s0) {sched : List Nat}
    (hd : ∀ t id, opTouches (ops t) id → ∃ x, (s0.run env ops sched).thr t = .done x) :
    Settled (s0.run env ops sched) := by
  have h := run_invF (env := env) h0 hs ha sched
  suffices H : ∀ id, (s0.run env ops sched).cache.get? id = ((s0.run env ops sched).store.get? id).map Prod.fst ∧
      (s0.run env ops sched).ids.count id = if ((s0.run env ops sched).store.get? id).isSome then 1 else 0 from
    ⟨h.storeKeys, h.cacheKeys, fun id => (H id).1, fun id => (H id).2⟩
  intro id
  by_cases hn : ∃ t, opTouches (ops t) id
  · obtain ⟨t, ht⟩ := hn
    obtain ⟨x, hx⟩ := hd t id ht
    cases ho : ops t with
    | insert rows =>
      rw [ho] at ht
      obtain ⟨r, hr, rfl⟩ := List.mem_map.1 (ht.resolve_right (fun x => x))
      exact settled_in ((C244_inserted h0 hs ha ho hx).2 r hr)
    | search q k => rw [ho] at ht; rcases ht with h | h <;> exact h.elim
    | update y v m =>
      rw [ho] at ht
      have : id = y := ht.resolve_right (fun x => x)
      subst this
      obtain ⟨-, h1, h2⟩ := C244_updated h0 hs ha ho hx
      cases he : s0.store.get? id with
      | none => exact settled_gone (h2 he)
      | some y => exact settled_in (h1 (by rw [he]; rfl))
    | delete l =>
      rw [ho] at ht
      exact settled_gone ((C244_deleted h0 hs ha ho hx).1 id (ht.resolve_left (fun x => x)))
  · have e := C244_untouched (env := env) h0 hs ha (fun t h => hn ⟨t, h⟩) sched
    rw [e.store, e.cache, e.ids]
    exact ⟨hs.agree id, hs.ids id⟩

/-! ## A search afterwards -/

/-- The vectors of the storage. -/
def heldF (s : FConc V M D) : List (Item V M) := s.store.map fun x => ⟨x.1, x.2.1, x.2.2⟩

/-- The plain map as a storage that keeps its promises. -/
def plainLawful : Lawful (plainStore V M) (fun _ => True) (fun _ => True) where
  inv s := s.keys.Nodup
  content s := s.get?
  dom _ _ := trivial
  store {s id v m} h _ _ _ := ⟨s.set id (v, m), rfl, Dict.nodup_set h _ _, by
    funext x; rw [Dict.get?_set]; rfl⟩
  retrieve {s id} h _ := ⟨s, rfl, h, rfl⟩
  delete {s id} h _ := ⟨s.pop id, rfl, Dict.nodup_pop h _, by funext x; rw [Dict.get?_pop h]; rfl⟩
  update {s id v m} h _ _ := by
    cases hm : (s.get? id).isSome with
    | true =>
      exact ⟨s.set id (v, m), by simp [plainStore, Dict.mem_eq, hm], Dict.nodup_set h _ _, by
        funext x; rw [Dict.get?_set]; rfl⟩
    | false => exact ⟨s, by simp [plainStore, Dict.mem_eq, hm], h, rfl⟩
  list {s} h := ⟨s.keys, s, rfl, h, rfl, h, fun id => by rw [Dict.mem_keys]⟩

/-- The vectors of the storage in the order of the list of ids. -/
def listedItems (s : FConc V M D) : List (Item V M) :=
  s.ids.filterMap fun id => (s.store.get? id).map fun x => ⟨id, x.1, x.2⟩

theorem mem_listedItems {x : Item V M} :
    x ∈ listedItems s ↔ x.id ∈ s.ids ∧ s.store.get? x.id = some (x.vec, x.md) := by
  simp only [listedItems, List.mem_filterMap, Option.map_eq_some_iff]
  constructor
  · rintro ⟨id, h1, y, h2, rfl⟩; exact ⟨h1, h2⟩
  · rintro ⟨h1, h2⟩; exact ⟨x.id, h1, _, h2, rfl⟩

theorem settled_listed (hs : Settled s) (id : Id) : id ∈ s.ids ↔ (s.store.get? id).isSome := by
  rw [← List.count_pos_iff, hs.ids]
  split <;> simp_all

theorem listedItems_ids (hs : Settled s) : Live.idsOf (listedItems s) = s.ids := by
  have h : ∀ id ∈ s.ids, (s.store.get? id).isSome := fun id hid => (settled_listed hs id).1 hid
  unfold listedItems Live.idsOf
  generalize s.ids = l at h
  induction l with
  | nil => rfl
  | cons a l ih =>
    obtain ⟨x, hx⟩ := Option.isSome_iff_exists.1 (h a List.mem_cons_self)
    rw [List.filterMap_cons, hx]
    simp only [Option.map_some, List.map_cons]
    rw [ih fun id hid => h id (List.mem_cons_of_mem _ hid)]

theorem settled_nodup (hs : Settled s) : s.ids.Nodup := by
  rw [List.nodup_iff_count_le_one]
  intro id; rw [hs.ids]; split <;> omega

theorem listedItems_find (hs : Settled s) : Live.find (listedItems s) = s.store.get? := by
  have hn : (Live.idsOf (listedItems s)).Nodup := by rw [listedItems_ids hs]; exact settled_nodup hs
  funext id
  cases h : s.store.get? id with
  | none =>
    rw [Live.find_eq_none, listedItems_ids hs, settled_listed hs, h]; simp
  | some x =>
    have hm : (⟨id, x.1, x.2⟩ : Item V M) ∈ listedItems s :=
      mem_listedItems.2 ⟨(settled_listed hs id).2 (by rw [h]; rfl), h⟩
    exact Live.find_mem hn hm

theorem mem_heldF (hs : Settled s) {x : Item V M} : x ∈ heldF s ↔ x ∈ listedItems s := by
  rw [mem_listedItems, settled_listed hs]
  simp only [heldF, List.mem_map, Prod.exists]
  constructor
  · rintro ⟨id, v, m, h, rfl⟩
    have := Dict.get?_of_mem hs.storeKeys h
    exact ⟨by rw [this]; rfl, this⟩
  · rintro ⟨-, h⟩; exact ⟨_, _, _, Dict.mem_of_get? h, rfl⟩

theorem length_heldF (hs : Settled s) : (heldF s).length = (listedItems s).length := by
  have h1 : s.ids.Perm s.store.keys := by
    rw [List.perm_ext_iff_of_nodup (settled_nodup hs) hs.storeKeys]
    intro id; rw [settled_listed hs, Dict.mem_keys]
  have h2 := congrArg List.length (listedItems_ids hs)
  simp only [Live.idsOf, List.length_map] at h2
  rw [h2, h1.length_eq, Dict.length_keys, heldF, List.length_map]

theorem search_count (n : Nat) {σ : Type} (B : Backend σ V M) (q : V) (k : Int) (f : Flat V) (st : σ) :
    (Flat.search env B 1 q k { f with count := n } st).1 = (Flat.search env B 1 q k f st).1 := by
  simp only [Flat.search]
  split
  · rfl
  · split
    · rfl
    · split
      · rfl
      · split
        · rfl
        · split
          · rfl
          · split
            · rfl
            · split <;> rfl

/-- **C244** A search of such an index with nobody else at work gives the exact `k` nearest vectors of the storage, if
the query and the vectors are finite and of one dimension and the metric is known. -/
theorem C244_search [LinearOrder D] (hsort : IsArgsort env.argsort) (hs : Settled s) {t : Nat} {q : V} {k : Int}
    (ho : ops t = .search q k) (ht : s.thr t = .start) (hk : 0 ≤ k) (hm : env.metricOk = true)
    (hq : env.finite q = true) (hd : 0 < env.dim q)
    (hv : ∀ x ∈ heldF s, env.finite x.vec = true ∧ env.dim x.vec = env.dim q) :
    ∃ n l, (s.run env ops (List.replicate n t)).thr t = .done (.hits l) ∧
      IsTopK (env.dist q) (heldF s) k.toNat l := by
  obtain ⟨n, hn, -⟩ := C213_flat env ops s t ht
  have hids := listedItems_ids hs
  have hnd : (Live.idsOf (listedItems s)).Nodup := by rw [hids]; exact settled_nodup hs
  have hinv : Flat.Inv plainLawful (listedItems s)
      (({ flatOf s with count := (listedItems s).length } : Flat V), s.store) := by
    refine ⟨⟨rfl, hids.symm, hnd, fun x hx v hv => ?_, hs.storeKeys, (listedItems_find hs).symm⟩, rfl⟩
    have h1 := (mem_listedItems.1 hx).2
    have h2 : s.cache.get? x.id = some v := hv
    rw [hs.agree, h1] at h2
    exact (Option.some.inj h2).symm
  obtain ⟨r, f', s', e, -, hr⟩ := hinv.search hsort q k
  have e1 := search_count (env := env) (listedItems s).length (plainStore V M) q k (flatOf s) s.store
  rw [e] at e1
  simp only at e1
  suffices H : ∃ l, r = .ok l ∧ IsTopK (env.dist q) (listedItems s) k.toNat l by
    obtain ⟨l, hl, h⟩ := H
    refine ⟨n, l, ?_, ?_⟩
    · rw [hn, ho]
      rw [hl] at e1
      simp only [flatCall]
      split
      · rename_i l' t' h'
        rw [h'] at e1
        cases e1; rfl
      · rename_i t' h'
        rw [h'] at e1
        cases e1
    · exact ⟨by rw [length_heldF hs]; exact h.length, h.nodup, h.sorted, fun y hy => by
        obtain ⟨x, hx, hx'⟩ := h.sound y hy
        exact ⟨x, (mem_heldF hs).2 hx, hx'⟩, fun x hx => h.best x ((mem_heldF hs).1 hx)⟩
  by_cases hl : listedItems s = []
  · rw [if_pos hl] at hr
    refine ⟨[], hr, ?_⟩
    rw [hl]
    exact ⟨by simp, by simp, by simp, by simp, by simp⟩
  · rw [if_neg hl] at hr
    have hc : Flat.checkOk env q ((listedItems s).map Item.vec) = true := by
      simp only [Flat.checkOk, hm, hq, hd, decide_true, Bool.and_self, Bool.true_and, List.all_map, List.all_eq_true,
        Function.comp, Bool.and_eq_true, decide_eq_true_eq]
      exact fun x hx => hv x ((mem_heldF hs).2 hx)
    rw [if_pos hc] at hr
    obtain ⟨full, hp, hsd, he⟩ := hr
    have hlen : full.length = (listedItems s).length := by simpa using hp.length_eq
    have : sliceTo full (min k ((listedItems s).length : Int)) = full.take k.toNat := by
      rw [sliceTo_nonneg _ (by omega)]
      by_cases hle : k ≤ ((listedItems s).length : Int)
      · rw [min_eq_left hle]
      · rw [min_eq_right (by omega), List.take_of_length_le (by omega), List.take_of_length_le (by omega)]
    rw [this] at he
    exact ⟨_, he, isTopK_of_sorted hnd (env.dist q) hp hsd k.toNat⟩

/-! ## The order of the threads -/

theorem in_sameF {a b : FConc V M D} {id : Id} {v : V} {m : Option M} (h : In a id v m) (h' : In b id v m) :
    Same id a b := ⟨h'.store.trans h.store.symm, h'.cache.trans h.cache.symm, h'.ids.trans h.ids.symm⟩

theorem gone_sameF {a b : FConc V M D} {id : Id} (h : Gone a id) (h' : Gone b id) : Same id a b :=
  ⟨h'.store.trans h.store.symm, h'.cache.trans h.cache.symm, h'.ids.trans h.ids.symm⟩

/-- **C243**, flat: two executions in which all insertions, updates and deletions have ended leave the same vectors and
metadata in the storage and in the cache and the same ids. -/
theorem C243_flat (h0 : ∀ t, s0.thr t = .start) (hs : Settled s0) (ha : Apart ops s0) {sched sched' : List Nat}
    (hd : ∀ t id, opTouches (ops t) id → ∃ x, (s0.run env ops sched).thr t = .done x)
    (hd' : ∀ t id, opTouches (ops t) id → ∃ x, (s0.run env ops sched').thr t = .done x) :
    let a := s0.run env ops sched
    let b := s0.run env ops sched'
    (∀ id, b.store.get? id = a.store.get? id ∧ b.cache.get? id = a.cache.get? id) ∧ b.ids.Perm a.ids := by
  have h : ∀ id, Same id (s0.run env ops sched) (s0.run env ops sched') := by
    intro id
    by_cases hn : ∃ t, opTouches (ops t) id
    · obtain ⟨t, ht⟩ := hn
      obtain ⟨x, hx⟩ := hd t id ht
      obtain ⟨x', hx'⟩ := hd' t id ht
      cases ho : ops t with
      | insert rows =>
        rw [ho] at ht
        obtain ⟨r, hr, rfl⟩ := List.mem_map.1 (ht.resolve_right (fun x => x))
        exact in_sameF ((C244_inserted h0 hs ha ho hx).2 r hr) ((C244_inserted h0 hs ha ho hx').2 r hr)
      | search q k => rw [ho] at ht; rcases ht with h | h <;> exact h.elim
      | update y v m =>
        rw [ho] at ht
        have : id = y := ht.resolve_right (fun x => x)
        subst this
        obtain ⟨-, a1, a2⟩ := C244_updated h0 hs ha ho hx
        obtain ⟨-, b1, b2⟩ := C244_updated h0 hs ha ho hx'
        cases he : s0.store.get? id with
        | none => exact gone_sameF (a2 he) (b2 he)
        | some y => exact in_sameF (a1 (by rw [he]; rfl)) (b1 (by rw [he]; rfl))
      | delete l =>
        rw [ho] at ht
        have ht := ht.resolve_left (fun x => x)
        exact gone_sameF ((C244_deleted h0 hs ha ho hx).1 id ht) ((C244_deleted h0 hs ha ho hx').1 id ht)
    · have e := C244_untouched (env := env) h0 hs ha (fun t h => hn ⟨t, h⟩) sched
      have e' := C244_untouched (env := env) h0 hs ha (fun t h => hn ⟨t, h⟩) sched'
      exact ⟨e'.store.trans e.store.symm, e'.cache.trans e.cache.symm, e'.ids.trans e.ids.symm⟩
  exact ⟨fun id => ⟨(h id).store, (h id).cache⟩, List.perm_iff_count.2 fun id => (h id).ids⟩

/-- **C243**, flat: insertions, updates and deletions also return the same. -/
theorem C243_flat_replies (h0 : ∀ t, s0.thr t = .start) (hs : Settled s0) (ha : Apart ops s0) {sched sched' : List Nat}
    {t : Nat} (hq : ∀ q k, ops t ≠ .search q k) {x x' : FRes M D} (hx : (s0.run env ops sched).thr t = .done x)
    (hx' : (s0.run env ops sched').thr t = .done x') : x = x' := by
  cases ho : ops t with
  | search q k => exact absurd ho (hq q k)
  | insert rows => rw [(C244_inserted h0 hs ha ho hx).1, (C244_inserted h0 hs ha ho hx').1]
  | update id v m => rw [(C244_updated h0 hs ha ho hx).1, (C244_updated h0 hs ha ho hx').1]
  | delete l =>
    obtain ⟨-, ok, e, h⟩ := C244_deleted h0 hs ha ho hx
    obtain ⟨-, ok', e', h'⟩ := C244_deleted h0 hs ha ho hx'
    have : ok = ok' := by rw [Bool.eq_iff_iff, h, h']
    rw [e, e', this]

/-! ## A case -/

/-- Three vectors, all cached. -/
def threeF : FConc Nat Nat Nat :=
  ⟨[("a", (10, none)), ("b", (20, some 2)), ("c", (30, none))], ["a", "b", "c"], [("a", 10), ("b", 20), ("c", 30)], 3,
    fun _ => .start⟩

def mixedF : Nat → FOp Nat Nat
  | 0 => .insert [⟨"e", 50, none⟩, ⟨"f", 60, some 6⟩]
  | 1 => .update "b" 25 (some 7)
  | 2 => .delete ["a", "x"]
  | _ => .search 24 2

theorem threeF_settled : Settled threeF := by
  refine ⟨by decide, by decide, fun id => ?_, fun id => ?_⟩
  · simp only [threeF, Dict.get?]
    split_ifs <;> rfl
  · simp only [threeF, Dict.get?, List.count_cons, List.count_nil]
    by_cases h1 : "a" = id
    · subst h1; decide
    · by_cases h2 : "b" = id
      · subst h2; decide
      · by_cases h3 : "c" = id
        · subst h3; decide
        · simp [h1, h2, h3]

theorem mixedF_apart : Apart mixedF threeF := by
  have ht : ∀ t id, opTouches (mixedF t) id → (t = 0 ∧ (id = "e" ∨ id = "f")) ∨ (t = 1 ∧ id = "b") ∨
      (t = 2 ∧ (id = "a" ∨ id = "x")) := by
    intro t id h
    rcases t with _ | _ | _ | t <;> simpa [mixedF, opTouches, opWrites, opDeletes] using h
  refine ⟨fun t t' id h h' => ?_, fun t rows h => ?_, fun t id h => ?_⟩
  · rcases ht t id h with ⟨rfl, rfl | rfl⟩ | ⟨rfl, rfl⟩ | ⟨rfl, rfl | rfl⟩ <;>
      rcases ht t' _ h' with ⟨rfl, h | h⟩ | ⟨rfl, h⟩ | ⟨rfl, h | h⟩ <;> first | rfl | (exact absurd h (by decide))
  · rcases t with _ | _ | _ | t <;> simp only [mixedF] at h <;> cases h
    decide
  · rcases t with _ | _ | _ | t <;> simp only [mixedF, opInserts] at h
    simp only [List.map_cons, List.map_nil, List.mem_cons, List.not_mem_nil, or_false] at h
    rcases h with rfl | rfl <;> decide

/-- The threads take turns, a search among them; all end, and the index is at rest. -/
example :
    let s := threeF.run exFlat mixedF (List.replicate 20 [0, 1, 2, 3]).flatten
    s.thr 0 = .done (.ids ["e", "f"]) ∧ s.thr 1 = .done (.flag true) ∧ s.thr 2 = .done (.flag false) ∧
      s.ids = ["b", "c", "e", "f"] ∧ s.cache = [("b", 25), ("c", 30), ("e", 50), ("f", 60)] ∧
      s.store = [("b", (25, some 7)), ("c", (30, none)), ("e", (50, none)), ("f", (60, some 6))] := by decide +kernel

/-- Another order. -/
example :
    let s := threeF.run exFlat mixedF (List.replicate 20 2 ++ List.replicate 20 0 ++ List.replicate 20 1)
    s.thr 0 = .done (.ids ["e", "f"]) ∧ s.thr 1 = .done (.flag true) ∧ s.thr 2 = .done (.flag false) ∧
      s.ids = ["b", "c", "e", "f"] := by decide +kernel

example : Settled threeF ∧ Apart mixedF threeF ∧ IsArgsort exFlat.argsort ∧
    (∀ x ∈ heldF threeF, exFlat.finite x.vec = true ∧ exFlat.dim x.vec = exFlat.dim 24) ∧
    (threeF.run exFlat mixedF (List.replicate 20 3)).thr 3 = .done (.hits [⟨"b", 4, some 2⟩, ⟨"c", 6, none⟩]) :=
  ⟨threeF_settled, mixedF_apart, exArgsort_ok, by decide, by decide +kernel⟩

end Valori.Props
