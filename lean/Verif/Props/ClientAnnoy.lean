import Verif.Props.SearchDb
import Verif.Props.FlatConc
import Verif.Props.Annoy
import Verif.Spec.Ledger

/-!
# C215: a client over an Annoy index keeps count of what it was given
-/

namespace Valori.Props
open Valori Spec

variable {σ L V F M : Type} [Field F] [LinearOrder F]

/-- A request as the client takes it. -/
def anReq : LgReq V M → AnReq V M
  | .insert nd cols rows mds => .insert nd cols rows mds
  | .delete ids => .delete ids
  | .search q k => .search q k
  | .stats => .stats

/-- What a caller sees of an answer. -/
def seenAn : Except Err (AnReply F M) → LgAns
  | .ok (.ids l) => .ids l
  | .ok (.flag true) => .yes
  | .ok (.count n) => .count n
  | .ok _ => .other
  | .error .valori => .refused
  | .error _ => .raised

/-- Requests one after the other: the answers and the client. -/
def anTalk (env : AnEnv L V F M) (B : Backend σ V M) :
    Client (Annoy L V M × σ) → List (LgReq V M) → List (Except Err (AnReply F M)) × Client (Annoy L V M × σ)
  | c, [] => ([], c)
  | c, q :: h =>
    let r := Client.request (annoyParts env B) (anReq q) c
    let t := anTalk env B r.2 h
    (r.1 :: t.1, t.2)

/-- The index holds the slots. -/
structure AnHolds (f : Annoy L V M) (a : Slots V M) : Prop where
  inited : f.inited = true
  built : f.built = false
  dim : f.dimension = a.dim
  lib : f.lib.isSome = a.dim.isSome
  next : f.nextId = a.slots.length
  vectors : f.vectors = a.slots.map (Option.map Prod.fst)
  metadata : f.metadata = a.slots.map (Option.map Prod.snd)

/-- May the vector be stored? -/
def anStorable (env : AnEnv L V F M) (d : Nat) (v : V) : Bool := Annoy.valid env d v

/-- The library takes every vector. -/
def TakesAll (env : AnEnv L V F M) : Prop := ∀ l i v, ∃ l', env.addItem l i v = .ok l'

omit [Field F] [LinearOrder F] in
theorem an_loop_ok (env : AnEnv L V F M) (ha : TakesAll env) (rows : List (V × Option M))
    (hm : ∀ r ∈ rows, r.2 ≠ none) (f : Annoy L V M) (l : L) (hl : f.lib = some l) :
    ∃ l', Annoy.addLoop env rows f = (.ok ((List.range rows.length).map fun i : Nat => f.nextId + i),
      { f with vectors := f.vectors ++ rows.map (fun p => some p.1)
               metadata := f.metadata ++ rows.map (fun p => p.2)
               nextId := f.nextId + rows.length, lib := some l' }) := by
  induction rows generalizing f l with
  | nil =>
    refine ⟨l, ?_⟩
    obtain ⟨v1, v2, v3, v4, v5, v6, v7, v8⟩ := f
    simp only at hl
    subst hl
    simp [Annoy.addLoop]
  | cons r rows ih =>
    obtain ⟨v, m⟩ := r
    cases m with
    | none => exact absurd rfl (hm (v, none) (by simp))
    | some md =>
      obtain ⟨l1, h1⟩ := ha l f.nextId v
      obtain ⟨l2, h2⟩ := ih (fun r hr => hm r (List.mem_cons_of_mem _ hr))
        { f with nextId := f.nextId + 1, vectors := f.vectors ++ [some v],
                 metadata := f.metadata ++ [some md], lib := some l1 } l1 rfl
      refine ⟨l2, ?_⟩
      simp only [Annoy.addLoop, hl, h1, h2]
      simp only [List.map_cons, List.append_assoc, List.singleton_append, List.length_cons,
        List.range_succ_eq_map, List.map_map, Function.comp_def]
      congr 2
      · congr 1
        · simp
        · apply List.map_congr_left; intro i _; simp only [Nat.succ_eq_add_one]; push_cast; omega
      · push_cast; omega

theorem fill_mdList (env : AnEnv L V F M) (rows : List V) (mds : Option (List (Option M)))
    (hm : ∀ l, mds = some l → none ∉ l) (ha : Slots.aligned rows mds = true) :
    (rows.zip (Annoy.mdList env rows mds)).map (fun p => some p.1) =
        (Slots.fill env.emptyMd rows mds).map (Option.map Prod.fst) ∧
      (rows.zip (Annoy.mdList env rows mds)).map (fun p => p.2) =
        (Slots.fill env.emptyMd rows mds).map (Option.map Prod.snd) ∧
      (rows.zip (Annoy.mdList env rows mds)).length = rows.length ∧
      (Slots.fill env.emptyMd rows mds).length = rows.length := by
  cases mds with
  | none =>
    simp only [Annoy.mdList, Slots.fill]
    refine ⟨?_, ?_, by simp, by simp⟩
    · apply List.ext_getElem <;> simp
    · apply List.ext_getElem <;> simp
  | some l =>
    have hl : rows.length = l.length := by simpa [Slots.aligned] using ha
    have hn : ∀ p ∈ rows.zip l, p.2 ≠ none := by
      rintro ⟨v, m⟩ hp rfl
      exact hm l rfl (List.of_mem_zip hp).2
    simp only [Annoy.mdList, Slots.fill, List.map_map]
    refine ⟨?_, ?_, by simp [hl], by simp [hl]⟩
    · apply List.map_congr_left
      rintro ⟨v, _ | m⟩ hp
      · exact absurd rfl (hn _ hp)
      · rfl
    · apply List.map_congr_left
      rintro ⟨v, _ | m⟩ hp
      · exact absurd rfl (hn _ hp)
      · rfl

theorem an_insert_right (env : AnEnv L V F M) (ha : TakesAll env) (f : Annoy L V M) (a : Slots V M)
    (h : AnHolds f a) (nd cols : Nat) (rows : List V) (mds : Option (List (Option M)))
    (hm : ∀ l, mds = some l → none ∉ l) :
    AnHolds (Annoy.insert env nd cols rows mds f).2
        (Slots.next (S := Unit) env.parse (anStorable env) env.emptyMd a (.insert nd cols rows mds)) ∧
      (a.accepts (anStorable env) nd cols rows mds = true → (Annoy.insert env nd cols rows mds f).1 =
        .ok ((List.range' a.slots.length rows.length).map toString)) ∧
      (a.accepts (anStorable env) nd cols rows mds = false → rows ≠ [] →
        ∃ e, e ≠ .valori ∧ (Annoy.insert env nd cols rows mds f).1 = .error e) := by
  obtain ⟨g1, g2, g3, g4, g5, g6, g7⟩ := h
  have hml : (Slots.aligned rows mds = true) ↔ rows.length = (Annoy.mdList env rows mds).length := by
    cases mds <;> simp [Annoy.mdList, Slots.aligned]
  have hins : Annoy.insert env nd cols rows mds f =
      (match Annoy.add env nd cols rows (Annoy.mdList env rows mds) f with
        | (.ok ids, f') => (.ok (ids.map toString), f')
        | (.error e, f') => (.error e, f')) := by
    cases mds <;> rfl
  have hrej : a.accepts (anStorable env) nd cols rows mds = false → ∀ e f', e ≠ Err.valori →
      Annoy.add env nd cols rows (Annoy.mdList env rows mds) f = (.error e, f') →
      AnHolds f' ⟨a.offer nd cols rows mds, a.slots⟩ →
      AnHolds (Annoy.insert env nd cols rows mds f).2
        (Slots.next (S := Unit) env.parse (anStorable env) env.emptyMd a (.insert nd cols rows mds)) ∧
      (a.accepts (anStorable env) nd cols rows mds = true → (Annoy.insert env nd cols rows mds f).1 =
        .ok ((List.range' a.slots.length rows.length).map toString)) ∧
      (a.accepts (anStorable env) nd cols rows mds = false → rows ≠ [] →
        ∃ e, e ≠ .valori ∧ (Annoy.insert env nd cols rows mds f).1 = .error e) := by
    intro hacc e f' he hadd hh
    rw [hins, hadd]
    simp only [Slots.next, hacc]
    exact ⟨hh, fun h => (by cases h), fun _ _ => ⟨e, he, rfl⟩⟩
  by_cases hal : Slots.aligned rows mds = true
  · by_cases hnd : nd < 2
    · refine hrej ?_ .indexRange f (by decide) ?_ ?_
      · have : (nd == 2) = false := by simp; omega
        simp [Slots.accepts, this]
      · simp [Annoy.add, g1, hml.1 hal, hnd]
      · have : a.offer nd cols rows mds = a.dim := by
          simp only [Slots.offer]
          rw [if_neg]
          simp; omega
        rw [this]
        exact ⟨g1, g2, g3, g4, g5, g6, g7⟩
    · have hoff : a.offer nd cols rows mds = some (a.dim.getD cols) := by
        simp only [Slots.offer]
        rw [if_pos]
        simp [hal]; omega
      obtain ⟨f1, hf1⟩ : ∃ f1, f1 = (match f.dimension with
        | none => { f with dimension := some cols, lib := some (env.create cols f.metric) }
        | some _ => f) := ⟨_, rfl⟩
      have hadd : Annoy.add env nd cols rows (Annoy.mdList env rows mds) f =
          (if f1.dimension ≠ some cols then (.error .index, f1)
          else if !(rows.all fun v => decide (nd = 2) && Annoy.valid env cols v) then (.error .validation, f1)
          else Annoy.addLoop env (rows.zip (Annoy.mdList env rows mds)) f1) := by
        rw [hf1, Annoy.add, if_neg (by simp [g1]), if_neg (by simp [hml.1 hal]), if_neg hnd]
        cases f.dimension <;> rfl
      have hh1 : AnHolds f1 ⟨some (a.dim.getD cols), a.slots⟩ := by
        cases hd : a.dim with
        | none =>
          rw [g3, hd] at hf1
          subst hf1
          exact ⟨g1, g2, rfl, rfl, g5, g6, g7⟩
        | some d =>
          rw [g3, hd] at hf1
          subst hf1
          rw [hd] at g3 g4
          exact ⟨g1, g2, g3, g4, g5, g6, g7⟩
      by_cases hc : a.dim.getD cols = cols
      · have hd1 : f1.dimension = some cols := by rw [hh1.dim]; simp [hc]
        rw [hd1] at hadd
        simp only [ne_eq, not_true_eq_false, if_false] at hadd
        by_cases hv : (rows.all fun v => decide (nd = 2) && Annoy.valid env cols v) = true
        · simp only [hv, Bool.not_true, Bool.false_eq_true, if_false] at hadd
          obtain ⟨l, hl⟩ : ∃ l, f1.lib = some l := by
            have := hh1.lib
            exact Option.isSome_iff_exists.1 this
          obtain ⟨q1, q2, q3, q4⟩ := fill_mdList env rows mds hm hal
          obtain ⟨l', hl'⟩ := an_loop_ok env ha (rows.zip (Annoy.mdList env rows mds))
            (fun r hr => Annoy.mdList_some env rows hm _ (List.of_mem_zip hr).2) f1 l hl
          rw [hl', q1, q2, q3] at hadd
          rw [hins, hadd]
          have hnew : AnHolds { f1 with
              vectors := f1.vectors ++ (Slots.fill env.emptyMd rows mds).map (Option.map Prod.fst)
              metadata := f1.metadata ++ (Slots.fill env.emptyMd rows mds).map (Option.map Prod.snd)
              nextId := f1.nextId + rows.length, lib := some l' }
              ⟨a.offer nd cols rows mds, a.slots ++ Slots.fill env.emptyMd rows mds⟩ := by
            rw [hoff]
            refine ⟨hh1.inited, hh1.built, hh1.dim, rfl, ?_, ?_, ?_⟩
            · simp only [hh1.next, List.length_append, q4]; push_cast; rfl
            · simp only [hh1.vectors, List.map_append]
            · simp only [hh1.metadata, List.map_append]
          have hids : ((List.range rows.length).map fun i : Nat => f1.nextId + i).map toString =
              (List.range' a.slots.length rows.length).map toString := by
            rw [hh1.next, List.range'_eq_map_range, List.map_map, List.map_map]
            apply List.map_congr_left
            intro i _
            simp only [Function.comp_apply]
            rfl
          cases hacc : a.accepts (anStorable env) nd cols rows mds with
          | true =>
            simp only [Slots.next, hacc, if_true]
            refine ⟨hnew, fun _ => by rw [hids], fun h => (by cases h)⟩
          | false =>
            have hre : rows = [] := by
              by_contra hne
              obtain ⟨v, hvm⟩ := List.exists_mem_of_ne_nil _ hne
              have hall := List.all_eq_true.1 hv
              have h2 : nd = 2 := by have := hall v hvm; simp at this; exact this.1
              have : rows.all (anStorable env cols) = true := by
                rw [List.all_eq_true]
                intro w hw
                have := hall w hw
                simp at this
                exact this.2
              rw [Slots.accepts, hal, this, h2, hc] at hacc
              simp at hacc
            subst hre
            simp only [Slots.next, hacc]
            refine ⟨?_, fun h => (by cases h), fun _ h => absurd rfl h⟩
            have hf : Slots.fill env.emptyMd ([] : List V) mds = [] := by
              rw [← List.length_eq_zero_iff, q4]; rfl
            rw [hf, List.append_nil] at hnew
            rw [hf]
            exact hnew
        · have hv' : (rows.all fun v => decide (nd = 2) && Annoy.valid env cols v) = false := by
            simpa using hv
          simp only [hv', Bool.not_false, if_true] at hadd
          refine hrej ?_ .validation f1 (by decide) hadd (by rw [hoff]; exact hh1)
          by_contra hacc
          rw [Bool.not_eq_false] at hacc
          simp only [Slots.accepts, Bool.and_eq_true, beq_iff_eq] at hacc
          refine hv ?_
          rw [List.all_eq_true]
          intro v hvm
          rw [hacc.1.1.2]
          simp only [decide_true, Bool.true_and]
          exact List.all_eq_true.1 hacc.2 v hvm
      · rw [if_pos (by rw [hh1.dim]; simpa using hc)] at hadd
        refine hrej ?_ .index f1 (by decide) hadd (by rw [hoff]; exact hh1)
        have : (a.dim.getD cols == cols) = false := by simpa using hc
        simp [Slots.accepts, this]
  · have hal' : Slots.aligned rows mds = false := by simpa using hal
    have hne : rows.length ≠ (Annoy.mdList env rows mds).length := fun h => hal (hml.2 h)
    refine hrej (by simp [Slots.accepts, hal']) .index f (by decide) ?_ ?_
    · simp [Annoy.add, g1, hne]
    · have : a.offer nd cols rows mds = a.dim := by simp [Slots.offer, hal']
      rw [this]
      exact ⟨g1, g2, g3, g4, g5, g6, g7⟩

theorem an_erase (parse : String → Option Int) (ids : List String)
    (hp : ∀ s ∈ ids, ∀ i, parse s = some i → 0 ≤ i) (is : List Int)
    (his : Annoy.parseAll parse ids = some is) (f : Annoy L V M) (a : Slots V M) (h : AnHolds f a) :
    ∃ f', Annoy.removeLoop is f = (.ok (), f') ∧ AnHolds f' (a.eraseAll parse ids) := by
  induction ids generalizing is f a with
  | nil =>
    simp only [Annoy.parseAll, Option.some.injEq] at his
    subst his
    exact ⟨f, rfl, h⟩
  | cons s ids ih =>
    simp only [Annoy.parseAll] at his
    cases hs : parse s with
    | none => rw [hs] at his; simp at his
    | some i =>
      cases ht : Annoy.parseAll parse ids with
      | none => rw [hs, ht] at his; simp at his
      | some is' =>
        rw [hs, ht] at his
        simp only [Option.some.injEq] at his
        subst his
        obtain ⟨n, rfl⟩ := Int.eq_ofNat_of_zero_le (hp s (by simp) i hs)
        have ih' := ih (fun s hs => hp s (List.mem_cons_of_mem _ hs)) is' ht
        have he : a.eraseAll parse (s :: ids) = (a.erase n).eraseAll parse ids := by
          simp only [Slots.eraseAll]
          rw [hs]
        rw [he]
        have hlen : f.vectors.length = a.slots.length := by rw [h.vectors, List.length_map]
        have hlen2 : f.metadata.length = a.slots.length := by rw [h.metadata, List.length_map]
        by_cases hn : n < a.slots.length
        · have hg1 : pyGet f.vectors (n : Int) = some f.vectors[n] := by
            simp only [pyGet, Int.natCast_nonneg, if_true, Int.toNat_natCast]
            exact List.getElem?_eq_getElem (by omega)
          have hg2 : pyGet f.metadata (n : Int) = some f.metadata[n] := by
            simp only [pyGet, Int.natCast_nonneg, if_true, Int.toNat_natCast]
            exact List.getElem?_eq_getElem (by omega)
          have hrm : Annoy.removeLoop ((n : Int) :: is') f = Annoy.removeLoop is'
              { f with vectors := f.vectors.set n none, metadata := f.metadata.set n none } := by
            simp only [Annoy.removeLoop]
            rw [if_pos (by omega), hg1]
            simp only [hg2, pySet, Int.natCast_nonneg, if_true, Int.toNat_natCast]
          rw [hrm]
          refine ih' _ _ ?_
          simp only [Slots.erase, if_pos hn]
          refine ⟨h.inited, h.built, h.dim, h.lib, ?_, ?_, ?_⟩
          · simp only [h.next, List.length_set]
          · simp only [h.vectors, List.map_set, Option.map_none]
          · simp only [h.metadata, List.map_set, Option.map_none]
        · have hrm : Annoy.removeLoop ((n : Int) :: is') f = Annoy.removeLoop is' f := by
            simp only [Annoy.removeLoop]
            rw [if_neg (by omega)]
          rw [hrm]
          refine ih' _ _ ?_
          simp only [Slots.erase, if_neg hn]
          exact h

theorem an_count (f : Annoy L V M) (a : Slots V M) (h : AnHolds f a) : Annoy.statCount f = a.count := by
  simp only [Annoy.statCount, Slots.count, h.vectors, List.filter_map, List.length_map]
  congr 2
  funext o
  cases o <;> rfl

theorem an_step (env : AnEnv L V F M) (B : Backend σ V M) (ha : TakesAll env) (f : Annoy L V M) (s : σ)
    (a : Slots V M) (h : AnHolds f a) (q : LgReq V M) (hq : Ledger.ReqOk env.parse q) :
    ∃ f', Client.request (annoyParts env B) (anReq q) ⟨(f, s), true⟩ =
        ((Client.request (annoyParts env B) (anReq q) ⟨(f, s), true⟩).1, ⟨(f', s), true⟩) ∧
      AnHolds f' (Ledger.next env.parse (anStorable env) env.emptyMd a q) ∧
      Ledger.Right env.parse (anStorable env) a q
        (seenAn (Client.request (annoyParts env B) (anReq q) ⟨(f, s), true⟩).1) := by
  have hseen : ∀ e, e ≠ Err.valori → seenAn (.error e : Except Err (AnReply F M)) = .raised := by
    intro e he
    cases e <;> first | rfl | exact absurd rfl he
  cases q with
  | insert nd cols rows mds =>
    obtain ⟨k1, k2, k3⟩ := an_insert_right env ha f a h nd cols rows mds hq
    simp only [Client.request, Bool.not_true, Bool.false_eq_true, if_false, anReq, annoyParts, Ledger.Right,
      Ledger.next]
    rcases hr : Annoy.insert env nd cols rows mds f with ⟨e | ids, f'⟩
    · rw [hr] at k1 k2 k3
      refine ⟨f', rfl, k1, ?_⟩
      cases hacc : a.accepts (anStorable env) nd cols rows mds with
      | true => have := k2 hacc; simp at this
      | false =>
        simp only [Bool.false_eq_true, if_false]
        intro hne
        obtain ⟨e', he', h'⟩ := k3 hacc hne
        simp only [Except.error.injEq] at h'
        subst h'
        exact hseen _ he'
    · rw [hr] at k1 k2 k3
      refine ⟨f', rfl, k1, ?_⟩
      cases hacc : a.accepts (anStorable env) nd cols rows mds with
      | true =>
        have := k2 hacc
        simp only [Except.ok.injEq] at this
        subst this
        rfl
      | false =>
        simp only [Bool.false_eq_true, if_false]
        intro hne
        obtain ⟨e', -, h'⟩ := k3 hacc hne
        simp at h'
  | delete ids =>
    simp only [Client.request, Bool.not_true, Bool.false_eq_true, if_false, anReq, annoyParts, Ledger.Right,
      Ledger.next, Annoy.delete]
    obtain ⟨p1, p2⟩ := Annoy.parseAll_eq (parse := env.parse) ids
    cases hpa : Annoy.parseAll env.parse ids with
    | none =>
      have hnum : Ledger.numbers env.parse ids = false := by
        obtain ⟨x, hx, hxn⟩ := p1.1 hpa
        simp only [Ledger.numbers, List.all_eq_false]
        exact ⟨x, hx, by simp [hxn]⟩
      rw [hnum]
      exact ⟨f, rfl, h, rfl⟩
    | some is =>
      have hnum : Ledger.numbers env.parse ids = true := by
        by_contra hc
        simp only [Ledger.numbers, List.all_eq_true, not_forall] at hc
        obtain ⟨x, hx, hxn⟩ := hc
        have : Annoy.parseAll env.parse ids = none := p1.2 ⟨x, hx, by simpa using hxn⟩
        rw [this] at hpa
        simp at hpa
      obtain ⟨f', r1, r2⟩ := an_erase env.parse ids hq is hpa f a h
      rw [hnum]
      simp only [Annoy.remove, h.inited, Bool.not_true, Bool.false_eq_true, if_false, r1]
      exact ⟨f', rfl, r2, rfl⟩
  | search q k =>
    have hs : Annoy.search env q k f = .error .index := by simp [Annoy.search, h.inited, h.built]
    simp only [Client.request, Bool.not_true, Bool.false_eq_true, if_false, anReq, annoyParts, hs]
    exact ⟨f, rfl, h, rfl⟩
  | stats =>
    refine ⟨f, rfl, h, ?_⟩
    show LgAns.count (Annoy.statCount f) = .count a.count
    rw [an_count f a h]

/-- The slots after some requests. -/
def ledgerAfter (env : AnEnv L V F M) (a : Slots V M) (h : List (LgReq V M)) : Slots V M :=
  h.foldl (Ledger.next env.parse (anStorable env) env.emptyMd) a

theorem an_talk (env : AnEnv L V F M) (B : Backend σ V M) (ha : TakesAll env) (h : List (LgReq V M))
    (hh : ∀ q ∈ h, Ledger.ReqOk env.parse q) (s : σ) (f : Annoy L V M) (a : Slots V M) (hf : AnHolds f a) :
    ∃ f', (anTalk env B ⟨(f, s), true⟩ h).2 = ⟨(f', s), true⟩ ∧ AnHolds f' (ledgerAfter env a h) ∧
      Ledger.AllRight env.parse (anStorable env) env.emptyMd a h
        ((anTalk env B ⟨(f, s), true⟩ h).1.map seenAn) := by
  induction h generalizing f a with
  | nil => exact ⟨f, rfl, hf, trivial⟩
  | cons q h ih =>
    obtain ⟨f1, k1, k2, k3⟩ := an_step env B ha f s a hf q (hh q (by simp))
    obtain ⟨f2, i1, i2, i3⟩ := ih (fun q hq => hh q (List.mem_cons_of_mem _ hq)) f1 _ k2
    refine ⟨f2, ?_, i2, ?_⟩
    · simp only [anTalk]
      rw [k1]
      exact i1
    · simp only [anTalk, List.map_cons]
      refine ⟨k3, ?_⟩
      rw [k1]
      exact i3

/-- **C215 (partial).**  A new client over an Annoy index opens, closes, and in between answers inserts,
deletions and questions for the number of vectors as it should, whatever the requests, refused ones
included; searches are refused (C170).  Missing: updates and a second session, which
`C215_update_refuted` and `C215_reopen_refuted` are about. -/
theorem C215_session_partial (env : AnEnv L V F M) (B : Backend σ V M) (ha : TakesAll env) (numTrees : Int)
    (metric : AnMetric) (f : Annoy L V M) (hf : Annoy.new numTrees metric = .ok f) (s : σ)
    (h : List (LgReq V M)) (hh : ∀ q ∈ h, Ledger.ReqOk env.parse q) :
    ∃ c c', Client.init (annoyParts env B) ⟨(f, s), false⟩ = (.ok (), c) ∧
      Ledger.AllRight env.parse (anStorable env) env.emptyMd ⟨none, []⟩ h ((anTalk env B c h).1.map seenAn) ∧
      Client.close (annoyParts env B) (anTalk env B c h).2 = (.ok (), c') ∧
      c'.inited = false ∧ c'.w.1.vectors = [] ∧ c'.w.2 = B.close (B.init s) := by
  have hnew : f = ⟨[], [], none, 0, none, false, false, metric⟩ := by
    simp only [Annoy.new] at hf
    split at hf
    · cases hf
    · split at hf
      · cases hf
      · cases hf; rfl
  subst hnew
  obtain ⟨f', k1, k2, k3⟩ := an_talk env B ha h hh (B.init s)
    (Annoy.init ⟨[], [], none, 0, none, false, false, metric⟩) ⟨none, []⟩
    ⟨rfl, rfl, rfl, rfl, rfl, rfl, rfl⟩
  refine ⟨⟨(Annoy.init ⟨[], [], none, 0, none, false, false, metric⟩, B.init s), true⟩,
    ⟨(Annoy.close f', B.close (B.init s)), false⟩, rfl, k3, ?_⟩
  rw [k1]
  exact ⟨rfl, rfl, rfl, rfl⟩

/-! ## Updates -/

theorem an_update_lost (env : AnEnv L V F M) (ha : TakesAll env) (f : Annoy L V M) (a : Slots V M)
    (hf : AnHolds f a) (id : String) (n : Nat) (hid : env.parse id = some (n : Int)) (d : Nat)
    (hd : a.dim = some d) (hl : (a.at? n).isSome = true) (v : V) (hv : anStorable env d v = true)
    (m : Option M) :
    ∃ f1, Annoy.update env id v m f = (.ok true, f1) ∧ Annoy.delete env [id] f1 = (.ok true, f1) ∧
      Annoy.statCount f1 = a.count := by
  have hn : n < a.slots.length := by
    by_contra hc
    simp [Slots.at?, List.getElem?_eq_none (Nat.le_of_not_lt hc)] at hl
  obtain ⟨⟨w, md⟩, hw⟩ : ∃ p, a.slots[n] = some p := by
    rw [Slots.at?, List.getElem?_eq_getElem hn] at hl
    exact Option.isSome_iff_exists.1 hl
  have hlen : f.vectors.length = a.slots.length := by rw [hf.vectors, List.length_map]
  have hlen2 : f.metadata.length = a.slots.length := by rw [hf.metadata, List.length_map]
  have hg : ∀ {α : Type} (l : List α) (h : n < l.length), pyGet l (n : Int) = some l[n] := by
    intro α l h
    simp only [pyGet, Int.natCast_nonneg, if_true, Int.toNat_natCast]
    exact List.getElem?_eq_getElem h
  have hrm : ∀ (g : Annoy L V M), n < g.vectors.length → n < g.metadata.length →
      Annoy.removeLoop [(n : Int)] g =
        (.ok (), { g with vectors := g.vectors.set n none, metadata := g.metadata.set n none }) := by
    intro g h1 h2
    simp only [Annoy.removeLoop]
    rw [if_pos (by omega), hg _ h1]
    simp only [hg _ h2, pySet, Int.natCast_nonneg, if_true, Int.toNat_natCast]
  obtain ⟨md', hmd⟩ : ∃ md', Annoy.updMd (n : Int) m f = some (some md') := by
    cases m with
    | some x => exact ⟨x, rfl⟩
    | none =>
      refine ⟨md, ?_⟩
      simp only [Annoy.updMd]
      rw [hg _ (by omega)]
      simp only [hf.metadata, List.getElem_map, hw, Option.map_some]
  obtain ⟨l, hlib⟩ : ∃ l, f.lib = some l := by
    have := hf.lib
    rw [hd] at this
    exact Option.isSome_iff_exists.1 this
  obtain ⟨l', hl'⟩ := ha l (n : Int) v
  have hdv : env.dim v = d := by
    simp only [anStorable, Annoy.valid, Bool.and_eq_true, decide_eq_true_eq] at hv
    exact hv.1.2
  have hdim : f.dimension = some d := hf.dim.trans hd
  have hvv : Annoy.valid env d v = true := hv
  have hup : Annoy.update env id v m f = (.ok true, { f with
      vectors := f.vectors.set n none ++ [some v], metadata := f.metadata.set n none ++ [some md'],
      lib := some l' }) := by
    simp only [Annoy.update, hid]
    rw [if_neg (by omega), hmd]
    simp only [Annoy.remove, hf.inited, Bool.not_true, Bool.false_eq_true, if_false,
      hrm f (by omega) (by omega), Annoy.add, hdim, hdv, List.all_cons, List.all_nil, hvv, decide_true,
      Bool.and_self, List.zip_cons_cons, List.zip_nil_right, Annoy.addLoop, hlib, hl', ne_eq,
      List.length_cons, List.length_nil, not_true_eq_false, Nat.lt_irrefl]
  refine ⟨_, hup, ?_, ?_⟩
  · simp only [Annoy.delete, Annoy.parseAll, hid, Annoy.remove, hf.inited, Bool.not_true, Bool.false_eq_true,
      if_false]
    rw [hrm _ (by simp; omega) (by simp; omega)]
    simp only [List.set_append, List.length_set, hlen, hlen2, hn, if_true, List.set_set]
  · have hcnt : ∀ (l : List (Option (V × M))) (h : n < l.length), l[n].isSome = true →
        (((l.map (Option.map Prod.fst)).set n none).filter Option.isSome).length + 1 =
          (l.filter Option.isSome).length := by
      intro l
      clear hn hid hl hw hg hrm hmd hl' hup
      induction l generalizing n with
      | nil => intro h; simp at h
      | cons o l ih =>
        intro h ho
        cases n with
        | zero =>
          simp only [List.getElem_cons_zero] at ho
          simp only [List.map_cons, List.set_cons_zero, List.filter_cons, ho, if_true, Option.isSome_none,
            Bool.false_eq_true, if_false, List.length_cons, List.filter_map, List.length_map]
          congr 3
          funext o
          cases o <;> rfl
        | succ n =>
          have := ih n (by simpa using h) (by simpa using ho)
          simp only [List.map_cons, List.set_cons_succ, List.filter_cons]
          cases o <;> simp [this]
    simp only [Annoy.statCount, List.filter_append, List.length_append, hf.vectors]
    have := hcnt a.slots hn (by rw [hw]; rfl)
    simp only [Slots.count]
    rw [← this]
    rfl

/-! ## A second session -/

theorem an_reopen_worn (env : AnEnv L V F M) (B : Backend σ V M) (f : Annoy L V M) (s : σ)
    (a : Slots V M) (hf : AnHolds f a) (d : Nat) (hd : a.dim = some d) (rows : List V) (hr : rows ≠ [])
    (hv : ∀ v ∈ rows, anStorable env d v = true) :
    ∃ c c' c'', Client.close (annoyParts env B) ⟨(f, s), true⟩ = (.ok (), c) ∧
      Client.init (annoyParts env B) c = (.ok (), c') ∧
      Client.request (annoyParts env B) (.insert 2 d rows none) c' = (.error .attribute, c'') ∧
      (Client.request (annoyParts env B) .stats c'').1 = .ok (.count 1) := by
  obtain ⟨v, rest, rfl⟩ := List.exists_cons_of_ne_nil hr
  have hins : Annoy.insert env 2 d (v :: rest) none (Annoy.init (Annoy.close f)) =
      (.error .attribute, ⟨[some v], [some env.emptyMd], some d, 1, none, false, true, f.metric⟩) := by
    have hdim : f.dimension = some d := hf.dim.trans hd
    have hno : ¬ (Annoy.valid env d v = false ∨ ∃ x ∈ rest, Annoy.valid env d x = false) := by
      rintro (h | ⟨x, hx, h⟩)
      · have := hv v (by simp); rw [anStorable, h] at this; cases this
      · have := hv x (List.mem_cons_of_mem _ hx); rw [anStorable, h] at this; cases this
    simp [Annoy.insert, Annoy.add, Annoy.init, Annoy.close, Annoy.clear, hdim, Annoy.addLoop, hno]
  refine ⟨_, _, ⟨(⟨[some v], [some env.emptyMd], some d, 1, none, false, true, f.metric⟩, B.init (B.close s)),
    true⟩, rfl, rfl, ?_, rfl⟩
  show Client.request (annoyParts env B) (.insert 2 d (v :: rest) none)
    ⟨(Annoy.init (Annoy.close f), B.init (B.close s)), true⟩ = _
  simp only [Client.request, Bool.not_true, Bool.false_eq_true, if_false, annoyParts, hins, anFwd]

theorem an_talked (env : AnEnv L V F M) (B : Backend σ V M) (ha : TakesAll env) (metric : AnMetric) (s : σ)
    (h : List (LgReq V M)) (hh : ∀ q ∈ h, Ledger.ReqOk env.parse q) :
    ∃ f, (anTalk env B ⟨(anFresh metric, s), true⟩ h).2 = ⟨(f, s), true⟩ ∧
      AnHolds f (ledgerAfter env ⟨none, []⟩ h) := by
  obtain ⟨f, k1, k2, -⟩ := an_talk env B ha h hh s (anFresh metric) ⟨none, []⟩
    ⟨rfl, rfl, rfl, rfl, rfl, rfl, rfl⟩
  exact ⟨f, k1, k2⟩

/-- **C215, refuted:** an updated vector can be deleted.  After a new client got any requests, an update
of a live id with a vector that may be stored says yes; deleting the id says yes too and changes nothing,
and the number of vectors is what it was before. -/
theorem C215_update_refuted (env : AnEnv L V F M) (B : Backend σ V M) (ha : TakesAll env) (metric : AnMetric)
    (s : σ) (h : List (LgReq V M)) (hh : ∀ q ∈ h, Ledger.ReqOk env.parse q) (id : String) (n : Nat)
    (hid : env.parse id = some (n : Int)) (d : Nat) (hd : (ledgerAfter env ⟨none, []⟩ h).dim = some d)
    (hl : ((ledgerAfter env ⟨none, []⟩ h).at? n).isSome = true) (v : V) (hv : anStorable env d v = true)
    (m : Option M) :
    ∃ c, Client.request (annoyParts env B) (.update id v m)
        (anTalk env B ⟨(anFresh metric, s), true⟩ h).2 = (.ok (.flag true), c) ∧
      Client.request (annoyParts env B) (.delete [id]) c = (.ok (.flag true), c) ∧
      (Client.request (annoyParts env B) .stats c).1 =
        .ok (.count (ledgerAfter env ⟨none, []⟩ h).count) := by
  obtain ⟨f, k1, k2⟩ := an_talked env B ha metric s h hh
  obtain ⟨f1, u1, u2, u3⟩ := an_update_lost env ha f _ k2 id n hid d hd hl v hv m
  rw [k1]
  refine ⟨⟨(f1, s), true⟩, ?_, ?_, ?_⟩
  · simp only [Client.request, Bool.not_true, Bool.false_eq_true, if_false, annoyParts, u1, anFwd]
  · simp only [Client.request, Bool.not_true, Bool.false_eq_true, if_false, annoyParts, u2, anFwd]
  · simp only [Client.request, Bool.not_true, Bool.false_eq_true, if_false, annoyParts, u3]

/-- **C215, refuted:** a closed client can be opened and filled again.  After a session in which a
dimension was fixed, every array of vectors of this dimension is refused with AttributeError, and counted
as one vector more. -/
theorem C215_reopen_refuted (env : AnEnv L V F M) (B : Backend σ V M) (ha : TakesAll env) (metric : AnMetric)
    (s : σ) (h : List (LgReq V M)) (hh : ∀ q ∈ h, Ledger.ReqOk env.parse q) (d : Nat)
    (hd : (ledgerAfter env ⟨none, []⟩ h).dim = some d) (rows : List V) (hr : rows ≠ [])
    (hv : ∀ v ∈ rows, anStorable env d v = true) :
    ∃ c c' c'', Client.close (annoyParts env B) (anTalk env B ⟨(anFresh metric, s), true⟩ h).2 = (.ok (), c) ∧
      Client.init (annoyParts env B) c = (.ok (), c') ∧
      Client.request (annoyParts env B) (.insert 2 d rows none) c' = (.error .attribute, c'') ∧
      (Client.request (annoyParts env B) .stats c'').1 = .ok (.count 1) := by
  obtain ⟨f, k1, k2⟩ := an_talked env B ha metric s h hh
  rw [k1]
  exact an_reopen_worn env B f s _ k2 d hd rows hr hv

/-- A history with a refused insert, a deletion and a question. -/
def exLedger : List (LgReq Int Nat) :=
  [.insert 2 1 [10, 20] none, .insert 3 1 [5] none, .delete ["0"], .stats, .search 10 1]

example : (∀ q ∈ exLedger, Ledger.ReqOk exAn.parse q) ∧ TakesAll exAn ∧
    (anTalk exAn (plainStore Int Nat) ⟨(anFresh .euclidean, []), true⟩ exLedger).1.map seenAn =
      [.ids ["0", "1"], .raised, .yes, .count 1, .raised] ∧
    (ledgerAfter exAn ⟨none, []⟩ exLedger).dim = some 1 ∧
    ((ledgerAfter exAn ⟨none, []⟩ exLedger).at? 1).isSome = true ∧ anStorable exAn 1 30 = true := by
  refine ⟨?_, ?_, by decide +kernel, by decide +kernel, by decide +kernel, by decide +kernel⟩
  · intro q hq
    simp only [exLedger, List.mem_cons, List.not_mem_nil, or_false] at hq
    rcases hq with rfl | rfl | rfl | rfl | rfl
    · intro l hl; cases hl
    · intro l hl; cases hl
    · intro s hs i hi; simp at hs; subst hs; simp [exAn] at hi; omega
    · trivial
    · trivial
  · exact fun l i v => ⟨_, rfl⟩

end Valori.Props
