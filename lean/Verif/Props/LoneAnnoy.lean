import Verif.Lemmas.Lsh
import Verif.Props.AnnoyEnds

/-!
# C213: a call nobody interrupts on an Annoy index
-/

namespace Valori.AConc
variable {L V F M : Type} {env : AConcEnv L V F} {ops : Nat → AOp V M} {t : Nat} {f : Nat → AAt F M}

/-- The index with thread `t` at a place. -/
def putA (f : Nat → AAt F M) (t : Nat) (x : AAt F M × AConc L V F M) : AConc L V F M :=
  { x.2 with thr := Function.update f t x.1 }

/-- Thread `t` gets from one place and index to another with statements of its own. -/
def GetsA (env : AConcEnv L V F) (ops : Nat → AOp V M) (t : Nat) (f : Nat → AAt F M) (x y : AAt F M × AConc L V F M) :
    Prop := ∃ n, (putA f t x).run env ops (List.replicate n t) = putA f t y

theorem GetsA.refl (x : AAt F M × AConc L V F M) : GetsA env ops t f x x := ⟨0, rfl⟩

theorem GetsA.one {x y : AAt F M × AConc L V F M} (h : (putA f t x).step env ops t = putA f t y) :
    GetsA env ops t f x y := ⟨1, h⟩

theorem GetsA.trans {x y z : AAt F M × AConc L V F M} (h : GetsA env ops t f x y) (h' : GetsA env ops t f y z) :
    GetsA env ops t f x z := by
  obtain ⟨n, h⟩ := h
  obtain ⟨m, h'⟩ := h'
  refine ⟨n + m, ?_⟩
  rw [List.replicate_add]
  simp only [run, List.foldl_append] at h h' ⊢
  rw [h, h']

theorem getsA_ins {rows : List (V × M)} (ho : ops t = .insert rows) (i : Nat) (ids : List Nat) (p : AIns)
    (c : AConc L V F M) : GetsA env ops t f (.ins i ids p, c) (stepIns env rows c i ids p) := by
  refine .one ?_
  cases p <;> simp only [step, ho, putA, Function.update_self, Function.update_idem, stepIns] <;>
    first
    | rfl
    | (cases rows[i]? with
      | none => rfl
      | some x => first | rfl | (simp only []; cases env.addItem c.lib _ x.1 <;> rfl))

theorem getsA_del {l : List Nat} (ho : ops t = .delete l) (todo : List Nat) (p : ADel) (c : AConc L V F M) :
    GetsA env ops t f (.del todo p, c) (stepDel c todo p) := by
  refine .one ?_
  cases todo with
  | nil => cases p <;> simp only [step, ho, putA, Function.update_self, Function.update_idem, stepDel]
  | cons id rest =>
    by_cases h : id < c.vectors.length <;> by_cases h' : id < c.metas.length <;> cases p <;>
      simp only [step, ho, putA, Function.update_self, Function.update_idem, stepDel, h, h', if_true, if_false]

theorem getsA_srch {q : V} {k : Int} (ho : ops t = .search q k) (p : ASr F M) (c : AConc L V F M) :
    GetsA env ops t f (.srch p, c) (stepSrch env q k c p, c) := by
  refine .one ?_
  simp only [step, ho, putA, Function.update_self, Function.update_idem]
  cases p with
  | nns sk => rfl
  | test todo acc => cases todo <;> rfl
  | md n d rest acc => rfl

end Valori.AConc

namespace Valori.Props
open Valori Valori.AConc
open Valori.Spec (AnHit)
variable {L V F M : Type} {e : AnEnv L V F M} {env : AConcEnv L V F} {d : Nat} {mt : AnMetric} {ops : Nat → AOp V M}
  {s : AConc L V F M} {t : Nat}

/-- The index of the sequential model, of dimension `d`, initialised and built. -/
def plainAnnoy (d : Nat) (mt : AnMetric) (s : AConc L V F M) : Annoy L V M :=
  ⟨s.vectors, s.metas, some d, s.nextId, some s.lib, true, true, mt⟩

/-- What is outside of the thread model is what is outside of the sequential model, for an index with metric `mt`. -/
structure AMatch [Field F] [LinearOrder F] (e : AnEnv L V F M) (env : AConcEnv L V F) (mt : AnMetric) : Prop where
  add : ∀ l id v, env.addItem l id v = (e.addItem l (id : Int) v).toOption
  nns : ∀ l q k sk, env.nns l q k sk = (e.nns l q k sk).toOption
  sim : env.sim = Annoy.toSim mt
  searchK : env.searchK = e.searchK
  numTrees : env.numTrees = e.numTrees

/-- What a call that gets to its end alone leaves. -/
theorem getsA_end {r : ARes F M} {c : AConc L V F M} (h0 : s.thr t = .start)
    (h : GetsA env ops t s.thr (.start, s) (.done r, c)) :
    ∃ n, (s.run env ops (List.replicate n t)).thr t = .done r ∧
      (∀ u, u ≠ t → (s.run env ops (List.replicate n t)).thr u = s.thr u) ∧
      plainAnnoy d mt (s.run env ops (List.replicate n t)) = plainAnnoy d mt c := by
  obtain ⟨n, hn⟩ := h
  have e0 : putA s.thr t (.start, s) = s := by
    unfold putA
    have : Function.update s.thr t AAt.start = s.thr := by rw [← h0, Function.update_eq_self]
    simp only [this]
  rw [e0] at hn
  refine ⟨n, ?_, fun u hu => ?_, ?_⟩
  · rw [hn]; simp [putA]
  · rw [hn]; simp [putA, hu]
  · rw [hn]; rfl

variable [Field F] [LinearOrder F]

/-- **C213** An insertion nobody interrupts is that of a single caller. -/
theorem C213_annoy_insert (hm : AMatch e env mt) (h0 : s.thr t = .start) {rows : List (V × M)}
    (ho : ops t = .insert rows) (hv : ∀ x ∈ rows, Annoy.valid e d x.1 = true) :
    ∃ n r, (s.run env ops (List.replicate n t)).thr t = .done r ∧
      (∀ u, u ≠ t → (s.run env ops (List.replicate n t)).thr u = s.thr u) ∧
      (match r with
        | .ids ids => Annoy.insert e 2 d (rows.map Prod.fst) (some (rows.map fun x => some x.2)) (plainAnnoy d mt s) =
            (.ok (ids.map fun i : Nat => toString (i : Int)), plainAnnoy d mt (s.run env ops (List.replicate n t)))
        | .raised => ∃ x, Annoy.insert e 2 d (rows.map Prod.fst) (some (rows.map fun x => some x.2)) (plainAnnoy d mt s) =
            (.error x, plainAnnoy d mt (s.run env ops (List.replicate n t)))
        | _ => False) := by
  have loop : ∀ (rest pre : List (V × M)) (ids : List Nat) (c : AConc L V F M), rows = pre ++ rest →
      ∃ (r : ARes F M) (c' : AConc L V F M),
      GetsA env ops t s.thr (nextRow rows pre.length ids, c) (.done r, c') ∧
      (match r with
        | .ids l => ∃ l' : List Nat, l = ids ++ l' ∧
            Annoy.addLoop e (rest.map fun x => (x.1, some x.2)) (plainAnnoy d mt c) =
              (.ok (l'.map Int.ofNat), plainAnnoy d mt c')
        | .raised => ∃ x, Annoy.addLoop e (rest.map fun x => (x.1, some x.2)) (plainAnnoy d mt c) =
            (.error x, plainAnnoy d mt c')
        | _ => False) := by
    intro rest
    induction rest with
    | nil =>
      intro pre ids c hrows
      have : nextRow rows pre.length ids = (.done (.ids ids) : AAt F M) := by
        unfold nextRow; rw [if_neg (by rw [hrows]; simp)]
      rw [this]
      exact ⟨.ids ids, c, .refl _, [], by simp, rfl⟩
    | cons x rest ih =>
      intro pre ids c hrows
      have hlt : pre.length < rows.length := by rw [hrows]; simp
      have hrow : rows[pre.length]? = some x := by rw [hrows]; simp
      have : nextRow rows pre.length ids = (.ins pre.length ids .read : AAt F M) := by
        unfold nextRow; rw [if_pos hlt]
      rw [this]
      have g1 := (getsA_ins (env := env) (f := s.thr) ho pre.length ids .read c)
      have g2 := g1.trans (getsA_ins ho pre.length ids (.load c.nextId) c)
      have g3 := g2.trans (getsA_ins ho pre.length ids (.put c.nextId c.nextId) c)
      simp only [stepIns] at g3
      have g4 := g3.trans (getsA_ins ho pre.length ids (.vec c.nextId) _)
      simp only [stepIns, hrow] at g4
      have g5 := g4.trans (getsA_ins ho pre.length ids (.md c.nextId) _)
      simp only [stepIns, hrow] at g5
      have g6 := g5.trans (getsA_ins ho pre.length ids (.add c.nextId) _)
      simp only [stepIns, hrow] at g6
      have hl : Annoy.addLoop e ((x :: rest).map fun x => (x.1, some x.2)) (plainAnnoy d mt c) =
          (match e.addItem c.lib (c.nextId : Int) x.1 with
            | .error y => (.error y, plainAnnoy d mt ⟨c.vectors ++ [some x.1], c.metas ++ [some x.2], c.nextId + 1, c.lib, c.thr⟩)
            | .ok l =>
              match Annoy.addLoop e (rest.map fun x => (x.1, some x.2)) (plainAnnoy d mt
                  ⟨c.vectors ++ [some x.1], c.metas ++ [some x.2], c.nextId + 1, l, c.thr⟩) with
              | (.error y, f') => (.error y, f')
              | (.ok ids, f') => (.ok ((c.nextId : Int) :: ids), f')) := rfl
      rw [hl]
      have ha := hm.add c.lib c.nextId x.1
      cases hx : e.addItem c.lib (c.nextId : Int) x.1 with
      | error y =>
        rw [hx] at ha
        simp only [ha, Except.toOption] at g6
        exact ⟨.raised, _, g6, y, rfl⟩
      | ok l =>
        rw [hx] at ha
        simp only [ha, Except.toOption] at g6
        obtain ⟨r, c', a1, a2⟩ := ih (pre ++ [x]) (ids ++ [c.nextId])
          ⟨c.vectors ++ [some x.1], c.metas ++ [some x.2], c.nextId + 1, l, c.thr⟩ (by simp [hrows])
        simp only [List.length_append, List.length_cons, List.length_nil] at a1
        refine ⟨r, c', g6.trans a1, ?_⟩
        cases r with
        | ids l =>
          obtain ⟨l', b1, b2⟩ := a2
          refine ⟨c.nextId :: l', by rw [b1]; simp, ?_⟩
          simp only [b2]
          rfl
        | raised =>
          obtain ⟨y, b⟩ := a2
          exact ⟨y, by simp only [b]⟩
        | _ => exact a2.elim
  obtain ⟨r, c', a1, a2⟩ := loop rows [] [] s rfl
  have hstart : GetsA env ops t s.thr (.start, s) (nextRow rows 0 [], s) := by
    refine .one ?_
    simp only [step, ho, putA, Function.update_self, Function.update_idem]
  obtain ⟨n, b1, b2, b3⟩ := getsA_end (d := d) (mt := mt) h0 (hstart.trans a1)
  refine ⟨n, r, b1, b2, ?_⟩
  have hadd : Annoy.add e 2 d (rows.map Prod.fst) (rows.map fun x => some x.2) (plainAnnoy d mt s) =
      Annoy.addLoop e (rows.map fun x => (x.1, some x.2)) (plainAnnoy d mt s) := by
    unfold Annoy.add
    have hz : (rows.map Prod.fst).zip (rows.map fun x => some x.2) = rows.map fun x => (x.1, some x.2) := by
      rw [List.zip_map']
    simp only [plainAnnoy, hz]
    simp
    intro v m hx hf
    rw [hv (v, m) hx] at hf; cases hf
  rw [b3]
  cases r with
  | ids l =>
    obtain ⟨l', rfl, h⟩ := a2
    simp only [Annoy.insert, hadd, h, List.map_map, List.nil_append]
    rfl
  | raised =>
    obtain ⟨x, h⟩ := a2
    exact ⟨x, by simp only [Annoy.insert, hadd, h]⟩
  | _ => exact a2.elim

omit [Field F] [LinearOrder F] in
/-- **C213** A deletion nobody interrupts is that of a single caller. -/
theorem C213_annoy_delete (h0 : s.thr t = .start) {l : List Nat} (ho : ops t = .delete l) {ids : List String}
    (hp : Annoy.parseAll e.parse ids = some (l.map Int.ofNat)) :
    ∃ n r, (s.run env ops (List.replicate n t)).thr t = .done r ∧
      (∀ u, u ≠ t → (s.run env ops (List.replicate n t)).thr u = s.thr u) ∧
      (match r with
        | .flag b => Annoy.delete e ids (plainAnnoy d mt s) =
            (.ok b, plainAnnoy d mt (s.run env ops (List.replicate n t)))
        | .raised => ∃ x, Annoy.delete e ids (plainAnnoy d mt s) =
            (.error x, plainAnnoy d mt (s.run env ops (List.replicate n t)))
        | _ => False) := by
  have loop : ∀ (rest : List Nat) (c : AConc L V F M), ∃ (r : ARes F M) (c' : AConc L V F M),
      GetsA env ops t s.thr (nextDel rest, c) (.done r, c') ∧
      (match r with
        | .flag b => b = true ∧ Annoy.removeLoop (rest.map Int.ofNat) (plainAnnoy d mt c) = (.ok (), plainAnnoy d mt c')
        | .raised => ∃ x, Annoy.removeLoop (rest.map Int.ofNat) (plainAnnoy d mt c) = (.error x, plainAnnoy d mt c')
        | _ => False) := by
    intro rest
    induction rest with
    | nil => exact fun c => ⟨.flag true, c, .refl _, rfl, rfl⟩
    | cons id rest ih =>
      intro c
      have g1 := getsA_del (env := env) (f := s.thr) ho (id :: rest) .test c
      simp only [stepDel] at g1
      have hcast : ((Int.ofNat id : Int) < (c.vectors.length : Int)) ↔ id < c.vectors.length := Int.ofNat_lt
      have hpg : ∀ {α : Type} (l : List α), pyGet l (Int.ofNat id) = l[id]? := fun l => Lsh.pyGet_nat l id
      have hps : ∀ {α : Type} (l : List α) (x : α), pySet l (Int.ofNat id) x = l.set id x := fun l x => Lsh.pySet_nat l id x
      have hL : Annoy.removeLoop ((id :: rest).map Int.ofNat) (plainAnnoy d mt c) =
          (if id < c.vectors.length then
            if id < c.metas.length then
              Annoy.removeLoop (rest.map Int.ofNat)
                (plainAnnoy d mt ⟨c.vectors.set id none, c.metas.set id none, c.nextId, c.lib, c.thr⟩)
            else (.error .indexRange, plainAnnoy d mt ⟨c.vectors.set id none, c.metas, c.nextId, c.lib, c.thr⟩)
          else Annoy.removeLoop (rest.map Int.ofNat) (plainAnnoy d mt c)) := by
        simp only [List.map_cons, Annoy.removeLoop, plainAnnoy, hcast, hpg, hps]
        split
        · next h =>
          rw [List.getElem?_eq_getElem h]
          by_cases h' : id < c.metas.length
          · simp [h']
          · simp [h']
        · rfl
      rw [hL]
      by_cases h : id < c.vectors.length
      · rw [if_pos h] at g1 ⊢
        have g2 := g1.trans (getsA_del ho (id :: rest) .vec c)
        simp only [stepDel, if_pos h] at g2
        have g3 := g2.trans (getsA_del ho (id :: rest) .md _)
        simp only [stepDel] at g3
        by_cases h' : id < c.metas.length
        · rw [if_pos h'] at g3 ⊢
          obtain ⟨r, c', a1, a2⟩ := ih ⟨c.vectors.set id none, c.metas.set id none, c.nextId, c.lib, c.thr⟩
          exact ⟨r, c', g3.trans a1, a2⟩
        · rw [if_neg h'] at g3 ⊢
          exact ⟨.raised, _, g3, .indexRange, rfl⟩
      · rw [if_neg h] at g1 ⊢
        obtain ⟨r, c', a1, a2⟩ := ih c
        exact ⟨r, c', g1.trans a1, a2⟩
  obtain ⟨r, c', a1, a2⟩ := loop l s
  have hstart : GetsA env ops t s.thr (.start, s) (nextDel l, s) := by
    refine .one ?_
    simp only [step, ho, putA, Function.update_self, Function.update_idem]
  obtain ⟨n, b1, b2, b3⟩ := getsA_end (d := d) (mt := mt) h0 (hstart.trans a1)
  refine ⟨n, r, b1, b2, ?_⟩
  rw [b3]
  have hr : Annoy.remove (l.map Int.ofNat) (plainAnnoy d mt s) = Annoy.removeLoop (l.map Int.ofNat) (plainAnnoy d mt s) := rfl
  cases r with
  | flag b =>
    obtain ⟨rfl, h⟩ := a2
    simp only [Annoy.delete, hp, hr, h]
  | raised =>
    obtain ⟨x, h⟩ := a2
    exact ⟨.index, by simp only [Annoy.delete, hp, hr, h]⟩
  | _ => exact a2.elim

/-- **C213** A search nobody interrupts is that of a single caller. -/
theorem C213_annoy_search (hm : AMatch e env mt) (h0 : s.thr t = .start) {q : V} {k : Int}
    (ho : ops t = .search q k) (hv : Annoy.valid e d q = true) :
    ∃ n r, (s.run env ops (List.replicate n t)).thr t = .done r ∧
      (∀ u, u ≠ t → (s.run env ops (List.replicate n t)).thr u = s.thr u) ∧
      plainAnnoy d mt (s.run env ops (List.replicate n t)) = plainAnnoy d mt s ∧
      (match Annoy.search e q k (plainAnnoy d mt s) with
        | .ok l => r = .hits l
        | .error _ => r = .raised) := by
  suffices h : ∃ r, GetsA env ops t s.thr (.start, s) (.done r, s) ∧
      (match Annoy.search e q k (plainAnnoy d mt s) with
        | .ok l => r = .hits l
        | .error _ => r = .raised) by
    obtain ⟨r, h1, h2⟩ := h
    obtain ⟨n, a1, a2, a3⟩ := getsA_end (d := d) (mt := mt) h0 h1
    exact ⟨n, r, a1, a2, a3, h2⟩
  have loop : ∀ (ns : List (Nat × F)) (acc : List (AnHit F M)), ∃ r,
      GetsA env ops t s.thr (nextHit acc ns, s) (.done r, s) ∧
      (match Annoy.results (plainAnnoy d mt s) ns with
        | .ok l => r = .hits (acc ++ l)
        | .error _ => r = .raised) := by
    intro ns
    induction ns with
    | nil => exact fun acc => ⟨.hits acc, .refl _, by simp [Annoy.results]⟩
    | cons x ns ih =>
      obtain ⟨n, dist⟩ := x
      intro acc
      have g1 := getsA_srch (env := env) (f := s.thr) ho (.test ((n, dist) :: ns) acc) s
      simp only [stepSrch] at g1
      have hR : Annoy.results (plainAnnoy d mt s) ((n, dist) :: ns) =
          (if n < s.vectors.length then
            match s.metas[n]? with
            | none => .error .indexRange
            | some md =>
              match Annoy.results (plainAnnoy d mt s) ns with
              | .error y => .error y
              | .ok l => .ok (⟨n, Annoy.toSim mt dist, md⟩ :: l)
          else Annoy.results (plainAnnoy d mt s) ns) := rfl
      rw [hR]
      by_cases h : n < s.vectors.length
      · rw [if_pos h] at g1
        simp only [if_pos h]
        have g2 := g1.trans (getsA_srch ho (.md n dist ns acc) s)
        simp only [stepSrch] at g2
        cases hmd : s.metas[n]? with
        | none =>
          rw [hmd] at g2
          exact ⟨.raised, g2, rfl⟩
        | some md =>
          rw [hmd] at g2
          obtain ⟨r, a1, a2⟩ := ih (acc ++ [⟨n, env.sim dist, md⟩])
          refine ⟨r, g2.trans a1, ?_⟩
          cases hr : Annoy.results (plainAnnoy d mt s) ns with
          | error y => rw [hr] at a2; exact a2
          | ok l =>
            rw [hr] at a2
            simp only [hm.sim, List.append_assoc, List.cons_append, List.nil_append] at a2
            exact a2
      · rw [if_neg h] at g1
        simp only [if_neg h]
        obtain ⟨r, a1, a2⟩ := ih acc
        exact ⟨r, g1.trans a1, a2⟩
  have hstart : GetsA env ops t s.thr (.start, s) (.srch (.nns
      (if 0 < env.searchK then env.searchK else (env.numTrees : Int) * s.vectors.length)), s) := by
    refine .one ?_
    simp only [step, ho, putA, Function.update_self, Function.update_idem]
  have g := hstart.trans (getsA_srch ho _ s)
  simp only [stepSrch] at g
  have hsr : Annoy.search e q k (plainAnnoy d mt s) =
      (match e.nns s.lib q k (if 0 < env.searchK then env.searchK else (env.numTrees : Int) * s.vectors.length) with
        | .error y => .error y
        | .ok ns => Annoy.results (plainAnnoy d mt s) ns) := by
    unfold Annoy.search
    rw [hm.searchK, hm.numTrees]
    simp only [plainAnnoy, hv]
    rfl
  rw [hsr]
  have hn := hm.nns s.lib q k (if 0 < env.searchK then env.searchK else (env.numTrees : Int) * s.vectors.length)
  cases hx : e.nns s.lib q k (if 0 < env.searchK then env.searchK else (env.numTrees : Int) * s.vectors.length) with
  | error y =>
    rw [hx] at hn
    rw [hn] at g
    exact ⟨.raised, g, rfl⟩
  | ok ns =>
    rw [hx] at hn
    rw [hn] at g
    obtain ⟨r, a1, a2⟩ := loop ns []
    exact ⟨r, g.trans a1, by simpa using a2⟩

/-! ## A case -/

/-- The library of the sequential model that fits the case of C245, with numbers as distances. -/
def lonE : AnEnv (List (Nat × Nat)) Nat ℚ Nat where
  numTrees := 10
  searchK := -1
  create _ _ := []
  addItem l i v := .ok (l ++ [(i.toNat, v)])
  build l := .ok l
  nns l q k _ := .ok ((l.map fun x => (x.1, ((max q x.2 - min q x.2 : Nat) : ℚ))).take k.toNat)
  dim _ := 2
  finite _ := true
  parse s := if s = "0" then some 0 else if s = "1" then some 1 else none
  emptyMd := 0

/-- The same for threads. -/
def lonC : AConcEnv (List (Nat × Nat)) Nat ℚ where
  searchK := -1
  numTrees := 10
  addItem l id v := some (l ++ [(id, v)])
  nns l q k _ := some ((l.map fun x => (x.1, ((max q x.2 - min q x.2 : Nat) : ℚ))).take k.toNat)
  sim := Annoy.toSim .euclidean

example : AMatch lonE lonC .euclidean := ⟨fun _ _ _ => rfl, fun _ _ _ _ => rfl, rfl, rfl, rfl⟩

example : (∀ v, Annoy.valid lonE 2 v = true) ∧ Annoy.parseAll lonE.parse ["0", "1"] = some ([0, 1].map Int.ofNat) :=
  ⟨fun _ => rfl, by decide⟩

end Valori.Props
