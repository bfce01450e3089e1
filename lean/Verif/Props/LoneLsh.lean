import Verif.Lemmas.LoneLsh
import Verif.Props.LshConcCases

/-!
# C213: a call nobody interrupts on an LSH index
-/

namespace Valori.Props
open Valori Valori.LConc
open Valori.Spec (NHit)
variable {V M S : Type} [LinearOrder S] {e : LshEnv V S M} {env : LConcEnv V S} {d : Nat} {ops : Nat → LOp V M}
  {s : LConc V M S} {t : Nat}

/-- What is outside of the thread model is what is outside of the sequential model, for an index of dimension `d`. -/
structure LMatch (e : LshEnv V S M) (env : LConcEnv V S) (d : Nat) : Prop where
  hash : ∀ v, env.hash v = (Lsh.hashTables e d v (List.range e.numTables)).toOption
  sim : env.sim = e.sim
  thr : env.threshold = e.threshold
  order : ∀ l, e.setOrder (l.map Int.ofNat) = (env.setOrder l).map Int.ofNat

theorem LMatch.none (h : LMatch e env d) {v : V} (hv : env.hash v = none) (s : LConc V M S) :
    ∃ x, Lsh.hashVector e (plainLsh d s) v = .error x := by
  rw [h.hash] at hv
  simp only [Lsh.hashVector, plainLsh]
  cases hx : Lsh.hashTables e d v (List.range e.numTables) with
  | error x => exact ⟨x, rfl⟩
  | ok c => rw [hx] at hv; cases hv

theorem LMatch.some (h : LMatch e env d) {v : V} {codes : List Code} (hv : env.hash v = some codes)
    (s : LConc V M S) : Lsh.hashVector e (plainLsh d s) v = .ok codes := by
  rw [h.hash] at hv
  simp only [Lsh.hashVector, plainLsh]
  cases hx : Lsh.hashTables e d v (List.range e.numTables) with
  | error x => rw [hx] at hv; cases hv
  | ok c => rw [hx] at hv; cases hv; rfl

/-- What a call that gets to its end alone leaves. -/
theorem gets_end {r : LRes M S} {c : LConc V M S} (h0 : s.thr t = .start)
    (h : Gets env ops t s.thr (.start, s) (.done r, c)) :
    ∃ n, (s.run env ops (List.replicate n t)).thr t = .done r ∧
      (∀ u, u ≠ t → (s.run env ops (List.replicate n t)).thr u = s.thr u) ∧
      plainLsh d (s.run env ops (List.replicate n t)) = plainLsh d c := by
  obtain ⟨n, hn⟩ := h
  have e0 : put s.thr t (.start, s) = s := by
    unfold put
    have : Function.update s.thr t LAt.start = s.thr := by rw [← h0, Function.update_eq_self]
    simp only [this]
  rw [e0] at hn
  refine ⟨n, ?_, fun u hu => ?_, ?_⟩
  · rw [hn]; simp [put]
  · rw [hn]; simp [put, hu]
  · rw [hn]; rfl

/-- **C213** An update nobody interrupts is that of a single caller. -/
theorem C213_lsh_update (hm : LMatch e env d) (h0 : s.thr t = .start) {id : Nat} {v : V} {m : Option M}
    (ho : ops t = .update id v m) {sid : String} (hp : e.parse sid = some (id : Int)) :
    ∃ n b, (s.run env ops (List.replicate n t)).thr t = .done (.flag b) ∧
      (∀ u, u ≠ t → (s.run env ops (List.replicate n t)).thr u = s.thr u) ∧
      Lsh.update e sid v m (plainLsh d s) = (.ok b, plainLsh d (s.run env ops (List.replicate n t))) := by
  suffices h : ∃ b c, Gets env ops t s.thr (.start, s) (.done (.flag b), c) ∧
      Lsh.update e sid v m (plainLsh d s) = (.ok b, plainLsh d c) by
    obtain ⟨b, c, h1, h2⟩ := h
    obtain ⟨n, a1, a2, a3⟩ := gets_end (d := d) h0 h1
    exact ⟨n, b, a1, a2, by rw [h2, a3]⟩
  have hstart : Gets env ops t s.thr (.start, s)
      (if id < s.vectors.length then .upd .live else .done (.flag false), s) := by
    refine .one ?_
    simp only [step, ho, put, Function.update_self, Function.update_idem]
    rfl
  unfold Lsh.update
  simp only [hp, plainLsh, Bool.not_true, Bool.false_eq_true, if_false, Lsh.pyGet_nat, Lsh.pySet_nat, Nat.cast_le]
  by_cases hlt : id < s.vectors.length
  · rw [if_pos hlt] at hstart
    rw [if_neg (by omega)]
    have g1 := hstart.trans (gets_upd ho .live s)
    cases hv : s.vectors[id]? with
    | none => have := List.getElem?_eq_none_iff.1 hv; omega
    | some x =>
      cases x with
      | none =>
        simp only [stepUpd, hv] at g1
        exact ⟨false, s, g1, rfl⟩
      | some w =>
        simp only [stepUpd, hv] at g1
        have g2 := g1.trans (gets_upd ho .old s)
        cases hc : env.hash w with
        | none =>
          simp only [stepUpd, hv, hc] at g2
          obtain ⟨x, hx⟩ := hm.none hc s
          simp only [plainLsh] at hx
          exact ⟨false, s, g2, by simp only [hx]⟩
        | some codes =>
          simp only [stepUpd, hv, hc] at g2
          have hx := hm.some hc s
          simp only [plainLsh] at hx
          simp only [hx]
          have g3 := (g2.trans (upd_pulls ho [] codes s)).trans (gets_upd ho .vec _)
          have hr := pulls_rest id 0 codes s
          have hpl := plain_pulls d id codes s
          simp only [plainLsh, Lsh.mk.injEq] at hpl
          simp only [stepUpd, List.length_nil] at g3
          -- the index after the vector has been set
          generalize hs1 : ({ pulls id 0 codes s with vectors := (pulls id 0 codes s).vectors.set id (some v) } :
            LConc V M S) = s1 at g3
          have v1 : s1.vectors = s.vectors.set id (some v) := by rw [← hs1, ← hr.1]
          have m1 : s1.metas = s.metas := by rw [← hs1]; exact hr.2.1
          have n1 : s1.nextId = s.nextId := by rw [← hs1]; exact hr.2.2
          have t1 : s1.tables.map plainT = Lsh.dropCodes (id : Int) (s.tables.map plainT) codes := by
            rw [← hs1]; exact hpl.1
          -- what comes after the metadata
          have fin : ∀ s2 : LConc V M S, s2.vectors = s1.vectors →
              Gets env ops t s.thr (.start, s) (.upd .again, s2) →
              ∃ b c, Gets env ops t s.thr (.start, s) (.done (.flag b), c) ∧
                (match Lsh.hashVector e (plainLsh d s2) v with
                  | .error _ => ((.ok false, plainLsh d s2) : Res (Lsh V M) Bool)
                  | .ok codes' => (.ok true,
                      { plainLsh d s2 with tables := Lsh.addCodes (id : Int) (plainLsh d s2).tables codes' })) =
                  (.ok b, plainLsh d c) := by
            intro s2 hv2 g4
            have hget : s2.vectors[id]? = some (some v) := by rw [hv2, v1]; simp [hlt]
            have g5 := g4.trans (gets_upd ho .again s2)
            cases hc' : env.hash v with
            | none =>
              simp only [stepUpd, hget, hc'] at g5
              obtain ⟨x, hx⟩ := hm.none hc' s2
              exact ⟨false, s2, g5, by rw [hx]⟩
            | some codes' =>
              simp only [stepUpd, hget, hc'] at g5
              refine ⟨true, pushes id 0 codes' s2, g5.trans (upd_pushes ho [] codes' s2), ?_⟩
              rw [hm.some hc' s2, plain_pushes]
          cases m with
          | none =>
            obtain ⟨b, c, a1, a2⟩ := fin s1 rfl g3
            refine ⟨b, c, a1, ?_⟩
            simp only [plainLsh, v1, m1, n1, t1] at a2
            exact a2
          | some md =>
            have g4 := g3.trans (gets_upd ho .md s1)
            simp only [stepUpd, m1] at g4
            by_cases hlm : id < s.metas.length
            · rw [if_pos hlm] at g4
              obtain ⟨b, c, a1, a2⟩ := fin _ (by rfl) g4
              refine ⟨b, c, a1, ?_⟩
              simp only [plainLsh, v1, n1, t1] at a2
              simp only [List.getElem?_eq_getElem hlm]
              exact a2
            · rw [if_neg hlm] at g4
              refine ⟨false, s1, g4, ?_⟩
              simp only [List.getElem?_eq_none (by omega : s.metas.length ≤ id), v1, m1, n1, t1]
  · rw [if_neg hlt] at hstart
    rw [if_pos (by omega)]
    exact ⟨false, s, hstart, rfl⟩

/-- **C213** A deletion nobody interrupts is that of a single caller. -/
theorem C213_lsh_delete (hm : LMatch e env d) (h0 : s.thr t = .start) {l : List Nat} (ho : ops t = .delete l)
    {sids : List String} (hp : sids.filterMap e.parse = l.map Int.ofNat) :
    ∃ n b, (s.run env ops (List.replicate n t)).thr t = .done (.flag b) ∧
      (∀ u, u ≠ t → (s.run env ops (List.replicate n t)).thr u = s.thr u) ∧
      Lsh.delete e sids (plainLsh d s) = (b, plainLsh d (s.run env ops (List.replicate n t))) := by
  have loop : ∀ (l : List Nat) (c : LConc V M S), ∃ (b : Bool) (c' : LConc V M S),
      Gets env ops t s.thr (nextDel l, c) (.done (.flag b), c') ∧
      (Lsh.removeLoop e (l.map Int.ofNat) (plainLsh d c)).2 = plainLsh d c' ∧
      (b = true ↔ (Lsh.removeLoop e (l.map Int.ofNat) (plainLsh d c)).1 = .ok ()) := by
    intro l
    induction l with
    | nil => intro c; exact ⟨true, c, .refl _, rfl, by simp [Lsh.removeLoop]⟩
    | cons id l ih =>
      intro c
      have g1 := gets_del (env := env) (f := s.thr) ho id l .test c
      simp only [List.map_cons, Lsh.removeLoop, Int.ofNat_eq_natCast, plainLsh, Lsh.pyGet_nat, Lsh.pySet_nat, Nat.cast_le]
      by_cases hlt : id < c.vectors.length
      · simp only [stepDel, if_pos hlt] at g1
        rw [if_neg (by omega)]
        have g2 := g1.trans (gets_del ho id l .old c)
        cases hv : c.vectors[id]? with
        | none => have := List.getElem?_eq_none_iff.1 hv; omega
        | some x =>
          cases x with
          | none =>
            simp only [stepDel, hv] at g2
            obtain ⟨b, c', a1, a2⟩ := ih c
            exact ⟨b, c', g2.trans a1, a2⟩
          | some w =>
            cases hc : env.hash w with
            | none =>
              simp only [stepDel, hv, hc] at g2
              obtain ⟨x, hx⟩ := hm.none hc c
              simp only [plainLsh] at hx
              simp only [hx]
              exact ⟨false, c, g2, rfl, by simp⟩
            | some codes =>
              simp only [stepDel, hv, hc] at g2
              have hx := hm.some hc c
              simp only [plainLsh] at hx
              simp only [hx]
              have g3 := ((g2.trans (del_pulls ho id l [] codes c)).trans (gets_del ho id l .vec _))
              have hr := pulls_rest id 0 codes c
              have hpl := plain_pulls d id codes c
              simp only [plainLsh, Lsh.mk.injEq] at hpl
              simp only [stepDel, List.length_nil] at g3
              generalize hs1 : ({ pulls id 0 codes c with vectors := (pulls id 0 codes c).vectors.set id none } :
                LConc V M S) = s1 at g3
              have v1 : s1.vectors = c.vectors.set id none := by rw [← hs1, ← hr.1]
              have m1 : s1.metas = c.metas := by rw [← hs1]; exact hr.2.1
              have n1 : s1.nextId = c.nextId := by rw [← hs1]; exact hr.2.2
              have t1 : s1.tables.map plainT = Lsh.dropCodes (id : Int) (c.tables.map plainT) codes := by
                rw [← hs1]; exact hpl.1
              have g4 := g3.trans (gets_del ho id l .md s1)
              simp only [stepDel, m1] at g4
              by_cases hlm : id < c.metas.length
              · rw [if_pos hlm] at g4
                simp only [List.getElem?_eq_getElem hlm]
                obtain ⟨b, c', a1, a2⟩ := ih { s1 with metas := c.metas.set id none }
                refine ⟨b, c', g4.trans a1, ?_⟩
                simp only [plainLsh, v1, n1, t1] at a2
                exact a2
              · rw [if_neg hlm] at g4
                simp only [List.getElem?_eq_none (by omega : c.metas.length ≤ id)]
                exact ⟨false, s1, g4, by simp only [v1, m1, n1, t1], by simp⟩
      · simp only [stepDel, if_neg hlt] at g1
        rw [if_pos (by omega)]
        obtain ⟨b, c', a1, a2⟩ := ih c
        exact ⟨b, c', g1.trans a1, a2⟩
  obtain ⟨b, c', a1, a2, a3⟩ := loop l s
  have hstart : Gets env ops t s.thr (.start, s) (nextDel l, s) := by
    refine .one ?_
    simp only [step, ho, put, Function.update_self, Function.update_idem]
  obtain ⟨n, b1, b2, b3⟩ := gets_end (d := d) h0 (hstart.trans a1)
  refine ⟨n, b, b1, b2, ?_⟩
  rw [b3, ← a2]
  unfold Lsh.delete Lsh.remove
  rw [hp]
  simp only [plainLsh, Bool.not_true, Bool.false_eq_true, if_false] at a3 ⊢
  cases hx : Lsh.removeLoop e (l.map Int.ofNat)
      (⟨s.tables.map plainT, some d, s.vectors, s.metas, s.nextId, true⟩ : Lsh V M) with
  | mk r f' =>
    rw [hx] at a3
    cases r with
    | ok u => simp only; rw [a3.2 rfl]
    | error x =>
      simp only
      cases b with
      | false => rfl
      | true => have := a3.1 rfl; cases this

/-- **C213** An insertion nobody interrupts is that of a single caller. -/
theorem C213_lsh_insert (hm : LMatch e env d) (h0 : s.thr t = .start) {rows : List (V × M)} (ho : ops t = .insert rows)
    (hv : ∀ x ∈ rows, Lsh.valid e d x.1 = true) :
    ∃ n r, (s.run env ops (List.replicate n t)).thr t = .done r ∧
      (∀ u, u ≠ t → (s.run env ops (List.replicate n t)).thr u = s.thr u) ∧
      (match r with
        | .ids ids => Lsh.insert e 2 d (rows.map Prod.fst) (some (rows.map fun x => some x.2)) (plainLsh d s) =
            (.ok (ids.map toString), plainLsh d (s.run env ops (List.replicate n t)))
        | .raised => ∃ x, Lsh.insert e 2 d (rows.map Prod.fst) (some (rows.map fun x => some x.2)) (plainLsh d s) =
            (.error x, plainLsh d (s.run env ops (List.replicate n t)))
        | _ => False) := by
  have loop : ∀ (rest pre : List (V × M)) (ids : List Nat) (c : LConc V M S), rows = pre ++ rest →
      ∃ (r : LRes M S) (c' : LConc V M S),
      Gets env ops t s.thr (nextRow rows pre.length ids, c) (.done r, c') ∧
      (match r with
        | .ids l => ∃ l', l = ids ++ l' ∧
            Lsh.addLoop e (rest.map fun x => (x.1, some x.2)) (plainLsh d c) = (.ok l', plainLsh d c')
        | .raised => ∃ x, Lsh.addLoop e (rest.map fun x => (x.1, some x.2)) (plainLsh d c) = (.error x, plainLsh d c')
        | _ => False) := by
    intro rest
    induction rest with
    | nil =>
      intro pre ids c hrows
      have : nextRow rows pre.length ids = (.done (.ids ids) : LAt M S) := by
        unfold nextRow; rw [if_neg (by rw [hrows]; simp)]
      rw [this]
      exact ⟨.ids ids, c, .refl _, [], by simp, rfl⟩
    | cons x rest ih =>
      intro pre ids c hrows
      have hlt : pre.length < rows.length := by rw [hrows]; simp
      have hrow : rows[pre.length]? = some x := by rw [hrows]; simp
      have : nextRow rows pre.length ids = (.ins pre.length ids .read : LAt M S) := by
        unfold nextRow; rw [if_pos hlt]
      rw [this]
      have g1 := (gets_ins (env := env) (f := s.thr) ho pre.length ids .read c)
      have g2 := g1.trans (gets_ins ho pre.length ids (.load c.nextId) c)
      have g3 := g2.trans (gets_ins ho pre.length ids (.put c.nextId c.nextId) c)
      simp only [stepIns] at g3
      have g4 := g3.trans (gets_ins ho pre.length ids (.vec c.nextId) _)
      simp only [stepIns, hrow] at g4
      have g5 := g4.trans (gets_ins ho pre.length ids (.md c.nextId) _)
      simp only [stepIns, hrow] at g5
      generalize hs2 : (LConc.mk (c.vectors ++ [some x.1]) (c.metas ++ [some x.2]) c.tables (c.nextId + 1) c.thr :
        LConc V M S) = s2 at g5
      have hL : Lsh.addLoop e ((x :: rest).map fun x => (x.1, some x.2)) (plainLsh d c) =
          (match Lsh.hashVector e (plainLsh d s2) x.1 with
            | .error y => (.error y, plainLsh d s2)
            | .ok codes =>
              match Lsh.addLoop e (rest.map fun x => (x.1, some x.2)) { plainLsh d s2 with
                  tables := Lsh.addCodes (c.nextId : Int) (plainLsh d s2).tables codes } with
              | (.error y, f') => (.error y, f')
              | (.ok ids, f') => (.ok (c.nextId :: ids), f')) := by rw [← hs2]; rfl
      rw [hL]
      cases hc : env.hash x.1 with
      | none =>
        simp only [hc] at g5
        obtain ⟨y, hy⟩ := hm.none hc s2
        refine ⟨.raised, s2, g5, y, ?_⟩
        rw [hy]
      | some codes =>
        simp only [hc] at g5
        have hy := hm.some hc s2
        have g6 := g5.trans (ins_pushes ho pre.length ids c.nextId [] codes s2)
        obtain ⟨r, c', a1, a2⟩ := ih (pre ++ [x]) (ids ++ [c.nextId]) (pushes c.nextId 0 codes s2) (by simp [hrows])
        simp only [List.length_append, List.length_cons, List.length_nil] at a1
        refine ⟨r, c', g6.trans a1, ?_⟩
        rw [plain_pushes] at a2
        rw [hy]
        cases r with
        | ids l =>
          obtain ⟨l', b1, b2⟩ := a2
          refine ⟨c.nextId :: l', by rw [b1]; simp, ?_⟩
          simp only [b2]
        | raised =>
          obtain ⟨y, b⟩ := a2
          exact ⟨y, by simp only [b]⟩
        | _ => exact a2.elim
  obtain ⟨r, c', a1, a2⟩ := loop rows [] [] s rfl
  have hstart : Gets env ops t s.thr (.start, s) (nextRow rows 0 [], s) := by
    refine .one ?_
    simp only [step, ho, put, Function.update_self, Function.update_idem]
  obtain ⟨n, b1, b2, b3⟩ := gets_end (d := d) h0 (hstart.trans a1)
  refine ⟨n, r, b1, b2, ?_⟩
  have hadd : Lsh.add e 2 d (rows.map Prod.fst) (rows.map fun x => some x.2) (plainLsh d s) =
      Lsh.addLoop e (rows.map fun x => (x.1, some x.2)) (plainLsh d s) := by
    unfold Lsh.add
    have hz : (rows.map Prod.fst).zip (rows.map fun x => some x.2) = rows.map fun x => (x.1, some x.2) := by
      rw [List.zip_map']
    simp only [plainLsh, hz]
    simp
    intro v m hx hf
    rw [hv (v, m) hx] at hf; cases hf
  rw [b3]
  cases r with
  | ids l =>
    obtain ⟨l', rfl, h⟩ := a2
    simp only [Lsh.insert, hadd, h]
  | raised =>
    obtain ⟨x, h⟩ := a2
    exact ⟨x, by simp only [Lsh.insert, hadd, h]⟩
  | _ => exact a2.elim

/-! ## Searches -/

theorem sr_exact {q : V} {k : Int} (ho : ops t = .search q k) (f : Nat → LAt M S) (pre cs : List Code) (got : List Nat)
    (ts : List (Dict Code (List Nat))) (hts : s.tables.drop pre.length = ts) :
    ∃ l : List Nat, Gets env ops t f (.srch (.exact pre.length (pre ++ cs) got), s)
        (.srch (.exact (pre ++ cs).length (pre ++ cs) (got ++ l)), s) ∧
      l.map Int.ofNat = Lsh.exactCands (ts.map plainT) cs := by
  induction cs generalizing pre got ts with
  | nil =>
    refine ⟨[], by simpa using Gets.refl _, ?_⟩
    cases ts <;> rfl
  | cons c cs ih =>
    have g1 := gets_sr (env := env) (f := f) ho (.exact pre.length (pre ++ c :: cs) got) s
    simp only [stepSr, List.getElem?_append_right le_rfl, Nat.sub_self, List.getElem?_cons_zero] at g1
    obtain ⟨l, a1, a2⟩ := ih (pre ++ [c]) (got ++ s.bucket pre.length c) (ts.drop 1)
      (by rw [← hts, List.drop_drop]; simp)
    simp only [List.length_append, List.length_cons, List.length_nil, List.append_assoc,
      List.singleton_append] at a1
    refine ⟨s.bucket pre.length c ++ l, ?_, ?_⟩
    · refine g1.trans ?_
      simpa [List.append_assoc, Nat.add_assoc, Nat.add_comm] using a1
    · rw [List.map_append, a2]
      cases ts with
      | nil =>
        have hnone : s.tables[pre.length]? = none := by
          rw [List.getElem?_eq_none_iff]; exact List.drop_eq_nil_iff.1 hts
        simp [bucket, hnone, Lsh.exactCands]
      | cons d ts =>
        have hget : s.tables[pre.length]? = some d := by
          have := congrArg (·[0]?) hts
          simpa [List.getElem?_drop] using this
        simp only [bucket, hget, Option.getD_some, List.drop_succ_cons, List.drop_zero, List.map_cons,
          Lsh.exactCands, plainT_get]
        cases d.get? c <;> simp

theorem sr_items {q : V} {k : Int} (ho : ops t = .search q k) (f : Nat → LAt M S) {j : Nat} {codes : List Code}
    {qc : Code} (hq : codes[j]? = some qc) {d : Dict Code (List Nat)} (hd : s.tables[j]?.getD [] = d)
    (hk : d.keys.Nodup) (pre rest : Dict Code (List Nat)) (hs : d = pre ++ rest) (got : List Nat) :
    ∃ l : List Nat, Gets env ops t f (.srch (.next j d.length pre.length codes got), s)
        (.srch (.iter (j + 1) codes (got ++ l)), s) ∧
      l.map Int.ofNat = (((plainT rest).filter fun x => decide (Lsh.hamming qc x.1 ≤ 2)).map Prod.snd).flatten := by
  induction rest generalizing pre got with
  | nil =>
    refine ⟨[], ?_, rfl⟩
    have g := gets_sr (env := env) (f := f) ho (.next j d.length pre.length codes got) s
    have hnone : d[pre.length]? = none := by rw [hs]; simp
    simp only [stepSr, hd, hnone, ne_eq, not_true_eq_false, if_false] at g
    simpa using g
  | cons x rest ih =>
    obtain ⟨c, b⟩ := x
    have g := gets_sr (env := env) (f := f) ho (.next j d.length pre.length codes got) s
    have hget : d[pre.length]? = some (c, b) := by rw [hs]; simp
    simp only [stepSr, hd, hget, hq, ne_eq, not_true_eq_false, if_false] at g
    by_cases hh : Lsh.hamming qc c ≤ 2
    · rw [if_pos hh] at g
      have g2 := g.trans (gets_sr ho (.take j d.length pre.length codes got c) s)
      have hb : s.bucket j c = b := by
        unfold bucket
        rw [hd, Dict.get?_of_mem hk (List.mem_of_getElem? hget)]; rfl
      simp only [stepSr, hb] at g2
      obtain ⟨l, a1, a2⟩ := ih (pre ++ [(c, b)]) (by simp [hs]) (got ++ b)
      simp only [List.length_append, List.length_cons, List.length_nil, List.append_assoc] at a1
      refine ⟨b ++ l, g2.trans a1, ?_⟩
      rw [List.map_append, a2]
      simp [plainT, hh]
    · rw [if_neg hh] at g
      obtain ⟨l, a1, a2⟩ := ih (pre ++ [(c, b)]) (by simp [hs]) got
      simp only [List.length_append, List.length_cons, List.length_nil] at a1
      refine ⟨l, g.trans a1, ?_⟩
      rw [a2]
      simp [plainT, hh]

theorem sr_relaxed {q : V} {k : Int} (ho : ops t = .search q k) (f : Nat → LAt M S)
    (hk : ∀ d ∈ s.tables, d.keys.Nodup) (pre cs : List Code) (got : List Nat)
    (ts : List (Dict Code (List Nat))) (hts : s.tables.drop pre.length = ts) :
    ∃ l : List Nat, Gets env ops t f (.srch (.iter pre.length (pre ++ cs) got), s)
        (.srch (.iter (pre ++ cs).length (pre ++ cs) (got ++ l)), s) ∧
      l.map Int.ofNat = Lsh.relaxedCands (ts.map plainT) cs := by
  induction cs generalizing pre got ts with
  | nil =>
    refine ⟨[], by simpa using Gets.refl _, ?_⟩
    cases ts <;> rfl
  | cons c cs ih =>
    have hc : (pre ++ c :: cs)[pre.length]? = some c := by simp
    have g1 := gets_sr (env := env) (f := f) ho (.iter pre.length (pre ++ c :: cs) got) s
    simp only [stepSr, hc] at g1
    have hnd : (s.tables[pre.length]?.getD []).keys.Nodup := by
      cases hx : s.tables[pre.length]? with
      | none => simp [Dict.keys]
      | some d => exact hk d (List.mem_of_getElem? hx)
    obtain ⟨l0, b1, b2⟩ := sr_items (env := env) ho f hc rfl hnd [] _ rfl got
    obtain ⟨l, a1, a2⟩ := ih (pre ++ [c]) (got ++ l0) (ts.drop 1) (by rw [← hts, List.drop_drop]; simp)
    simp only [List.length_append, List.length_cons, List.length_nil, List.append_assoc,
      List.singleton_append] at a1
    refine ⟨l0 ++ l, ?_, ?_⟩
    · refine (g1.trans b1).trans ?_
      simpa [List.append_assoc, Nat.add_assoc, Nat.add_comm] using a1
    · rw [List.map_append, a2, b2]
      cases ts with
      | nil =>
        have hnone : s.tables[pre.length]? = none := by
          rw [List.getElem?_eq_none_iff]; exact List.drop_eq_nil_iff.1 hts
        simp [hnone, plainT, Lsh.relaxedCands]
      | cons d ts =>
        have hget : s.tables[pre.length]? = some d := by
          have := congrArg (·[0]?) hts
          simpa [List.getElem?_drop] using this
        simp only [hget, List.drop_succ_cons, List.drop_zero, List.map_cons, Lsh.relaxedCands]

theorem sr_score (hm : LMatch e env d) {q : V} {k : Int} (ho : ops t = .search q k) (f : Nat → LAt M S)
    (todo : List Nat) (acc : List (NHit S M)) :
    Gets env ops t f (.srch (.score todo acc), s)
      (match Lsh.score e (plainLsh d s) q e.threshold (todo.map Int.ofNat) with
        | .ok l => finish k (acc ++ l)
        | .error _ => .done .raised, s) := by
  induction todo generalizing acc with
  | nil =>
    have g := gets_sr (env := env) (f := f) ho (.score [] acc) s
    simpa [stepSr, Lsh.score] using g
  | cons id todo ih =>
    have g := gets_sr (env := env) (f := f) ho (.score (id :: todo) acc) s
    simp only [List.map_cons, Lsh.score, Int.ofNat_eq_natCast, Lsh.pyGet_nat, Nat.cast_le]
    simp only [stepSr, hm.sim, hm.thr] at g
    have ev : (plainLsh d s).vectors = s.vectors := rfl
    have em : (plainLsh d s).metadata = s.metas := rfl
    rw [ev, em]
    by_cases hlt : s.vectors.length ≤ id
    · rw [if_pos hlt]
      rw [List.getElem?_eq_none hlt] at g
      exact g.trans (ih acc)
    · rw [if_neg hlt]
      cases hv : s.vectors[id]? with
      | none => exact absurd (List.getElem?_eq_none_iff.1 hv) hlt
      | some x =>
        cases x with
        | none =>
          simp only [hv] at g
          exact g.trans (ih acc)
        | some v =>
          simp only [hv] at g
          cases hx : e.sim q v with
          | error y => simp only [hx] at g ⊢; exact g
          | ok dd =>
            simp only [hx] at g ⊢
            by_cases ht : e.threshold ≤ dd
            · rw [if_pos ht] at g
              rw [if_pos ht]
              have g2 := g.trans (gets_sr ho (.md id dd todo acc) s)
              simp only [stepSr] at g2
              cases hmd : s.metas[id]? with
              | none => simp only [hmd] at g2; exact g2
              | some md =>
                simp only [hmd] at g2
                have g3 := g2.trans (ih (acc ++ [⟨id, dd, md⟩]))
                simp only
                cases hsc : Lsh.score e (plainLsh d s) q e.threshold (todo.map Int.ofNat) with
                | error y => rw [hsc] at g3; exact g3
                | ok l => rw [hsc] at g3; simpa using g3
            · rw [if_neg ht] at g
              rw [if_neg ht]
              exact g.trans (ih acc)

/-- **C213** A search nobody interrupts is that of a single caller. -/
theorem C213_lsh_search (hm : LMatch e env d) (h0 : s.thr t = .start) (hk : ∀ d ∈ s.tables, d.keys.Nodup) {q : V}
    {k : Int} (ho : ops t = .search q k) (hv : Lsh.valid e d q = true) :
    ∃ n r, (s.run env ops (List.replicate n t)).thr t = .done r ∧
      (∀ u, u ≠ t → (s.run env ops (List.replicate n t)).thr u = s.thr u) ∧
      plainLsh d (s.run env ops (List.replicate n t)) = plainLsh d s ∧
      (match Lsh.search e q k none (plainLsh d s) with
        | .ok l => r = .hits l
        | .error _ => r = .raised) := by
  suffices h : ∃ r, Gets env ops t s.thr (.start, s) (.done r, s) ∧
      (match Lsh.search e q k none (plainLsh d s) with
        | .ok l => r = .hits l
        | .error _ => r = .raised) by
    obtain ⟨r, h1, h2⟩ := h
    obtain ⟨n, a1, a2, a3⟩ := gets_end (d := d) h0 h1
    exact ⟨n, r, a1, a2, a3, h2⟩
  have hsearch : Lsh.search e q k none (plainLsh d s) =
      (match Lsh.hashVector e (plainLsh d s) q with
        | .error y => .error y
        | .ok codes =>
          match Lsh.score e (plainLsh d s) q e.threshold (e.setOrder
              (if (Lsh.exactCands (plainLsh d s).tables codes).isEmpty then Lsh.relaxedCands (plainLsh d s).tables codes
                else Lsh.exactCands (plainLsh d s).tables codes)) with
          | .error y => .error y
          | .ok l => .ok (sliceTo (Lsh.sortDesc l) k)) := by
    unfold Lsh.search
    simp only [plainLsh, hv, Bool.not_true, Bool.false_eq_true, if_false, Option.getD_none]
    cases Lsh.hashVector e _ q with
    | error y => rfl
    | ok codes =>
      simp only
      cases Lsh.score e _ q e.threshold _ with
      | error y => rfl
      | ok l => rfl
  rw [hsearch]
  cases hc : env.hash q with
  | none =>
    obtain ⟨y, hy⟩ := hm.none hc s
    rw [hy]
    refine ⟨.raised, .one ?_, rfl⟩
    simp only [step, ho, put, Function.update_self, Function.update_idem, hc]
  | some codes =>
    have hstart : Gets env ops t s.thr (.start, s) (.srch (.exact 0 codes []), s) := by
      refine .one ?_
      simp only [step, ho, put, Function.update_self, Function.update_idem, hc]
    rw [hm.some hc s]
    obtain ⟨l, a1, a2⟩ := sr_exact (env := env) ho s.thr [] codes [] s.tables rfl
    simp only [List.nil_append, List.length_nil] at a1
    have g1 := (hstart.trans a1).trans (gets_sr ho (.exact codes.length codes l) s)
    have hend : codes[codes.length]? = none := by simp
    have et : (plainLsh d s).tables = s.tables.map plainT := rfl
    simp only
    rw [et, ← a2]
    -- the candidates
    have cands : ∃ l' : List Nat, Gets env ops t s.thr (.start, s) (.srch (.score (env.setOrder l') []), s) ∧
        l'.map Int.ofNat = if (l.map Int.ofNat).isEmpty then Lsh.relaxedCands (s.tables.map plainT) codes
          else l.map Int.ofNat := by
      simp only [stepSr, hend] at g1
      by_cases hl : l = []
      · subst hl
        simp only [if_true] at g1
        obtain ⟨l', b1, b2⟩ := sr_relaxed (env := env) ho s.thr hk [] codes [] s.tables rfl
        simp only [List.nil_append, List.length_nil] at b1
        have g2 := (g1.trans b1).trans (gets_sr ho (.iter codes.length codes l') s)
        simp only [stepSr, hend] at g2
        exact ⟨l', g2, by simpa using b2⟩
      · rw [if_neg hl] at g1
        refine ⟨l, g1, ?_⟩
        rw [if_neg]
        simpa using hl
    obtain ⟨l', b1, b2⟩ := cands
    rw [← b2, hm.order]
    have g2 := b1.trans (sr_score hm ho s.thr (env.setOrder l') [])
    cases hsc : Lsh.score e (plainLsh d s) q e.threshold ((env.setOrder l').map Int.ofNat) with
    | error y => rw [hsc] at g2; exact ⟨.raised, g2, rfl⟩
    | ok r => rw [hsc] at g2; exact ⟨.hits _, g2, rfl⟩

/-- Keys of the hash tables stay without repetition. -/
theorem keys_pushL (hk : ∀ d ∈ s.tables, d.keys.Nodup) (j : Nat) (c : Code) (id : Nat) :
    ∀ d ∈ (s.push j c id).tables, d.keys.Nodup := by
  intro d hd
  obtain ⟨i, hi⟩ := List.mem_iff_getElem?.1 hd
  simp only [push, List.getElem?_modify, Option.map_eq_map, Option.map_eq_some_iff] at hi
  obtain ⟨a, ha, rfl⟩ := hi
  have := hk a (List.mem_of_getElem? ha)
  split
  · exact Dict.nodup_set this ..
  · exact this

theorem keys_pullL (hk : ∀ d ∈ s.tables, d.keys.Nodup) (j : Nat) (c : Code) (id : Nat) :
    ∀ d ∈ (s.pull j c id).tables, d.keys.Nodup := by
  intro d hd
  obtain ⟨i, hi⟩ := List.mem_iff_getElem?.1 hd
  simp only [pull, List.getElem?_modify, Option.map_eq_map, Option.map_eq_some_iff] at hi
  obtain ⟨a, ha, rfl⟩ := hi
  have := hk a (List.mem_of_getElem? ha)
  split
  · split
    · exact this
    · exact Dict.nodup_set this ..
  · exact this

/-- **C213** What the theorem on searches asks of the hash tables holds in every execution. -/
theorem C213_lsh_keys (hk : ∀ d ∈ s.tables, d.keys.Nodup) (sched : List Nat) :
    ∀ d ∈ (s.run env ops sched).tables, d.keys.Nodup := by
  induction sched generalizing s with
  | nil => exact hk
  | cons t sched ih =>
    refine ih (s := s.step env ops t) ?_
    cases ho : ops t with
    | insert rows =>
      cases hs : s.thr t with
      | ins i ids p =>
        simp only [step, ho, hs]
        cases p <;> simp only [stepIns] <;> repeat' split
        all_goals first | exact hk | exact keys_pushL hk _ _ _
      | _ => simp only [step, ho, hs]; exact hk
    | search q k => cases hs : s.thr t <;> simp only [step, ho, hs] <;> exact hk
    | update x v m =>
      cases hs : s.thr t with
      | upd p =>
        simp only [step, ho, hs]
        cases p <;> simp only [stepUpd] <;> repeat' split
        all_goals first | exact hk | exact keys_pushL hk _ _ _ | exact keys_pullL hk _ _ _
      | _ => simp only [step, ho, hs]; exact hk
    | delete l =>
      cases hs : s.thr t with
      | del todo p =>
        cases todo with
        | nil => simp only [step, ho, hs]; exact hk
        | cons x todo =>
          simp only [step, ho, hs]
          cases p <;> simp only [stepDel] <;> repeat' split
          all_goals first | exact hk | exact keys_pullL hk _ _ _
      | _ => simp only [step, ho, hs]; exact hk

/-! ## Cases -/

/-- The sequential index of the index `lindex`: one table, three projections, numbers below 8 as vectors of one number. -/
def lseq : LshEnv Nat Nat Nat where
  numTables := 1
  hashSize := 3
  numProj := 3
  threshold := 0
  dim v := if v < 8 then 1 else 2
  finite _ := true
  bit _ p _ v := v / 2 ^ p % 2 == 1
  sim q v := .ok (10 - (max q v - min q v))
  setOrder := List.dedup
  parse x := if x = "1" then some 1 else none
  emptyMd := 0

theorem lseq_match : LMatch lseq lenv 1 where
  hash v := by
    by_cases hv : v < 8
    · have : ∀ v < 8, lenv.hash v = (Lsh.hashTables lseq 1 v (List.range lseq.numTables)).toOption := by
        decide +kernel
      exact this v hv
    · have h1 : lenv.hash v = none := by simp [lenv, hv]
      have h2 : Lsh.hashOne lseq 1 0 v = .error .value := by
        have hp : (Lsh.projIndices lseq.hashSize lseq.numProj 0).any (fun p => decide (lseq.numProj ≤ p)) = false := by
          decide +kernel
        unfold Lsh.hashOne
        simp only [hp, Bool.false_eq_true, if_false]
        rw [if_pos]
        simp [lseq, hv]
      rw [h1]
      have hr : List.range lseq.numTables = [0] := rfl
      rw [hr]
      simp only [Lsh.hashTables, h2]
      rfl
  sim := rfl
  thr := rfl
  order l := by
    show (l.map Int.ofNat).dedup = l.dedup.map Int.ofNat
    exact List.dedup_map_of_injective (fun a b h => Int.ofNat.inj h) l

/-- The hypotheses hold of an index of three vectors while other threads are in the middle of their calls, and the
search replies with a hit, the update and the deletion change the index. -/
example : ∃ r, Lsh.search lseq 5 1 none (plainLsh 1 (lindex [3, 5, 6])) = .ok [r] ∧ r.id = 1 :=
  ⟨_, rfl, rfl⟩

example : ∀ d ∈ (lindex [3, 5, 6]).tables, d.keys.Nodup := by decide +kernel

example : Lsh.valid lseq 1 5 = true ∧ lseq.parse "1" = some (1 : Nat) := by decide

example : (Lsh.update lseq "1" 2 none (plainLsh 1 (lindex [3, 5, 6]))).2 ≠ plainLsh 1 (lindex [3, 5, 6]) := by
  decide +kernel

example : ∃ n r, ((lindex [3, 5, 6]).run lenv (fun _ => .search 5 1) (List.replicate n 0)).thr 0 = .done r := by
  obtain ⟨n, r, h, -⟩ := C213_lsh_search (ops := fun _ => .search 5 1) (t := 0) (s := lindex [3, 5, 6]) lseq_match rfl
    (by decide +kernel) rfl rfl
  exact ⟨n, r, h⟩

end Valori.Props
