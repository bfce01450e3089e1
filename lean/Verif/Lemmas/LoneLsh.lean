import Verif.Lemmas.LshConcInv

/-!
# The thread model of an LSH index and its sequential model
-/

namespace Valori
open Spec (NHit)
namespace LConc
variable {V M S : Type} {s : LConc V M S}

/-- A table with integers as ids. -/
def plainT (d : Dict Code (List Nat)) : Dict Code (List Int) := d.map fun e => (e.1, e.2.map Int.ofNat)

/-- The index of the sequential model, of dimension `d`. -/
def plainLsh (d : Nat) (s : LConc V M S) : Lsh V M :=
  ⟨s.tables.map plainT, some d, s.vectors, s.metas, s.nextId, true⟩

theorem plainT_get (d : Dict Code (List Nat)) (c : Code) :
    (plainT d).get? c = (d.get? c).map (List.map Int.ofNat) := by
  induction d with
  | nil => rfl
  | cons e d ih =>
    obtain ⟨k, l⟩ := e
    simp only [plainT, List.map_cons, Dict.get?] at ih ⊢
    split
    · rfl
    · exact ih

theorem plainT_set (d : Dict Code (List Nat)) (c : Code) (l : List Nat) :
    plainT (d.set c l) = (plainT d).set c (l.map Int.ofNat) := by
  induction d with
  | nil => rfl
  | cons e d ih =>
    obtain ⟨k, x⟩ := e
    simp only [plainT, List.map_cons, Dict.set] at ih ⊢
    split
    · rfl
    · rw [List.map_cons, ih]

theorem erase_ofNat (l : List Nat) (x : Nat) : (l.map Int.ofNat).erase (Int.ofNat x) = (l.erase x).map Int.ofNat :=
  (List.map_erase (fun a b h => Int.ofNat.inj h) l).symm

/-- `push` for all codes, from table `j` on. -/
def pushes (id : Nat) : Nat → List Code → LConc V M S → LConc V M S
  | _, [], s => s
  | j, c :: cs, s => pushes id (j + 1) cs (s.push j c id)

/-- `pull` for all codes, from table `j` on. -/
def pulls (id : Nat) : Nat → List Code → LConc V M S → LConc V M S
  | _, [], s => s
  | j, c :: cs, s => pulls id (j + 1) cs (s.pull j c id)

theorem pushes_rest (id j : Nat) (cs : List Code) (s : LConc V M S) :
    (pushes id j cs s).vectors = s.vectors ∧ (pushes id j cs s).metas = s.metas ∧
    (pushes id j cs s).nextId = s.nextId := by
  induction cs generalizing j s with
  | nil => exact ⟨rfl, rfl, rfl⟩
  | cons c cs ih => exact ih (j + 1) (s.push j c id)

theorem pulls_rest (id j : Nat) (cs : List Code) (s : LConc V M S) :
    (pulls id j cs s).vectors = s.vectors ∧ (pulls id j cs s).metas = s.metas ∧
    (pulls id j cs s).nextId = s.nextId := by
  induction cs generalizing j s with
  | nil => exact ⟨rfl, rfl, rfl⟩
  | cons c cs ih => exact ih (j + 1) (s.pull j c id)

theorem modify_map {α β : Type} (g : α → β) (f : α → α) (f' : β → β) (h : ∀ x, g (f x) = f' (g x)) (l : List α)
    (j : Nat) : (l.modify j f).map g = (l.map g).modify j f' := by
  induction l generalizing j with
  | nil => cases j <;> simp
  | cons x l ih => cases j with
    | zero => simp [h]
    | succ j => simp [ih]

theorem modify_split {α : Type} (f : α → α) (l : List α) (j : Nat) (F : List α → List α) (hF : F [] = []) :
    (l.modify j f).take (j + 1) ++ F ((l.modify j f).drop (j + 1)) =
      l.take j ++ (match l.drop j with
        | [] => []
        | x :: r => f x :: F r) := by
  induction l generalizing j with
  | nil => simp [hF]
  | cons x l ih =>
    cases j with
    | zero => simp
    | succ j => simpa using ih j

theorem pushes_tables (id j : Nat) (cs : List Code) (s : LConc V M S) :
    (pushes id j cs s).tables.map plainT =
      (s.tables.map plainT).take j ++ Lsh.addCodes (id : Int) ((s.tables.map plainT).drop j) cs := by
  induction cs generalizing j s with
  | nil =>
    simp only [pushes]
    cases h : (s.tables.map plainT).drop j with
    | nil => simp only [Lsh.addCodes]; rw [← h, List.take_append_drop]
    | cons x r => simp only [Lsh.addCodes]; rw [← h, List.take_append_drop]
  | cons c cs ih =>
    simp only [pushes]
    rw [ih (j + 1) (s.push j c id)]
    have e : (s.push j c id).tables.map plainT = (s.tables.map plainT).modify j
        fun d => d.set c ((d.get? c).getD [] ++ [(id : Int)]) := by
      refine modify_map plainT _ _ (fun d => ?_) _ _
      rw [plainT_set, plainT_get]
      cases d.get? c <;> simp
    rw [e, modify_split (F := fun ds => Lsh.addCodes (id : Int) ds cs) _ _ _ (by cases cs <;> rfl)]
    congr 1
    cases (s.tables.map plainT).drop j <;> rfl

theorem pulls_tables (id j : Nat) (cs : List Code) (s : LConc V M S) :
    (pulls id j cs s).tables.map plainT =
      (s.tables.map plainT).take j ++ Lsh.dropCodes (id : Int) ((s.tables.map plainT).drop j) cs := by
  induction cs generalizing j s with
  | nil =>
    simp only [pulls]
    cases h : (s.tables.map plainT).drop j with
    | nil => simp only [Lsh.dropCodes]; rw [← h, List.take_append_drop]
    | cons x r => simp only [Lsh.dropCodes]; rw [← h, List.take_append_drop]
  | cons c cs ih =>
    simp only [pulls]
    rw [ih (j + 1) (s.pull j c id)]
    have e : (s.pull j c id).tables.map plainT = (s.tables.map plainT).modify j
        fun d => match d.get? c with
          | none => d
          | some l => d.set c (removeFirst l (id : Int)) := by
      refine modify_map plainT _ _ (fun d => ?_) _ _
      rw [plainT_get]
      cases hd : d.get? c with
      | none => simp
      | some l =>
        simp only [Option.map_some]
        rw [plainT_set]
        unfold removeFirst
        rw [← erase_ofNat]; rfl
    rw [e, modify_split (F := fun ds => Lsh.dropCodes (id : Int) ds cs) _ _ _ (by cases cs <;> rfl)]
    congr 1
    cases (s.tables.map plainT).drop j <;> rfl

theorem plain_pushes (d id : Nat) (cs : List Code) (s : LConc V M S) :
    plainLsh d (pushes id 0 cs s) =
      { plainLsh d s with tables := Lsh.addCodes (id : Int) (plainLsh d s).tables cs } := by
  have h := pushes_rest id 0 cs s
  have ht := pushes_tables id 0 cs s
  simp only [List.take_zero, List.nil_append, List.drop_zero] at ht
  simp only [plainLsh, h.1, h.2.1, h.2.2, ht]

theorem plain_pulls (d id : Nat) (cs : List Code) (s : LConc V M S) :
    plainLsh d (pulls id 0 cs s) =
      { plainLsh d s with tables := Lsh.dropCodes (id : Int) (plainLsh d s).tables cs } := by
  have h := pulls_rest id 0 cs s
  have ht := pulls_tables id 0 cs s
  simp only [List.take_zero, List.nil_append, List.drop_zero] at ht
  simp only [plainLsh, h.1, h.2.1, h.2.2, ht]

/-! ## One thread -/

variable [LinearOrder S] {env : LConcEnv V S} {ops : Nat → LOp V M} {t : Nat} {f : Nat → LAt M S}

/-- The index `s` with thread `t` at `a` and the others at `f`. -/
def put (f : Nat → LAt M S) (t : Nat) (x : LAt M S × LConc V M S) : LConc V M S :=
  { x.2 with thr := Function.update f t x.1 }

/-- Thread `t` alone gets from the one to the other. -/
def Gets (env : LConcEnv V S) (ops : Nat → LOp V M) (t : Nat) (f : Nat → LAt M S) (x y : LAt M S × LConc V M S) : Prop :=
  ∃ n, (put f t x).run env ops (List.replicate n t) = put f t y

theorem Gets.refl (x : LAt M S × LConc V M S) : Gets env ops t f x x := ⟨0, rfl⟩

theorem Gets.trans {x y z : LAt M S × LConc V M S} (h : Gets env ops t f x y) (h' : Gets env ops t f y z) :
    Gets env ops t f x z := by
  obtain ⟨n, hn⟩ := h
  obtain ⟨n', hn'⟩ := h'
  refine ⟨n + n', ?_⟩
  rw [List.replicate_add, run, List.foldl_append]
  unfold run at hn hn'
  rw [hn, hn']

theorem Gets.one {x y : LAt M S × LConc V M S} (h : (put f t x).step env ops t = put f t y) : Gets env ops t f x y :=
  ⟨1, by simpa [run] using h⟩

omit [LinearOrder S] in
theorem stepUpd_thr (id : Nat) (v : V) (m : Option M) (s : LConc V M S) (p : LUpd) (g : Nat → LAt M S) :
    stepUpd env id v m { s with thr := g } p =
      ((stepUpd env id v m s p).1, { (stepUpd env id v m s p).2 with thr := g }) := by
  cases p <;> simp only [stepUpd]
  case live => split <;> rfl
  case old =>
    split
    · split <;> rfl
    · rfl
  case drop => split <;> rfl
  case md => split <;> rfl
  case again =>
    split
    · split <;> rfl
    · rfl
  case add => split <;> rfl

omit [LinearOrder S] in
theorem stepDel_thr (id : Nat) (todo : List Nat) (s : LConc V M S) (p : LDel) (g : Nat → LAt M S) :
    stepDel env { s with thr := g } id todo p =
      ((stepDel env s id todo p).1, { (stepDel env s id todo p).2 with thr := g }) := by
  cases p <;> simp only [stepDel]
  case test => split <;> rfl
  case old =>
    split
    · split <;> rfl
    · rfl
  case drop => split <;> rfl
  case md => split <;> rfl

omit [LinearOrder S] in
theorem stepIns_thr (rows : List (V × M)) (s : LConc V M S) (i : Nat) (ids : List Nat) (p : LIns) (g : Nat → LAt M S) :
    stepIns env rows { s with thr := g } i ids p =
      ((stepIns env rows s i ids p).1, { (stepIns env rows s i ids p).2 with thr := g }) := by
  cases p <;> simp only [stepIns]
  case vec => split <;> rfl
  case md => split <;> rfl
  case add => split <;> rfl

theorem gets_upd {id : Nat} {v : V} {m : Option M} (ho : ops t = .update id v m) (p : LUpd) (s : LConc V M S) :
    Gets env ops t f (.upd p, s) (stepUpd env id v m s p) := by
  refine .one ?_
  simp only [step, ho, put, Function.update_self]
  rw [stepUpd_thr]
  simp only [Function.update_idem]

theorem gets_del {l : List Nat} (ho : ops t = .delete l) (id : Nat) (todo : List Nat) (p : LDel) (s : LConc V M S) :
    Gets env ops t f (.del (id :: todo) p, s) (stepDel env s id todo p) := by
  refine .one ?_
  simp only [step, ho, put, Function.update_self]
  rw [stepDel_thr]
  simp only [Function.update_idem]

theorem gets_ins {rows : List (V × M)} (ho : ops t = .insert rows) (i : Nat) (ids : List Nat) (p : LIns)
    (s : LConc V M S) : Gets env ops t f (.ins i ids p, s) (stepIns env rows s i ids p) := by
  refine .one ?_
  simp only [step, ho, put, Function.update_self]
  rw [stepIns_thr]
  simp only [Function.update_idem]

theorem stepSr_thr (q : V) (k : Int) (s : LConc V M S) (p : LSr M S) (g : Nat → LAt M S) :
    stepSr env q k { s with thr := g } p = stepSr env q k s p := by
  cases p <;> rfl

theorem gets_sr {q : V} {k : Int} (ho : ops t = .search q k) (p : LSr M S) (s : LConc V M S) :
    Gets env ops t f (.srch p, s) (stepSr env q k s p, s) := by
  refine .one ?_
  simp only [step, ho, put, Function.update_self]
  rw [stepSr_thr]
  simp only [Function.update_idem]

/-! ## Loops over the tables -/

theorem upd_pulls {id : Nat} {v : V} {m : Option M} (ho : ops t = .update id v m) (pre cs : List Code)
    (s : LConc V M S) :
    Gets env ops t f (.upd (.drop pre.length (pre ++ cs)), s) (.upd .vec, pulls id pre.length cs s) := by
  induction cs generalizing pre s with
  | nil =>
    have h := gets_upd (env := env) (f := f) ho (.drop pre.length (pre ++ [])) s
    simpa [stepUpd, pulls] using h
  | cons c cs ih =>
    have h := gets_upd (env := env) (f := f) ho (.drop pre.length (pre ++ c :: cs)) s
    have h' := ih (pre ++ [c]) (s.pull pre.length c id)
    simp only [stepUpd, List.getElem?_append_right le_rfl, Nat.sub_self, List.getElem?_cons_zero] at h
    simp only [List.length_append, List.length_cons, List.length_nil, List.append_assoc, List.singleton_append] at h'
    exact h.trans h'

theorem upd_pushes {id : Nat} {v : V} {m : Option M} (ho : ops t = .update id v m) (pre cs : List Code)
    (s : LConc V M S) :
    Gets env ops t f (.upd (.add pre.length (pre ++ cs)), s) (.done (.flag true), pushes id pre.length cs s) := by
  induction cs generalizing pre s with
  | nil =>
    have h := gets_upd (env := env) (f := f) ho (.add pre.length (pre ++ [])) s
    simpa [stepUpd, pushes] using h
  | cons c cs ih =>
    have h := gets_upd (env := env) (f := f) ho (.add pre.length (pre ++ c :: cs)) s
    have h' := ih (pre ++ [c]) (s.push pre.length c id)
    simp only [stepUpd, List.getElem?_append_right le_rfl, Nat.sub_self, List.getElem?_cons_zero] at h
    simp only [List.length_append, List.length_cons, List.length_nil, List.append_assoc, List.singleton_append] at h'
    exact h.trans h'

theorem del_pulls {l : List Nat} (ho : ops t = .delete l) (id : Nat) (todo : List Nat) (pre cs : List Code)
    (s : LConc V M S) :
    Gets env ops t f (.del (id :: todo) (.drop pre.length (pre ++ cs)), s)
      (.del (id :: todo) .vec, pulls id pre.length cs s) := by
  induction cs generalizing pre s with
  | nil =>
    have h := gets_del (env := env) (f := f) ho id todo (.drop pre.length (pre ++ [])) s
    simpa [stepDel, pulls] using h
  | cons c cs ih =>
    have h := gets_del (env := env) (f := f) ho id todo (.drop pre.length (pre ++ c :: cs)) s
    have h' := ih (pre ++ [c]) (s.pull pre.length c id)
    simp only [stepDel, List.getElem?_append_right le_rfl, Nat.sub_self, List.getElem?_cons_zero] at h
    simp only [List.length_append, List.length_cons, List.length_nil, List.append_assoc, List.singleton_append] at h'
    exact h.trans h'

theorem ins_pushes {rows : List (V × M)} (ho : ops t = .insert rows) (i : Nat) (ids : List Nat) (id : Nat)
    (pre cs : List Code) (s : LConc V M S) :
    Gets env ops t f (.ins i ids (.add id pre.length (pre ++ cs)), s)
      (nextRow rows (i + 1) (ids ++ [id]), pushes id pre.length cs s) := by
  induction cs generalizing pre s with
  | nil =>
    have h := gets_ins (env := env) (f := f) ho i ids (.add id pre.length (pre ++ [])) s
    simpa [stepIns, pushes] using h
  | cons c cs ih =>
    have h := gets_ins (env := env) (f := f) ho i ids (.add id pre.length (pre ++ c :: cs)) s
    have h' := ih (pre ++ [c]) (s.push pre.length c id)
    simp only [stepIns, List.getElem?_append_right le_rfl, Nat.sub_self, List.getElem?_cons_zero] at h
    simp only [List.length_append, List.length_cons, List.length_nil, List.append_assoc, List.singleton_append] at h'
    exact h.trans h'

end LConc
end Valori
