import Verif.Lemmas.HeapDb
import Verif.Props.CrashIndices

/-!
# Property C232: metadata given to and returned by a database

Metadata dictionaries are objects that the caller can change in place.
-/

namespace Valori.Props
open Valori Valori.Spec

variable {W V C D : Type}

/-- The calls of a program with the content of their dictionaries when called, and the answers with the
content of their dictionaries on return. -/
def played (P : Parts W (IxCall V Nat) (FwdReply D Nat)) :
    ObjState W C → List (ObjCall V C) → List (ClCall (IxCall V C) × DbAns D C)
  | _, [] => []
  | s, .call x :: p =>
    let r := Obj.step P s (.call x)
    match r.1 with
    | some a => (x.withMd (Obj.read s.heap), (seen a).withMd (Obj.read r.2.heap)) :: played P r.2 p
    | none => played P r.2 p
  | s, x :: p => played P (Obj.step P s x).2 p

/-- The program writes only into dictionaries it has made itself (`own`), not into those it was given. -/
def OwnWrites (P : Parts W (IxCall V Nat) (FwdReply D Nat)) :
    List Nat → ObjState W C → List (ObjCall V C) → Prop
  | _, _, [] => True
  | own, s, x :: p =>
    (match x with
      | .write a _ => a ∈ own
      | _ => True) ∧
    OwnWrites P (match x with
      | .new _ => s.heap.length :: own
      | _ => own) (Obj.step P s x).2 p

/-- The assumptions of `Db.HistOk` on one call and, unless `again`, of `Db.OpensClosed`. -/
def PlayPre {M : Type} (again : Bool) (db : Db V M) : ClCall (IxCall V M) → Prop
  | .request c => db.isOpen = true → Live.CallOk (fun _ => True) (fun _ => True) db.live c
  | .init => db.isOpen = false ∨ again = true
  | .close => True

section generic
variable {P : Parts W (IxCall V Nat) (FwdReply D Nat)}
  {rightN : Db V Nat → ClCall (IxCall V Nat) → DbAns D Nat → Prop}
  {rightC : Db V C → ClCall (IxCall V C) → DbAns D C → Prop}
  {sim : Db V Nat → Client W → Prop}

/-- What the proofs need of a client over memory storage. -/
structure Shares (P : Parts W (IxCall V Nat) (FwdReply D Nat))
    (rightN : Db V Nat → ClCall (IxCall V Nat) → DbAns D Nat → Prop)
    (rightC : Db V C → ClCall (IxCall V C) → DbAns D C → Prop)
    (sim : Db V Nat → Client W → Prop) (again : Bool) : Prop where
  step : ∀ {db c}, sim db c → ∀ x, PlayPre again db x →
    rightN db x (seen (Client.ask P c x).1) ∧ sim (Db.next true db x) (Client.ask P c x).2
  nd : ∀ {db c}, sim db c → (Live.idsOf db.live).Nodup
  map : ∀ {db x a}, rightN db x a → ∀ g : Option Nat → Option C, g none = none →
    rightC (db.withMd g) (x.withMd g) (a.withMd g)
  sound : ∀ {db nd q k l}, rightN db (.request (.search nd q k)) (.hits l) → 0 ≤ k →
    ∀ h ∈ l, ∃ y ∈ db.live, y.id = h.id ∧ h.md = y.md

/-- All answers to a history are right, for any notion of a right answer. -/
def AllRightFor {M : Type} (right : Db V M → ClCall (IxCall V M) → DbAns D M → Prop) :
    Db V M → List (ClCall (IxCall V M) × DbAns D M) → Prop
  | _, [] => True
  | db, (x, a) :: h => right db x a ∧ AllRightFor right (Db.next true db x) h

/-- The assumptions on a history. -/
def PlayOk {M : Type} (again : Bool) : Db V M → List (ClCall (IxCall V M)) → Prop
  | _, [] => True
  | db, x :: h => PlayPre again db x ∧ PlayOk again (Db.next true db x) h

theorem preOk {M N : Type} {g : Option M → Option N} {again : Bool} {db : Db V M} {x : ClCall (IxCall V M)}
    (h : PlayPre again (db.withMd g) (x.withMd g)) : PlayPre again db x := by
  cases x with
  | init => exact h
  | close => trivial
  | request c => exact fun ho => Obj.callOk_withMd (h ho)

/-- References in the database exist and are not the caller's. -/
structure Apart (own : List Nat) (heap : List C) (db : Db V Nat) : Prop where
  live : ∀ y ∈ db.live, ∀ a, y.md = some a → a < heap.length ∧ a ∉ own
  own : ∀ a ∈ own, a < heap.length

theorem Apart.call {own : List Nat} {heap : List C} {db : Db V Nat} (h : Apart own heap db)
    (x : ClCall (IxCall V Nat)) :
    Apart own (Obj.copyCall heap x).2 (Db.next true db (Obj.copyCall heap x).1) ∧
    (Db.next true db (Obj.copyCall heap x).1).withMd (Obj.read (Obj.copyCall heap x).2) =
      Db.next true (db.withMd (Obj.read heap)) (x.withMd (Obj.read heap)) ∧
    db.withMd (Obj.read (Obj.copyCall heap x).2) = db.withMd (Obj.read heap) := by
  obtain ⟨e, a1, a2, a3⟩ := Obj.copyCall_spec heap x
  have hlen : heap.length ≤ (Obj.copyCall heap x).2.length := by rw [a1]; simp
  have hdb : db.withMd (Obj.read (Obj.copyCall heap x).2) = db.withMd (Obj.read heap) := by
    simp only [Db.withMd]
    congr 1
    apply List.map_congr_left
    intro y hy
    simp only [Item.withMd]
    rw [a1, Obj.read_append fun a ha => (h.live y hy a ha).1]
  refine ⟨⟨?_, fun a ha => (h.own a ha).trans_le hlen⟩, ?_, hdb⟩
  · intro y hy a ha
    rcases Obj.mem_next y hy a ha with ⟨z, hz, hza⟩ | hm
    · obtain ⟨b1, b2⟩ := h.live z hz a hza
      exact ⟨b1.trans_le hlen, b2⟩
    · obtain ⟨b1, b2⟩ := a3 a hm
      refine ⟨b2, fun ho => ?_⟩
      have := h.own a ho
      omega
  · rw [← Obj.dbNext_withMd (Obj.read_none _), a2, hdb]

theorem Apart.write {own : List Nat} {heap : List C} {db : Db V Nat} (h : Apart own heap db) (a : Nat) (c : C) :
    Apart own (heap.set a c) db ∧ (a ∈ own → db.withMd (Obj.read (heap.set a c)) = db.withMd (Obj.read heap)) := by
  refine ⟨⟨fun y hy b hb => by simpa using h.live y hy b hb, fun b hb => by simpa using h.own b hb⟩, ?_⟩
  intro ha
  simp only [Db.withMd]
  congr 1
  apply List.map_congr_left
  intro y hy
  simp only [Item.withMd]
  congr 1
  cases hm : y.md with
  | none => rfl
  | some b =>
    have hne : a ≠ b := fun e => (h.live y hy b hm).2 (e ▸ ha)
    simp [Obj.read, List.getElem?_set_ne hne]

theorem Apart.new {own : List Nat} {heap : List C} {db : Db V Nat} (h : Apart own heap db) (c : C) :
    Apart (heap.length :: own) (heap ++ [c]) db ∧
      db.withMd (Obj.read (heap ++ [c])) = db.withMd (Obj.read heap) := by
  refine ⟨⟨fun y hy b hb => ?_, fun b hb => ?_⟩, ?_⟩
  · obtain ⟨h1, h2⟩ := h.live y hy b hb
    simp only [List.length_append, List.length_cons, List.length_nil, List.mem_cons, not_or]
    exact ⟨by omega, by omega, h2⟩
  · simp only [List.length_append, List.length_cons, List.length_nil]
    rcases List.mem_cons.1 hb with rfl | hb
    · omega
    · have := h.own b hb; omega
  · simp only [Db.withMd]
    congr 1
    apply List.map_congr_left
    intro y hy
    simp only [Item.withMd]
    rw [Obj.read_append fun a ha => (h.live y hy a ha).1]

theorem shares_isolated {again : Bool} (hS : Shares P rightN rightC sim again) (p : List (ObjCall V C)) :
    ∀ (own : List Nat) (s : ObjState W C) (db : Db V Nat), sim db s.client → Apart own s.heap db →
    OwnWrites P own s p → PlayOk again (db.withMd (Obj.read s.heap)) ((played P s p).map Prod.fst) →
    AllRightFor rightC (db.withMd (Obj.read s.heap)) (played P s p) := by
  induction p with
  | nil => intro own s db _ _ _ _; trivial
  | cons x p ih =>
    intro own s db hs ha hw hok
    cases x with
    | new c =>
      obtain ⟨b1, b2⟩ := ha.new c
      have := ih _ ⟨s.heap ++ [c], s.client⟩ db hs b1 hw.2 (by rw [b2]; exact hok)
      rw [b2] at this
      exact this
    | write a c =>
      obtain ⟨b1, b2⟩ := ha.write a c
      have := ih own ⟨s.heap.set a c, s.client⟩ db hs b1 hw.2 (by rw [b2 hw.1]; exact hok)
      rw [b2 hw.1] at this
      exact this
    | call x =>
      obtain ⟨b1, b2, b3⟩ := ha.call x
      obtain ⟨e, -, a2, -⟩ := Obj.copyCall_spec s.heap x
      simp only [played, Obj.step, List.map_cons, PlayOk] at hok ⊢
      have hpre := preOk (g := Obj.read (Obj.copyCall s.heap x).2) (again := again)
        (x := (Obj.copyCall s.heap x).1) (db := db) (by rw [a2, b3]; exact hok.1)
      obtain ⟨k1, k2⟩ := hS.step hs (Obj.copyCall s.heap x).1 hpre
      refine ⟨?_, ?_⟩
      · have := hS.map k1 (Obj.read (Obj.copyCall s.heap x).2) rfl
        rw [a2, b3] at this
        exact this
      · rw [← b2]
        exact ih own ⟨_, _⟩ _ k2 b1 hw.2 (by rw [b2]; exact hok.2)

/-- A database without its metadata. -/
def bare {M : Type} (db : Db V M) : Db V Unit := db.withMd fun _ => none

theorem bare_withMd {M N : Type} (g : Option M → Option N) (db : Db V M) : bare (db.withMd g) = bare db := by
  simp [bare, Db.withMd, Function.comp_def, Item.withMd]

theorem pre_withMd {M N : Type} (g : Option M → Option N) {again : Bool} {db : Db V M}
    {x : ClCall (IxCall V M)} : PlayPre again (db.withMd g) (x.withMd g) ↔ PlayPre again db x := by
  refine ⟨preOk, fun h => ?_⟩
  cases x with
  | init => exact h
  | close => trivial
  | request c =>
    intro ho
    have h := h ho
    cases c with
    | insert nd rows ms =>
      obtain ⟨h1, h2, -⟩ := h
      exact ⟨h1, fun r hr => by have := h2 r hr; simpa only [Db.withMd, Obj.has_withMd] using this,
        fun _ _ _ _ => trivial⟩
    | delete ids => exact fun _ _ => trivial
    | update id v m => exact ⟨trivial, fun _ _ => trivial⟩
    | search nd q k => trivial

theorem pre_bare {M N : Type} {again : Bool} {db : Db V M} {db' : Db V N} {x : ClCall (IxCall V M)}
    {x' : ClCall (IxCall V N)} (h : bare db = bare db')
    (hx : (x.withMd fun _ => (none : Option Unit)) = x'.withMd fun _ => none) (hp : PlayPre again db x) :
    PlayPre again db' x' := by
  rw [← pre_withMd (fun _ => (none : Option Unit))] at hp ⊢
  rw [← hx]
  simp only [bare] at h
  rw [← h]
  exact hp

theorem next_bare {M N : Type} {vol : Bool} {db : Db V M} {db' : Db V N} {x : ClCall (IxCall V M)}
    {x' : ClCall (IxCall V N)} (h : bare db = bare db')
    (hx : (x.withMd fun _ => (none : Option Unit)) = x'.withMd fun _ => none) :
    bare (Db.next vol db x) = bare (Db.next vol db' x') := by
  have e1 := Obj.dbNext_withMd (g := fun _ => (none : Option Unit)) rfl vol db x
  have e2 := Obj.dbNext_withMd (g := fun _ => (none : Option Unit)) rfl vol db' x'
  simp only [bare] at h ⊢
  rw [← e1, ← e2, h, hx]

theorem withMd_withMd {M N O : Type} (g : Option M → Option N) (g' : Option N → Option O)
    (x : ClCall (IxCall V M)) : (x.withMd g).withMd g' = x.withMd (g' ∘ g) := by
  cases x with
  | init => rfl
  | close => rfl
  | request c =>
    cases c with
    | insert nd rows ms => cases ms <;> simp [ClCall.withMd, IxCall.withMd]
    | _ => rfl

theorem leaves_copy {h : List C} {id : String} {x : ClCall (IxCall V Nat)} (hl : LeavesItem id x) :
    LeavesItem id (Obj.copyCall h x).1 := by
  cases x with
  | init => exact hl
  | close => exact hl
  | request c =>
    cases c with
    | insert nd rows ms => cases ms <;> trivial
    | _ => exact hl

theorem reach_step {again : Bool} (hS : Shares P rightN rightC sim again) {s : ObjState W C} {db : Db V Nat}
    {dbv : Db V C} (hs : sim db s.client) (ha : Apart [] s.heap db) (hb : bare dbv = bare db)
    (x : ObjCall V C) (q : List (ObjCall V C))
    (hok : PlayOk again dbv ((played P s (x :: q)).map Prod.fst)) :
    ∃ (db' : Db V Nat) (dbv' : Db V C), sim db' (Obj.step P s x).2.client ∧
      Apart [] (Obj.step P s x).2.heap db' ∧ bare dbv' = bare db' ∧
      PlayOk again dbv' ((played P (Obj.step P s x).2 q).map Prod.fst) ∧
      (∀ y ∈ db.live, (∀ c, x = .call c → LeavesItem y.id c) → y ∈ db'.live) ∧
      (∀ a c, s.heap[a]? = some c → (∀ c', x ≠ .write a c') → (Obj.step P s x).2.heap[a]? = some c) ∧
      (∀ y, x = .call y → ∀ r, (Obj.step P s x).1 = some r → rightN db (Obj.copyCall s.heap y).1 (seen r)) := by
  cases x with
  | new c =>
    obtain ⟨b1, -⟩ := ha.new c
    refine ⟨db, dbv, hs, ⟨fun y hy a h => ⟨(b1.live y hy a h).1, by simp⟩, by simp⟩, hb, hok,
      fun y hy _ => hy, ?_, by intro y h; cases h⟩
    intro a c' h _
    have hlt : a < s.heap.length := (List.getElem?_eq_some_iff.1 h).1
    simp only [Obj.step]
    rw [List.getElem?_append_left hlt, h]
  | write a c =>
    obtain ⟨b1, -⟩ := ha.write a c
    refine ⟨db, dbv, hs, b1, hb, hok, fun y hy _ => hy, ?_, by intro y h; cases h⟩
    intro b c' h hne
    simp only [Obj.step]
    rw [List.getElem?_set_ne (fun e => hne c (by rw [e])), h]
  | call x =>
    obtain ⟨b1, b2, b3⟩ := ha.call x
    obtain ⟨e, a1, a2, -⟩ := Obj.copyCall_spec s.heap x
    simp only [played, Obj.step, List.map_cons, PlayOk] at hok ⊢
    have hx : ((x.withMd (Obj.read s.heap)).withMd fun _ => (none : Option Unit)) =
        (Obj.copyCall s.heap x).1.withMd fun _ => none := by
      rw [← a2, withMd_withMd]; rfl
    obtain ⟨k1, k2⟩ := hS.step hs (Obj.copyCall s.heap x).1 (pre_bare hb hx hok.1)
    refine ⟨_, _, k2, b1, next_bare hb hx, hok.2, fun y hy hl => Obj.leaves_mem (leaves_copy (hl x rfl)) hy, ?_, ?_⟩
    · intro a c h _
      rw [a1, List.getElem?_append_left (List.getElem?_eq_some_iff.1 h).1, h]
    · rintro y h r ⟨⟩
      cases h
      exact k1

theorem reach {again : Bool} (hS : Shares P rightN rightC sim again) (q : List (ObjCall V C))
    (p : List (ObjCall V C)) : ∀ (s : ObjState W C) (db : Db V Nat) (dbv : Db V C), sim db s.client →
    Apart [] s.heap db → bare dbv = bare db → PlayOk again dbv ((played P s (p ++ q)).map Prod.fst) →
    ∃ (db' : Db V Nat) (dbv' : Db V C), sim db' (Obj.after P s p).client ∧
      Apart [] (Obj.after P s p).heap db' ∧ bare dbv' = bare db' ∧
      PlayOk again dbv' ((played P (Obj.after P s p) q).map Prod.fst) ∧
      (∀ y ∈ db.live, (∀ c, .call c ∈ p → LeavesItem y.id c) → y ∈ db'.live) ∧
      (∀ a c, s.heap[a]? = some c → (∀ c', .write a c' ∉ p) → (Obj.after P s p).heap[a]? = some c) := by
  induction p with
  | nil =>
    intro s db dbv hs ha hb hok
    exact ⟨db, dbv, hs, ha, hb, hok, fun y hy _ => hy, fun a c h _ => h⟩
  | cons x p ih =>
    intro s db dbv hs ha hb hok
    obtain ⟨db1, dbv1, c1, c2, c3, c4, c5, c6, -⟩ := reach_step hS hs ha hb x (p ++ q) hok
    obtain ⟨db2, dbv2, d1, d2, d3, d4, d5, d6⟩ := ih _ db1 dbv1 c1 c2 c3 c4
    refine ⟨db2, dbv2, d1, d2, d3, d4, ?_, ?_⟩
    · intro y hy hl
      exact d5 y (c5 y hy fun c e => hl c (by simp [e])) fun c hc => hl c (List.mem_cons_of_mem _ hc)
    · intro a c h hw
      exact d6 a c (c6 a c h fun c' e => hw c' (by simp [e])) fun c' hc => hw c' (List.mem_cons_of_mem _ hc)

theorem shares_written {again : Bool} (hS : Shares P rightN rightC sim again) {s : ObjState W C}
    {db : Db V Nat} {dbv : Db V C} (hs : sim db s.client) (ha : Apart [] s.heap db) (hb : bare dbv = bare db)
    (p rest : List (ObjCall V C)) (nd nd' : Nat) (q q' : V) (k k' : Int) (hk : 0 ≤ k) (hk' : 0 ≤ k') (a : Nat)
    (c : C) (r r' : Client.Answer (FwdReply D Nat)) (l l' : List (Hit D Nat)) (h h' : Hit D Nat)
    (hok : PlayOk again dbv ((played P s (p ++ .call (.request (.search nd q k)) ::
      .write a c :: (rest ++ [.call (.request (.search nd' q' k'))]))).map Prod.fst))
    (hr : (Obj.step P (Obj.after P s p) (.call (.request (.search nd q k)))).1 = some r)
    (hl : seen r = .hits l) (hh : h ∈ l) (hm : h.md = some a)
    (hrest : ∀ c, .call c ∈ rest → LeavesItem h.id c) (hw : ∀ c', .write a c' ∉ rest)
    (hr' : (Obj.step P (Obj.after P s (p ++ .call (.request (.search nd q k)) :: .write a c :: rest))
      (.call (.request (.search nd' q' k')))).1 = some r')
    (hl' : seen r' = .hits l') (hh' : h' ∈ l') (hid : h'.id = h.id) :
    (h'.withMd (Obj.read (Obj.after P s (p ++ .call (.request (.search nd q k)) :: .write a c :: (rest ++
      [.call (.request (.search nd' q' k'))]))).heap)).md = some c := by
  obtain ⟨db1, dbv1, c1, c2, c3, c4, -, -⟩ := reach hS _ p s db dbv hs ha hb hok
  obtain ⟨db2, dbv2, d1, d2, d3, d4, d5, -, d7⟩ := reach_step hS c1 c2 c3 _ _ c4
  have hright := d7 _ rfl r hr
  rw [hl] at hright
  obtain ⟨y, hy, y1, y2⟩ := hS.sound (l := l) (nd := nd) (q := q) (k := k) hright hk h hh
  rw [hm] at y2
  have hlt := (d2.live y (d5 y hy (fun c e => by cases e; trivial)) a y2.symm).1
  obtain ⟨db3, dbv3, e1, e2, e3, e4, e5, -, -⟩ := reach_step hS d1 d2 d3 _ _ d4
  have hheap : (Obj.step P (Obj.step P (Obj.after P s p) (.call (.request (.search nd q k)))).2
      (.write a c)).2.heap[a]? = some c := by
    rw [show (Obj.step P (Obj.step P (Obj.after P s p) (.call (.request (.search nd q k)))).2
      (.write a c)).2.heap = (Obj.step P (Obj.after P s p) (.call (.request (.search nd q k)))).2.heap.set a c
      from rfl, List.getElem?_set_self hlt]
  obtain ⟨db4, dbv4, f1, f2, f3, f4, f5, f6⟩ := reach hS _ rest _ db3 dbv3 e1 e2 e3 e4
  have hst : ∀ t, Obj.after P s (p ++ .call (.request (.search nd q k)) :: .write a c :: t) =
      Obj.after P (Obj.step P (Obj.step P (Obj.after P s p) (.call (.request (.search nd q k)))).2
        (.write a c)).2 t := by
    intro t; simp only [Obj.after, List.foldl_append, List.foldl_cons]
  rw [hst] at hr' ⊢
  have hy4 : y ∈ db4.live := by
    refine f5 y (e5 y (d5 y hy (fun c e => by cases e; trivial)) (fun c e => by cases e)) ?_
    intro x hx
    rw [y1]
    exact hrest x hx
  have ha4 := f6 a c hheap hw
  obtain ⟨db5, dbv5, -, -, -, -, -, g6, g7⟩ := reach_step hS f1 f2 f3 _ _ f4
  have hright' := g7 _ rfl r' hr'
  rw [hl'] at hright'
  obtain ⟨y', hy', z1, z2⟩ := hS.sound (l := l') (nd := nd') (q := q') (k := k') hright' hk' h' hh'
  have hyy : y' = y := Live.eq_of_id (hS.nd f1) hy' hy4 (by rw [z1, y1, hid])
  have := g6 a c ha4 (fun c' e => by cases e)
  simp only [Hit.withMd, z2, hyy, ← y2]
  rw [Obj.after, List.foldl_append, List.foldl_cons, List.foldl_nil]
  exact this

end generic

/-! The three clients. -/

theorem wanted_withMd {M N : Type} (g : Option M → Option N) (l : List (Item V M)) (k : Int) :
    Db.wanted k (l.map (Item.withMd g)).length = Db.wanted k l.length := by simp

theorem flatFails_withMd {M N : Type} (g : Option M → Option N) (env : FlatEnv V D) (l : List (Item V M))
    (q : V) : flatFails env (l.map (Item.withMd g)) q = flatFails env l q := by
  have e : (l.map (Item.withMd g)).isEmpty = l.isEmpty := by cases l <;> rfl
  simp only [flatFails, e, List.all_map]
  rfl

theorem isTopK_withMd {M N : Type} [LinearOrder D] (g : Option M → Option N) {dist : V → D}
    {l : List (Item V M)} {k : Nat} {a : List (Hit D M)} (h : IsTopK dist l k a) :
    IsTopK dist (l.map (Item.withMd g)) k (a.map (Hit.withMd g)) := by
  have hids : (a.map (Hit.withMd g)).map Hit.id = a.map Hit.id := by simp [Hit.withMd, Function.comp_def]
  refine ⟨by simpa using h.length, by rw [hids]; exact h.nodup, ?_, ?_, ?_⟩
  · rw [List.pairwise_map]; exact h.sorted
  · intro x hx
    obtain ⟨y, hy, rfl⟩ := List.mem_map.1 hx
    obtain ⟨z, hz, h1, h2, h3⟩ := h.sound y hy
    exact ⟨_, List.mem_map_of_mem hz, h1, h2, by simp [Hit.withMd, Item.withMd, h3]⟩
  · intro x hx hn y hy
    obtain ⟨z, hz, rfl⟩ := List.mem_map.1 hx
    obtain ⟨w, hw, rfl⟩ := List.mem_map.1 hy
    rw [hids] at hn
    exact h.best z hz hn w hw

theorem right_withMd {M N : Type} [LinearOrder D] (g : Option M → Option N) (env : FlatEnv V D)
    {db : Db V M} {x : ClCall (IxCall V M)} {a : DbAns D M}
    (h : Db.Right env.dist (flatFails env) db x a) :
    Db.Right env.dist (flatFails env) (db.withMd g) (x.withMd g) (a.withMd g) := by
  obtain ⟨o, l⟩ := db
  cases x with
  | init => simp only [Db.Right] at h; subst h; rfl
  | close => simp only [Db.Right] at h; subst h; rfl
  | request c =>
    cases o with
    | false => simp only [Db.Right, if_pos] at h; subst h; rfl
    | true =>
      cases c with
      | insert nd rows ms =>
        have h : a = if nd = 2 then .ids (rows.map Prod.fst) else .raised := h
        subst h
        change DbAns.withMd g _ = if nd = 2 then _ else _
        split <;> rfl
      | delete ids =>
        have h : a = .flag (Live.removeAll l ids).1 := h
        subst h
        change _ = DbAns.flag (Live.removeAll (l.map (Item.withMd g)) ids).1
        rw [Obj.removeAll_withMd]; rfl
      | update id v m =>
        have h : a = .flag (Live.has l id) := h
        subst h
        change _ = DbAns.flag (Live.has (l.map (Item.withMd g)) id)
        rw [Obj.has_withMd]; rfl
      | search nd q k =>
        have h : if nd = 1 ∧ flatFails env l q = false then
          ∃ r, a = .hits r ∧ IsTopK (env.dist q) l (Db.wanted k l.length) r else a = .raised := h
        change if nd = 1 ∧ flatFails env (l.map (Item.withMd g)) q = false then
          ∃ r, a.withMd g = .hits r ∧ IsTopK (env.dist q) (l.map (Item.withMd g))
            (Db.wanted k (l.map (Item.withMd g)).length) r else a.withMd g = .raised
        rw [flatFails_withMd, wanted_withMd]
        by_cases hc : nd = 1 ∧ flatFails env l q = false
        · rw [if_pos hc] at h ⊢
          obtain ⟨r, rfl, hr⟩ := h
          exact ⟨_, rfl, isTopK_withMd g hr⟩
        · rw [if_neg hc] at h ⊢
          subst h; rfl

theorem rightBy_withMd {M N : Type} (g : Option M → Option N)
    {may : List (Item V M) → IxCall V M → Prop} {good : List (Item V M) → V → Int → List (Hit D M) → Prop}
    {may' : List (Item V N) → IxCall V N → Prop} {good' : List (Item V N) → V → Int → List (Hit D N) → Prop}
    (hm : ∀ l c, may l c → may' (l.map (Item.withMd g)) (c.withMd g))
    (hgd : ∀ l q k r, good l q k r → good' (l.map (Item.withMd g)) q k (r.map (Hit.withMd g)))
    {db : Db V M} {x : ClCall (IxCall V M)} {a : DbAns D M} (h : Db.RightBy may good db x a) :
    Db.RightBy may' good' (db.withMd g) (x.withMd g) (a.withMd g) := by
  obtain ⟨o, l⟩ := db
  cases x with
  | init => simp only [Db.RightBy] at h; subst h; rfl
  | close => simp only [Db.RightBy] at h; subst h; rfl
  | request c =>
    cases o with
    | false => simp only [Db.RightBy, if_pos] at h; subst h; rfl
    | true =>
      have hm' := hm l c
      cases c with
      | insert nd rows ms =>
        have h : if nd = 2 then a = .ids (rows.map Prod.fst) ∨ (may l (.insert nd rows ms) ∧ a = .raised)
          else a = .raised := h
        change if nd = 2 then a.withMd g = .ids (rows.map Prod.fst) ∨ (may' (l.map (Item.withMd g))
          (IxCall.withMd g (.insert nd rows ms)) ∧ a.withMd g = .raised) else a.withMd g = .raised
        split
        · rename_i hnd
          rw [if_pos hnd] at h
          rcases h with rfl | ⟨hy, rfl⟩
          · exact .inl rfl
          · exact .inr ⟨hm' hy, rfl⟩
        · rename_i hnd
          rw [if_neg hnd] at h
          subst h; rfl
      | delete ids =>
        have h : a = .flag (Live.removeAll l ids).1 := h
        subst h
        change _ = DbAns.flag (Live.removeAll (l.map (Item.withMd g)) ids).1
        rw [Obj.removeAll_withMd]; rfl
      | update id v m =>
        have h : a = .flag (Live.has l id) ∨ (may l (.update id v m) ∧ a = .raised) := h
        change a.withMd g = .flag (Live.has (l.map (Item.withMd g)) id) ∨
          (may' (l.map (Item.withMd g)) (IxCall.withMd g (.update id v m)) ∧ a.withMd g = .raised)
        rw [Obj.has_withMd]
        rcases h with rfl | ⟨hy, rfl⟩
        · exact .inl rfl
        · exact .inr ⟨hm' hy, rfl⟩
      | search nd q k =>
        have h : if nd = 1 then (∃ r, a = .hits r ∧ good l q k r) ∨ (may l (.search nd q k) ∧ a = .raised)
          else a = .raised := h
        change if nd = 1 then (∃ r, a.withMd g = .hits r ∧ good' (l.map (Item.withMd g)) q k r) ∨
          (may' (l.map (Item.withMd g)) (IxCall.withMd g (.search nd q k)) ∧ a.withMd g = .raised)
          else a.withMd g = .raised
        split
        · rename_i hnd
          rw [if_pos hnd] at h
          rcases h with ⟨r, rfl, hr⟩ | ⟨hy, rfl⟩
          · exact .inl ⟨_, rfl, hgd _ _ _ _ hr⟩
          · exact .inr ⟨hm' hy, rfl⟩
        · rename_i hnd
          rw [if_neg hnd] at h
          subst h; rfl

theorem honest_withMd {M N : Type} [LinearOrder D] (g : Option M → Option N) {dist : V → V → Option D}
    {l : List (Item V M)} {q : V} {k : Int} {r : List (Hit D M)} (h : Db.Honest dist l q k r) :
    Db.Honest dist (l.map (Item.withMd g)) q k (r.map (Hit.withMd g)) := by
  intro hk
  obtain ⟨h1, h2, h3⟩ := h hk
  refine ⟨by simpa using h1, by rw [List.pairwise_map]; exact h2, ?_⟩
  intro x hx
  obtain ⟨y, hy, rfl⟩ := List.mem_map.1 hx
  obtain ⟨z, hz, e1, e2, e3⟩ := h3 y hy
  exact ⟨_, List.mem_map_of_mem hz, e1, e2, by simp [Hit.withMd, Item.withMd, e3]⟩

section clients
variable [ByteSize V] [ByteSize Nat]

theorem flat_shares [LinearOrder D] (env : FlatEnv V D) (ha : IsArgsort env.argsort) :
    Shares (C := C) (flatParts env (memBackend V Nat)) (Db.Right env.dist (flatFails env))
      (Db.Right env.dist (flatFails env)) (Sim memLawful) true where
  step := by
    intro db c h x hx
    refine sim_step C194_memory env ha h x ?_
    cases x with
    | request q => exact hx
    | init => trivial
    | close => trivial
  nd := by
    rintro ⟨o, l⟩ c ⟨-, h2, h3⟩
    cases o with
    | false => exact (h3 rfl).2.1
    | true =>
      obtain ⟨l', hp, hi⟩ := h2 rfl
      exact (hp.map Item.id).nodup_iff.2 hi.nd
  map h g _ := right_withMd g env h
  sound := by
    rintro ⟨o, l⟩ nd q k r h _ x hx
    cases o with
    | false => simp [Db.Right] at h
    | true =>
      have h : if nd = 1 ∧ flatFails env l q = false then
          ∃ r', DbAns.hits r = .hits r' ∧ IsTopK (env.dist q) l (Db.wanted k l.length) r'
          else DbAns.hits r = .raised := h
      split at h
      · obtain ⟨r', e, hr⟩ := h
        cases e
        obtain ⟨y, hy, e1, -, e3⟩ := hr.sound x hx
        exact ⟨y, hy, e1, e3⟩
      · cases h

theorem by_shares {X : Type} {P : Parts (X × Mem V Nat) (IxCall V Nat) (FwdReply D Nat)} {fresh : X → Prop}
    {Inv : List (Item V Nat) → X × Mem V Nat → Prop} {may : List (Item V Nat) → IxCall V Nat → Prop}
    {good : List (Item V Nat) → V → Int → List (Hit D Nat) → Prop}
    {may' : List (Item V C) → IxCall V C → Prop} {good' : List (Item V C) → V → Int → List (Hit D C) → Prop}
    (hS : Serves (memLawful (V := V) (M := Nat)) P fresh Inv may good)
    (hm : ∀ (g : Option Nat → Option C) l c, may l c → may' (l.map (Item.withMd g)) (c.withMd g))
    (hgd : ∀ (g : Option Nat → Option C) l q k r, good l q k r →
      good' (l.map (Item.withMd g)) q k (r.map (Hit.withMd g)))
    (hs : ∀ {l q k r}, good l q k r → 0 ≤ k → ∀ h ∈ r, ∃ y ∈ l, y.id = h.id ∧ h.md = y.md) :
    Shares P (Db.RightBy may good) (Db.RightBy may' good') (Follows memLawful fresh Inv) false where
  step := by
    intro db c h x hx
    refine follows_step hS C194_memory h x ?_ ?_
    · cases x with
      | request q => exact hx
      | init => trivial
      | close => trivial
    · rintro rfl
      simpa [PlayPre] using hx
  nd := by
    rintro ⟨o, l⟩ c ⟨-, h2, h3⟩
    cases o with
    | false => exact (h3 rfl).2.1
    | true =>
      obtain ⟨l', hp, hi⟩ := h2 rfl
      exact (hp.map Item.id).nodup_iff.2 (hS.nd hi)
  map h g _ := rightBy_withMd g (hm g) (hgd g) h
  sound := by
    rintro ⟨o, l⟩ nd q k r h hk x hx
    cases o with
    | false => simp [Db.RightBy] at h
    | true =>
      have h : if nd = 1 then (∃ r', DbAns.hits r = .hits r' ∧ good l q k r') ∨
          (may l (.search nd q k) ∧ DbAns.hits r = .raised) else DbAns.hits r = .raised := h
      split at h
      · rcases h with ⟨r', e, hr⟩ | ⟨-, e⟩
        · cases e
          exact hs hr hk x hx
        · cases e
      · cases h

end clients

theorem playOk_again {M : Type} (h : List (ClCall (IxCall V M))) : ∀ db : Db V M,
    Db.HistOk (fun _ => True) (fun _ => True) true db h → PlayOk true db h := by
  induction h with
  | nil => intro _ _; trivial
  | cons x h ih =>
    intro db hh
    refine ⟨?_, ih _ hh.2⟩
    cases x with
    | init => exact .inr rfl
    | close => trivial
    | request c => exact hh.1

theorem playOk_once {M : Type} (h : List (ClCall (IxCall V M))) : ∀ db : Db V M,
    Db.HistOk (fun _ => True) (fun _ => True) true db h → Db.OpensClosed true db h → PlayOk false db h := by
  induction h with
  | nil => intro _ _ _; trivial
  | cons x h ih =>
    intro db hh ho
    refine ⟨?_, ih _ hh.2 ho.2⟩
    cases x with
    | init => exact .inl (ho.1 rfl)
    | close => trivial
    | request c => exact hh.1

theorem allRight_of [LinearOrder D] {M : Type} {dist : V → V → D} {fails : List (Item V M) → V → Bool}
    (l : List (ClCall (IxCall V M) × DbAns D M)) : ∀ db : Db V M, AllRightFor (Db.Right dist fails) db l →
    Db.AllRight true dist fails db (l.map Prod.fst) (l.map Prod.snd) := by
  induction l with
  | nil => intro _ _; trivial
  | cons x l ih => intro db h; exact ⟨h.1, ih _ h.2⟩

theorem allRightBy_of {M : Type} {may : List (Item V M) → IxCall V M → Prop}
    {good : List (Item V M) → V → Int → List (Hit D M) → Prop}
    (l : List (ClCall (IxCall V M) × DbAns D M)) : ∀ db : Db V M, AllRightFor (Db.RightBy may good) db l →
    Db.AllRightBy true may good db (l.map Prod.fst) (l.map Prod.snd) := by
  induction l with
  | nil => intro _ _; trivial
  | cons x l ih => intro db h; exact ⟨h.1, ih _ h.2⟩

/-- A program that searches, writes `c` into the dictionary `a`, does something else and searches again. -/
def writesInto (p : List (ObjCall V C)) (q : V) (k : Int) (a : Nat) (c : C) (rest : List (ObjCall V C))
    (q' : V) (k' : Int) : List (ObjCall V C) :=
  p ++ .call (.request (.search 1 q k)) :: .write a c :: (rest ++ [.call (.request (.search 1 q' k'))])

/-- The hits of the last search of a program that ends with the search `x`. -/
def lastHits (P : Parts W (IxCall V Nat) (FwdReply D Nat)) (s : ObjState W C) (p : List (ObjCall V C))
    (x : ObjCall V C) : List (Hit D Nat) :=
  match (Obj.step P (Obj.after P s p) x).1 with
  | some (.reply (.ok (.hits l))) => l
  | _ => []

theorem lastHits_mem {P : Parts W (IxCall V Nat) (FwdReply D Nat)} {s : ObjState W C} {p : List (ObjCall V C)}
    {x : ObjCall V C} {h : Hit D Nat} (hh : h ∈ lastHits P s p x) :
    ∃ r l, (Obj.step P (Obj.after P s p) x).1 = some r ∧ seen r = .hits l ∧ h ∈ l := by
  unfold lastHits at hh
  split at hh
  · rename_i l e
    exact ⟨_, l, e, rfl, hh⟩
  · simp at hh

section main
variable [ByteSize V] [ByteSize Nat] [LinearOrder D]

/-- Where the three clients over memory storage start. -/
abbrev start (X : Type) (x : X) : ObjState (X × Mem V Nat) C := ⟨[], ⟨(x, Mem.new), false⟩⟩

/-- **C232** A flat database over memory storage keeps its own copies of the dictionaries it is given.  For every
program that writes only into dictionaries it made itself, before or after it passed them to the database:
every answer, read when it is returned, is right for the abstract database that got the content the
dictionaries had when they were passed. -/
theorem C232_flat_partial (env : FlatEnv V D) (ha : IsArgsort env.argsort) (p : List (ObjCall V C))
    (hw : OwnWrites (flatParts env (memBackend V Nat)) [] (start _ Flat.new) p)
    (hok : Db.HistOk (fun _ => True) (fun _ => True) true ⟨false, []⟩
      ((played (flatParts env (memBackend V Nat)) (start _ Flat.new) p).map Prod.fst)) :
    Db.AllRight true env.dist (flatFails env) ⟨false, []⟩
      ((played (flatParts env (memBackend V Nat)) (start _ Flat.new) p).map Prod.fst)
      ((played (flatParts env (memBackend V Nat)) (start _ Flat.new) p).map Prod.snd) :=
  allRight_of _ _ (shares_isolated (flat_shares env ha) p [] (start _ Flat.new) ⟨false, []⟩
    ⟨rfl, (fun h => by cases h), fun _ => ⟨rfl, List.nodup_nil, C194_memory.volatile rfl _⟩⟩
    ⟨by simp, by simp⟩ hw (playOk_again _ _ hok))

theorem ivf_shares (env : IvfEnv V D) (hk : Ivf.KMeansOk env)
    (hK : ∀ vs, vs ≠ [] → ∃ r, env.kmeans vs = .ok r) (hp : 0 ≤ env.nProbes) :
    Shares (C := C) (ivfParts env (memBackend V Nat))
      (Db.RightBy (fun _ _ => ∃ a b e, env.dist a b = .error e) (HonestDistinct (partialDist env.dist)))
      (Db.RightBy (fun _ _ => ∃ a b e, env.dist a b = .error e) (HonestDistinct (partialDist env.dist)))
      (Follows memLawful (· = Ivf.new) (Ivf.Inv memLawful)) false := by
  refine by_shares (ivf_serves memLawful env hk hK hp) (fun _ _ _ h => h) ?_ ?_
  · intro g l q k r h
    refine ⟨honest_withMd g h.1, fun hk => ?_⟩
    have := h.2 hk
    simpa [Hit.withMd, Function.comp_def] using this
  · intro l q k r h hk x hx
    obtain ⟨y, hy, e1, -, e3⟩ := (h.1 hk).2.2 x hx
    exact ⟨y, hy, e1, e3⟩

theorem hnsw_shares (env : HnswEnv V D) :
    Shares (C := C) (hnswParts env (memBackend V Nat))
      (Db.RightBy (fun live c => ∃ q k, c = .search 1 q k ∧ ∃ y ∈ live, ∃ e, env.dist q y.vec = .error e)
        (Db.Honest (partialDist env.dist)))
      (Db.RightBy (fun live c => ∃ q k, c = .search 1 q k ∧ ∃ y ∈ live, ∃ e, env.dist q y.vec = .error e)
        (Db.Honest (partialDist env.dist)))
      (Follows memLawful (fun f => ∃ n, f = ⟨[], [], 0, 0, false, n⟩) (Hnsw.Inv memLawful)) false := by
  refine by_shares (hnsw_serves memLawful env) ?_ (fun g l q k r h => honest_withMd g h) ?_
  · rintro g l c ⟨q, k, rfl, y, hy, e, he⟩
    exact ⟨q, k, rfl, _, List.mem_map_of_mem hy, e, he⟩
  · intro l q k r h hk x hx
    obtain ⟨y, hy, e1, -, e3⟩ := (h hk).2.2 x hx
    exact ⟨y, hy, e1, e3⟩

/-- **C232** The same over an IVF index. -/
theorem C232_ivf_partial (env : IvfEnv V D) (hk : Ivf.KMeansOk env)
    (hK : ∀ vs, vs ≠ [] → ∃ r, env.kmeans vs = .ok r) (hp : 0 ≤ env.nProbes) (p : List (ObjCall V C))
    (hw : OwnWrites (ivfParts env (memBackend V Nat)) [] (start _ Ivf.new) p)
    (hok : Db.HistOk (fun _ => True) (fun _ => True) true ⟨false, []⟩
      ((played (ivfParts env (memBackend V Nat)) (start _ Ivf.new) p).map Prod.fst))
    (hop : Db.OpensClosed true ⟨false, []⟩
      ((played (ivfParts env (memBackend V Nat)) (start _ Ivf.new) p).map Prod.fst)) :
    Db.AllRightBy true (fun _ _ => ∃ a b e, env.dist a b = .error e) (HonestDistinct (partialDist env.dist))
      ⟨false, []⟩ ((played (ivfParts env (memBackend V Nat)) (start _ Ivf.new) p).map Prod.fst)
      ((played (ivfParts env (memBackend V Nat)) (start _ Ivf.new) p).map Prod.snd) :=
  allRightBy_of _ _ (shares_isolated (ivf_shares env hk hK hp) p [] (start _ Ivf.new) ⟨false, []⟩
    ⟨rfl, (fun h => by cases h), fun _ => ⟨rfl, List.nodup_nil, C194_memory.volatile rfl _⟩⟩
    ⟨by simp, by simp⟩ hw (playOk_once _ _ hok hop))

/-- **C232** The same over an HNSW index. -/
theorem C232_hnsw_partial (env : HnswEnv V D) (p : List (ObjCall V C))
    (hw : OwnWrites (hnswParts env (memBackend V Nat)) [] (start _ Hnsw.new) p)
    (hok : Db.HistOk (fun _ => True) (fun _ => True) true ⟨false, []⟩
      ((played (hnswParts env (memBackend V Nat)) (start _ Hnsw.new) p).map Prod.fst))
    (hop : Db.OpensClosed true ⟨false, []⟩
      ((played (hnswParts env (memBackend V Nat)) (start _ Hnsw.new) p).map Prod.fst)) :
    Db.AllRightBy true
      (fun live c => ∃ q k, c = .search 1 q k ∧ ∃ y ∈ live, ∃ e, env.dist q y.vec = .error e)
      (Db.Honest (partialDist env.dist)) ⟨false, []⟩
      ((played (hnswParts env (memBackend V Nat)) (start _ Hnsw.new) p).map Prod.fst)
      ((played (hnswParts env (memBackend V Nat)) (start _ Hnsw.new) p).map Prod.snd) :=
  allRightBy_of _ _ (shares_isolated (hnsw_shares env) p [] (start _ Hnsw.new) ⟨false, []⟩
    ⟨rfl, (fun h => by cases h), fun _ => ⟨⟨0, rfl⟩, List.nodup_nil, C194_memory.volatile rfl _⟩⟩
    ⟨by simp, by simp⟩ hw (playOk_once _ _ hok hop))

/-- **C232** is false for writes into results: a search over memory storage returns the stored dictionary itself
(memory.py:82-83, flat.py:147-155).  After any program, with any writes: if a search gives the hit `h` with the
dictionary `a` and `c` is written into `a`, then after anything that neither deletes nor updates that item,
closes or opens the database, nor writes into `a` again, every search that gives the item reports `c`. -/
theorem C232_flat_refuted (env : FlatEnv V D) (ha : IsArgsort env.argsort) (p rest : List (ObjCall V C))
    (q q' : V) (k k' : Int) (hk : 0 ≤ k) (hk' : 0 ≤ k') (a : Nat) (c : C) (h h' : Hit D Nat)
    (hok : Db.HistOk (fun _ => True) (fun _ => True) true ⟨false, []⟩
      ((played (flatParts env (memBackend V Nat)) (start _ Flat.new) (writesInto p q k a c rest q' k')).map
        Prod.fst))
    (hh : h ∈ lastHits (flatParts env (memBackend V Nat)) (start _ Flat.new) p
      (.call (.request (.search 1 q k)))) (hm : h.md = some a)
    (hrest : ∀ x, .call x ∈ rest → LeavesItem h.id x) (hw : ∀ c', .write a c' ∉ rest)
    (hh' : h' ∈ lastHits (flatParts env (memBackend V Nat)) (start _ Flat.new)
      (p ++ .call (.request (.search 1 q k)) :: .write a c :: rest) (.call (.request (.search 1 q' k'))))
    (hid : h'.id = h.id) :
    (h'.withMd (Obj.read (Obj.after (flatParts env (memBackend V Nat)) (start _ Flat.new)
      (writesInto p q k a c rest q' k')).heap)).md = some c := by
  obtain ⟨r, l, e1, e2, e3⟩ := lastHits_mem hh
  obtain ⟨r', l', f1, f2, f3⟩ := lastHits_mem hh'
  exact shares_written (C := C) (flat_shares env ha) (s := start _ Flat.new) (db := ⟨false, []⟩) (dbv := ⟨false, []⟩)
    ⟨rfl, (fun h => by cases h), fun _ => ⟨rfl, List.nodup_nil, C194_memory.volatile rfl _⟩⟩
    ⟨by simp, by simp⟩ rfl p rest 1 1 q q' k k' hk hk' a c r r' l l' h h' (playOk_again _ _ hok)
    e1 e2 e3 hm hrest hw f1 f2 f3 hid

/-- **C232** The same over an IVF index. -/
theorem C232_ivf_refuted (env : IvfEnv V D) (hkm : Ivf.KMeansOk env)
    (hK : ∀ vs, vs ≠ [] → ∃ r, env.kmeans vs = .ok r) (hp : 0 ≤ env.nProbes) (p rest : List (ObjCall V C))
    (q q' : V) (k k' : Int) (hk : 0 ≤ k) (hk' : 0 ≤ k') (a : Nat) (c : C) (h h' : Hit D Nat)
    (hok : Db.HistOk (fun _ => True) (fun _ => True) true ⟨false, []⟩
      ((played (ivfParts env (memBackend V Nat)) (start _ Ivf.new) (writesInto p q k a c rest q' k')).map
        Prod.fst))
    (hop : Db.OpensClosed true ⟨false, []⟩
      ((played (ivfParts env (memBackend V Nat)) (start _ Ivf.new) (writesInto p q k a c rest q' k')).map
        Prod.fst))
    (hh : h ∈ lastHits (ivfParts env (memBackend V Nat)) (start _ Ivf.new) p
      (.call (.request (.search 1 q k)))) (hm : h.md = some a)
    (hrest : ∀ x, .call x ∈ rest → LeavesItem h.id x) (hw : ∀ c', .write a c' ∉ rest)
    (hh' : h' ∈ lastHits (ivfParts env (memBackend V Nat)) (start _ Ivf.new)
      (p ++ .call (.request (.search 1 q k)) :: .write a c :: rest) (.call (.request (.search 1 q' k'))))
    (hid : h'.id = h.id) :
    (h'.withMd (Obj.read (Obj.after (ivfParts env (memBackend V Nat)) (start _ Ivf.new)
      (writesInto p q k a c rest q' k')).heap)).md = some c := by
  obtain ⟨r, l, e1, e2, e3⟩ := lastHits_mem hh
  obtain ⟨r', l', f1, f2, f3⟩ := lastHits_mem hh'
  exact shares_written (C := C) (ivf_shares env hkm hK hp) (s := start _ Ivf.new) (db := ⟨false, []⟩) (dbv := ⟨false, []⟩)
    ⟨rfl, (fun h => by cases h), fun _ => ⟨rfl, List.nodup_nil, C194_memory.volatile rfl _⟩⟩
    ⟨by simp, by simp⟩ rfl p rest 1 1 q q' k k' hk hk' a c r r' l l' h h' (playOk_once _ _ hok hop)
    e1 e2 e3 hm hrest hw f1 f2 f3 hid

/-- **C232** The same over an HNSW index. -/
theorem C232_hnsw_refuted (env : HnswEnv V D) (p rest : List (ObjCall V C))
    (q q' : V) (k k' : Int) (hk : 0 ≤ k) (hk' : 0 ≤ k') (a : Nat) (c : C) (h h' : Hit D Nat)
    (hok : Db.HistOk (fun _ => True) (fun _ => True) true ⟨false, []⟩
      ((played (hnswParts env (memBackend V Nat)) (start _ Hnsw.new) (writesInto p q k a c rest q' k')).map
        Prod.fst))
    (hop : Db.OpensClosed true ⟨false, []⟩
      ((played (hnswParts env (memBackend V Nat)) (start _ Hnsw.new) (writesInto p q k a c rest q' k')).map
        Prod.fst))
    (hh : h ∈ lastHits (hnswParts env (memBackend V Nat)) (start _ Hnsw.new) p
      (.call (.request (.search 1 q k)))) (hm : h.md = some a)
    (hrest : ∀ x, .call x ∈ rest → LeavesItem h.id x) (hw : ∀ c', .write a c' ∉ rest)
    (hh' : h' ∈ lastHits (hnswParts env (memBackend V Nat)) (start _ Hnsw.new)
      (p ++ .call (.request (.search 1 q k)) :: .write a c :: rest) (.call (.request (.search 1 q' k'))))
    (hid : h'.id = h.id) :
    (h'.withMd (Obj.read (Obj.after (hnswParts env (memBackend V Nat)) (start _ Hnsw.new)
      (writesInto p q k a c rest q' k')).heap)).md = some c := by
  obtain ⟨r, l, e1, e2, e3⟩ := lastHits_mem hh
  obtain ⟨r', l', f1, f2, f3⟩ := lastHits_mem hh'
  exact shares_written (C := C) (hnsw_shares env) (s := start _ Hnsw.new) (db := ⟨false, []⟩) (dbv := ⟨false, []⟩)
    ⟨rfl, (fun h => by cases h), fun _ => ⟨⟨0, rfl⟩, List.nodup_nil, C194_memory.volatile rfl _⟩⟩
    ⟨by simp, by simp⟩ rfl p rest 1 1 q q' k k' hk hk' a c r r' l l' h h' (playOk_once _ _ hok hop)
    e1 e2 e3 hm hrest hw f1 f2 f3 hid

end main

/-- The calls of a program over disk storage with the content of their dictionaries when called, and the answers. -/
def playedDisk (P : Parts W (IxCall V C) (FwdReply D C)) :
    ObjState W C → List (ObjCall V C) → List (ClCall (IxCall V C) × DbAns D C)
  | _, [] => []
  | s, .call x :: p =>
    let r := Obj.stepDisk P s (.call x)
    match r.1 with
    | some a => (x.withMd (Obj.read s.heap), seen a) :: playedDisk P r.2 p
    | none => playedDisk P r.2 p
  | s, x :: p => playedDisk P (Obj.stepDisk P s x).2 p

theorem playedDisk_converse (P : Parts W (IxCall V C) (FwdReply D C)) (p : List (ObjCall V C)) :
    ∀ s : ObjState W C, (playedDisk P s p).map Prod.snd =
      (Client.converse P s.client ((playedDisk P s p).map Prod.fst)).1.map seen := by
  induction p with
  | nil => intro s; rfl
  | cons x p ih =>
    intro s
    cases x with
    | new c => exact ih ⟨s.heap ++ [c], s.client⟩
    | write a c => exact ih ⟨s.heap.set a c, s.client⟩
    | call x =>
      have := ih (Obj.stepDisk P s (.call x)).2
      simp only [playedDisk, Obj.stepDisk, List.map_cons, Client.converse] at this ⊢
      rw [this]

/-- **C232** Over disk storage every program may write into any dictionary, also into those it got from
searches: the answers of a flat database are right for the contents that were passed. -/
theorem C232_disk [LinearOrder D] (denv : DiskEnv C) (hg : ∀ l, (denv.glob l).Perm l) (env : FlatEnv V D)
    (ha : IsArgsort env.argsort) (s : Disk V C) (live : List (Item V C)) (hn : (live.map Item.id).Nodup)
    (hs : (diskLawful denv hg).inv ((diskBackend denv).init s))
    (hl : ∀ id, (diskLawful denv hg).content ((diskBackend denv).init s) id = Live.find live id)
    (p : List (ObjCall V C)) (heap : List C)
    (hok : Db.HistOk (OwnName denv) (fun m => denv.picklable m = true) false ⟨false, live⟩
      ((playedDisk (flatParts env (diskBackend denv)) ⟨heap, ⟨(Flat.new, s), false⟩⟩ p).map Prod.fst)) :
    Db.AllRight false env.dist (flatFails env) ⟨false, live⟩
      ((playedDisk (flatParts env (diskBackend denv)) ⟨heap, ⟨(Flat.new, s), false⟩⟩ p).map Prod.fst)
      ((playedDisk (flatParts env (diskBackend denv)) ⟨heap, ⟨(Flat.new, s), false⟩⟩ p).map Prod.snd) := by
  rw [playedDisk_converse]
  exact C194_exact_database (diskLawful denv hg) false (C194_disk denv hg) env ha s live hn hs hl _ hok

/-- Two dictionaries are made and given to the database with two rows; the first is changed afterwards, passed
to an update and changed again; searches before, between and after. -/
def exOwn : List (ObjCall Nat String) :=
  [.new "red", .new "blue", .call .init,
   .call (.request (.insert 2 [("a", 3), ("b", 8)] (some [some 0, some 1]))), .write 0 "green",
   .call (.request (.search 1 4 2)), .call (.request (.update "b" 9 (some 0))), .write 0 "black",
   .call (.request (.search 1 4 2))]

/-- The hypotheses hold for that program, and the answers do not show the later writes. -/
example :
    OwnWrites (flatParts exFlat (memBackend Nat Nat)) [] (start _ Flat.new) exOwn ∧
    Db.HistOk (fun _ => True) (fun _ => True) true ⟨false, []⟩
      ((played (flatParts exFlat (memBackend Nat Nat)) (start _ Flat.new) exOwn).map Prod.fst) ∧
    (played (flatParts exFlat (memBackend Nat Nat)) (start _ Flat.new) exOwn).map Prod.snd =
      [.done, .ids ["a", "b"], .hits [⟨"a", 1, some "red"⟩, ⟨"b", 4, some "blue"⟩], .flag true,
       .hits [⟨"a", 1, some "red"⟩, ⟨"b", 5, some "green"⟩]] := by
  refine ⟨by simp [OwnWrites, exOwn, Obj.step, Obj.copyCall, Obj.copyReq, Obj.copyAll, Obj.copy, Obj.read], ?_,
    by decide⟩
  simp [played, exOwn, Db.HistOk, Obj.step, ClCall.withMd, IxCall.withMd, Db.next, Live.CallOk, Live.next,
    Live.items, Live.has, Live.replace]

/-- A program that changes a dictionary it got from a search, adds an item and searches again. -/
def exThrough : List (ObjCall Nat String) :=
  writesInto [.new "red", .call .init, .call (.request (.insert 2 [("a", 3)] (some [some 0])))] 4 1 1 "green"
    [.call (.request (.insert 2 [("b", 8)] none))] 9 2

/-- The hypotheses of the refutations hold for it, and the second search shows what was written. -/
example :
    Db.HistOk (fun _ => True) (fun _ => True) true ⟨false, []⟩
      ((played (flatParts exFlat (memBackend Nat Nat)) (start _ Flat.new) exThrough).map Prod.fst) ∧
    (played (flatParts exFlat (memBackend Nat Nat)) (start _ Flat.new) exThrough).map Prod.snd =
      [.done, .ids ["a"], .hits [⟨"a", 1, some "red"⟩], .ids ["b"],
       .hits [⟨"b", 1, none⟩, ⟨"a", 6, some "green"⟩]] ∧
    (played (ivfParts exIvfAll (memBackend Nat Nat)) (start _ Ivf.new) exThrough).map Prod.snd =
      [.done, .ids ["a"], .hits [⟨"a", 1, some "red"⟩], .ids ["b"],
       .hits [⟨"b", 1, none⟩, ⟨"a", 6, some "green"⟩]] ∧
    (played (hnswParts exHnswAll (memBackend Nat Nat)) (start _ Hnsw.new) exThrough).map Prod.snd =
      [.done, .ids ["a"], .hits [⟨"a", 1, some "red"⟩], .ids ["b"],
       .hits [⟨"b", 1, none⟩, ⟨"a", 6, some "green"⟩]] ∧
    lastHits (flatParts exFlat (memBackend Nat Nat)) (start _ Flat.new) (C := String)
      [.new "red", .call .init, .call (.request (.insert 2 [("a", 3)] (some [some 0])))]
      (.call (.request (.search 1 4 1))) = [⟨"a", 1, some 1⟩] := by
  refine ⟨?_, by decide, by decide, by decide, by decide⟩
  simp [played, exThrough, writesInto, Db.HistOk, Obj.step, ClCall.withMd, IxCall.withMd, Db.next, Live.CallOk,
    Live.next, Live.items, Live.has]

/-- Dictionaries of text on disk. -/
def exDiskText : DiskEnv String := ⟨Char.isAlphanum, fun _ => true, fun l => l⟩

/-- The same program over disk storage: the second search does not show it. -/
example :
    (playedDisk (flatParts exFlat (diskBackend exDiskText))
      ⟨[], ⟨(Flat.new, Disk.opened (emptyDir Nat String)), false⟩⟩ exThrough).map Prod.snd =
      [.done, .ids ["a"], .hits [⟨"a", 1, some "red"⟩], .ids ["b"],
       .hits [⟨"b", 1, none⟩, ⟨"a", 6, some "red"⟩]] := by decide

end Valori.Props
