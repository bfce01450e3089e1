import Verif.Model.ClientFull
import Verif.Model.QuantStats
import Verif.Props.Client

/-!
# Property C193: the quantizer and the persistence manager of a client
-/

namespace Valori.Props
open Valori Valori.Spec

section generic
variable {W Z P Q R : Type}

/-- The optional components start and stop without an exception. -/
def Extras.Quiet (E : Extras Z P) : Prop :=
  (∀ z, (E.quantInit z).1 = .ok ()) ∧ (∀ z, (E.quantClose z).1 = .ok ()) ∧
  (∀ p, (E.persInit p).1 = .ok ()) ∧ (∀ p, (E.persClose p).1 = .ok ())

/-- A client without the optional components. -/
def Plain (B : Parts W Q R) : Prop :=
  B.quantInit = none ∧ B.persInit = none ∧ B.persClose = none ∧ B.quantClose = none

/-- What is left of a client when its optional components are taken away. -/
def strip (c : Client (W × Z × P)) : Client W := ⟨c.w.1, c.inited⟩

theorem ask_strip {B : Parts W Q R} {E : Extras Z P} (hB : Plain B) (hE : Extras.Quiet E)
    (c : Client (W × Z × P)) (x : ClCall Q) :
    (Client.ask (Extras.parts B E) c x).1 = (Client.ask B (strip c) x).1 ∧
    strip (Client.ask (Extras.parts B E) c x).2 = (Client.ask B (strip c) x).2 := by
  obtain ⟨⟨w, z, p⟩, b⟩ := c
  obtain ⟨b1, b2, b3, b4⟩ := hB
  obtain ⟨e1, e2, e3, e4⟩ := hE
  have f1 : (Extras.parts B E).storageInit = Extras.inner B.storageInit := rfl
  have f2 : (Extras.parts B E).indexInit = Extras.inner B.indexInit := rfl
  have f3 : (Extras.parts B E).quantInit = some (Extras.onZ E.quantInit) := rfl
  have f4 : (Extras.parts B E).persInit = some (Extras.onP E.persInit) := rfl
  have f5 : (Extras.parts B E).persClose = some (Extras.onP E.persClose) := rfl
  have f6 : (Extras.parts B E).quantClose = some (Extras.onZ E.quantClose) := rfl
  have f7 : (Extras.parts B E).indexClose = Extras.inner B.indexClose := rfl
  have f8 : (Extras.parts B E).storageClose = Extras.inner B.storageClose := rfl
  cases x with
  | request q =>
    simp only [Client.ask, Client.request, strip, Extras.parts, Extras.inner]
    cases b <;> simp
  | init =>
    have g3 : ∃ z', E.quantInit z = (.ok (), z') := ⟨_, Prod.ext (e1 z) rfl⟩
    have g4 : ∃ p', E.persInit p = (.ok (), p') := ⟨_, Prod.ext (e3 p) rfl⟩
    obtain ⟨z', g3⟩ := g3
    obtain ⟨p', g4⟩ := g4
    rcases h1 : B.storageInit w with ⟨_ | u, w1⟩
    · simp [Client.ask, Client.init, strip, Client.steps, f1, f2, f3, f4, Extras.inner, h1]
    · rcases h2 : B.indexInit w1 with ⟨_ | u2, w2⟩
      · simp [Client.ask, Client.init, strip, Client.steps, f1, f2, f3, f4, Extras.inner, h1, h2]
      · simp [Client.ask, Client.init, strip, Client.steps, f1, f2, f3, f4, Extras.inner, Extras.onZ,
          Extras.onP, h1, h2, g3, g4, b1, b2]
  | close =>
    have g3 : ∃ z', E.quantClose z = (.ok (), z') := ⟨_, Prod.ext (e2 z) rfl⟩
    have g4 : ∃ p', E.persClose p = (.ok (), p') := ⟨_, Prod.ext (e4 p) rfl⟩
    obtain ⟨z', g3⟩ := g3
    obtain ⟨p', g4⟩ := g4
    rcases h1 : B.indexClose w with ⟨_ | u, w1⟩
    · simp [Client.ask, Client.close, strip, Client.steps, f5, f6, f7, f8, Extras.inner, Extras.onZ,
        Extras.onP, h1, g3, g4, b3, b4]
    · rcases h2 : B.storageClose w1 with ⟨_ | u2, w2⟩ <;>
      simp [Client.ask, Client.close, strip, Client.steps, f5, f6, f7, f8, Extras.inner, Extras.onZ,
        Extras.onP, h1, h2, g3, g4, b3, b4]

/-- **C193** Handing a client a quantizer and a persistence manager changes nothing that the client
answers and nothing that it stores.  For all components and every history of calls, the answers and the
final state of index and storage are those of a client without the two, as long as the two start and
stop without an exception. -/
theorem C193_no_effect {B : Parts W Q R} {E : Extras Z P} (hB : Plain B) (hE : Extras.Quiet E)
    (w : W) (z : Z) (p : P) (h : List (ClCall Q)) :
    let full := Client.converse (Extras.parts B E) ⟨(w, z, p), false⟩ h
    let plain := Client.converse B ⟨w, false⟩ h
    full.1 = plain.1 ∧ full.2.w.1 = plain.2.w ∧ full.2.inited = plain.2.inited := by
  have key : ∀ (h : List (ClCall Q)) (c : Client (W × Z × P)),
      (Client.converse (Extras.parts B E) c h).1 = (Client.converse B (strip c) h).1 ∧
      strip (Client.converse (Extras.parts B E) c h).2 = (Client.converse B (strip c) h).2 := by
    intro h
    induction h with
    | nil => exact fun c => ⟨rfl, rfl⟩
    | cons x h ih =>
      intro c
      obtain ⟨a1, a2⟩ := ask_strip hB hE c x
      obtain ⟨i1, i2⟩ := ih (Client.ask (Extras.parts B E) c x).2
      simp only [Client.converse]
      rw [a2] at i1 i2
      exact ⟨by rw [a1, i1], i2⟩
  obtain ⟨k1, k2⟩ := key h ⟨(w, z, p), false⟩
  exact ⟨k1, congrArg Client.w k2, congrArg Client.inited k2⟩

/-- Facts about the optional components that starting and stopping keep are kept by every call. -/
theorem ask_extras {B : Parts W Q R} {E : Extras Z P} (Iz : Z → Prop) (Ip : P → Prop)
    (z1 : ∀ z, Iz z → Iz (E.quantInit z).2) (z2 : ∀ z, Iz z → Iz (E.quantClose z).2)
    (p1 : ∀ p, Ip p → Ip (E.persInit p).2) (p2 : ∀ p, Ip p → Ip (E.persClose p).2)
    (c : Client (W × Z × P)) (x : ClCall Q) (hc : Iz c.w.2.1 ∧ Ip c.w.2.2) :
    Iz (Client.ask (Extras.parts B E) c x).2.w.2.1 ∧
    Ip (Client.ask (Extras.parts B E) c x).2.w.2.2 := by
  have step : ∀ (l : List (Option ((W × Z × P) → Res (W × Z × P) Unit))) (w : W × Z × P),
      (∀ f, some f ∈ l → ∀ w : W × Z × P, Iz w.2.1 ∧ Ip w.2.2 →
        Iz (f w).2.2.1 ∧ Ip (f w).2.2.2) →
      Iz w.2.1 ∧ Ip w.2.2 → Iz (Client.steps l w).2.2.1 ∧ Ip (Client.steps l w).2.2.2 := by
    intro l
    induction l with
    | nil => exact fun w _ h => h
    | cons o l ih =>
      intro w hl hw
      cases o with
      | none => exact ih w (fun f hf => hl f (List.mem_cons_of_mem _ hf)) hw
      | some f =>
        have hf := hl f (List.mem_cons_self ..) w hw
        simp only [Client.steps]
        rcases hw : f w with ⟨r, w'⟩
        rw [hw] at hf
        cases r with
        | error e => exact hf
        | ok u => exact ih w' (fun g hg => hl g (List.mem_cons_of_mem _ hg)) hf
  cases x with
  | request q =>
    simp only [Client.ask, Client.request]
    split
    · exact hc
    · exact hc
  | init =>
    simp only [Client.ask, Client.init]
    have := step [some (Extras.parts B E).storageInit, some (Extras.parts B E).indexInit,
      (Extras.parts B E).quantInit, (Extras.parts B E).persInit] c.w (by
        intro f hf
        simp only [Extras.parts, List.mem_cons, Option.some.injEq, List.not_mem_nil, or_false] at hf
        rcases hf with rfl | rfl | rfl | rfl
        · exact fun w hw => hw
        · exact fun w hw => hw
        · exact fun w hw => ⟨z1 _ hw.1, hw.2⟩
        · exact fun w hw => ⟨hw.1, p1 _ hw.2⟩) hc
    revert this
    rcases Client.steps [some (Extras.parts B E).storageInit, some (Extras.parts B E).indexInit,
      (Extras.parts B E).quantInit, (Extras.parts B E).persInit] c.w with ⟨r, w'⟩
    cases r <;> exact id
  | close =>
    simp only [Client.ask, Client.close]
    have := step [(Extras.parts B E).persClose, (Extras.parts B E).quantClose,
      some (Extras.parts B E).indexClose, some (Extras.parts B E).storageClose] c.w (by
        intro f hf
        simp only [Extras.parts, List.mem_cons, Option.some.injEq, List.not_mem_nil, or_false] at hf
        rcases hf with rfl | rfl | rfl | rfl
        · exact fun w hw => ⟨hw.1, p2 _ hw.2⟩
        · exact fun w hw => ⟨z2 _ hw.1, hw.2⟩
        · exact fun w hw => hw
        · exact fun w hw => hw) hc
    revert this
    rcases Client.steps [(Extras.parts B E).persClose, (Extras.parts B E).quantClose,
      some (Extras.parts B E).indexClose, some (Extras.parts B E).storageClose] c.w with ⟨r, w'⟩
    cases r <;> exact id

/-- **C193** No vector reaches the quantizer or the persistence manager.  Every fact about them that
starting and stopping keep holds after every history of calls, whatever was inserted, searched, deleted
or updated; for all components, also when any of them raises. -/
theorem C193_nothing_reaches_them {B : Parts W Q R} {E : Extras Z P} (Iz : Z → Prop) (Ip : P → Prop)
    (z1 : ∀ z, Iz z → Iz (E.quantInit z).2) (z2 : ∀ z, Iz z → Iz (E.quantClose z).2)
    (p1 : ∀ p, Ip p → Ip (E.persInit p).2) (p2 : ∀ p, Ip p → Ip (E.persClose p).2)
    (c : Client (W × Z × P)) (hz : Iz c.w.2.1) (hp : Ip c.w.2.2) (h : List (ClCall Q)) :
    Iz (Client.converse (Extras.parts B E) c h).2.w.2.1 ∧
    Ip (Client.converse (Extras.parts B E) c h).2.w.2.2 := by
  induction h generalizing c with
  | nil => exact ⟨hz, hp⟩
  | cons x h ih =>
    have a := ask_extras (B := B) Iz Ip z1 z2 p1 p2 c x ⟨hz, hp⟩
    exact ih (Client.ask (Extras.parts B E) c x).2 a.1 a.2

end generic

section tensor
variable {W Q R S V A F : Type}

/-- **C193** A tensor persistence manager given to a client writes and reads nothing.  Over any index,
storage and quantizer, after every history of calls its directory holds the files it held at first, and
no save or load was counted. -/
theorem C193_never_saved {Z : Type} (B : Parts W Q R) (zi zc : Z → Z) (w : W) (z : Z)
    (p : Tensor S V A) (h : List (ClCall Q)) :
    let c := (Client.converse (Extras.parts B (tensorExtras zi zc)) ⟨(w, z, p), false⟩ h).2
    c.w.2.2.files = p.files ∧ c.w.2.2.saves = p.saves ∧ c.w.2.2.loads = p.loads :=
  (C193_nothing_reaches_them (B := B) (E := tensorExtras (S := S) (V := V) (A := A) zi zc)
    (fun _ => True) (fun x => x.files = p.files ∧ x.saves = p.saves ∧ x.loads = p.loads)
    (fun _ h => h) (fun _ h => h) (fun _ h => h) (fun _ h => h) ⟨(w, z, p), false⟩ trivial
    ⟨rfl, rfl, rfl⟩ h).2

/-- **C193** A quantizer given to a client is never trained: over any index and storage, a scalar, a
product and a segmented quantizer that were not trained are not trained after every history of calls. -/
theorem C193_never_trained {T : Type} (B : Parts W Q R) (w : W) (zs : ScalarQ F) (zp : ProductQ F)
    (za : Saq F T) (hs : zs.trained = false) (hp : zp.trained = false) (ha : za.trained = false)
    (p : Tensor S V A) (h : List (ClCall Q)) :
    (Client.converse (Extras.parts B (tensorExtras ScalarQ.init ScalarQ.close))
      ⟨(w, zs, p), false⟩ h).2.w.2.1.trained = false ∧
    (Client.converse (Extras.parts B (tensorExtras ProductQ.init ProductQ.close))
      ⟨(w, zp, p), false⟩ h).2.w.2.1.trained = false ∧
    (Client.converse (Extras.parts B (tensorExtras Saq.init Saq.close))
      ⟨(w, za, p), false⟩ h).2.w.2.1.trained = false :=
  ⟨(C193_nothing_reaches_them (B := B)
      (E := tensorExtras (S := S) (V := V) (A := A) (ScalarQ.init (F := F)) ScalarQ.close)
      (fun x => x.trained = false) (fun _ => True) (fun _ h => h) (fun _ _ => rfl) (fun _ h => h)
      (fun _ h => h) ⟨(w, zs, p), false⟩ hs trivial h).1,
   (C193_nothing_reaches_them (B := B)
      (E := tensorExtras (S := S) (V := V) (A := A) (ProductQ.init (F := F)) ProductQ.close)
      (fun x => x.trained = false) (fun _ => True) (fun _ h => h) (fun _ _ => rfl) (fun _ h => h)
      (fun _ h => h) ⟨(w, zp, p), false⟩ hp trivial h).1,
   (C193_nothing_reaches_them (B := B)
      (E := tensorExtras (S := S) (V := V) (A := A) (Saq.init (F := F) (S := T)) Saq.close)
      (fun x => x.trained = false) (fun _ => True) (fun _ h => h) (fun _ _ => rfl) (fun _ h => h)
      (fun _ h => h) ⟨(w, za, p), false⟩ ha trivial h).1⟩

end tensor

section lost
variable {V M D S A Z : Type}

/-- The last two calls of a history. -/
theorem converse_append {W Q R : Type} (P : Parts W Q R) (c : Client W) (h g : List (ClCall Q)) :
    Client.converse P c (h ++ g) =
      ((Client.converse P c h).1 ++ (Client.converse P (Client.converse P c h).2 g).1,
        (Client.converse P (Client.converse P c h).2 g).2) := by
  induction h generalizing c with
  | nil => rfl
  | cons x h ih => simp [Client.converse, ih]

/-- **C193** (refuted: a persistence manager does not make a client persistent) A client over memory
storage with a flat index, any quantizer that starts and stops, and a tensor persistence manager: after
every history of calls, `close` and `initialize` return normally, and then every search by a vector
finds nothing, whatever was inserted.  The files of the persistence manager are those of the start. -/
theorem C193_persistence_refuted [ByteSize V] [ByteSize M] (env : FlatEnv V D) (zi zc : Z → Z)
    (f : Flat V) (s : Mem V M) (z : Z) (p : Tensor S V A) (h : List (ClCall (IxCall V M))) (q : V)
    (k : Int) :
    let P := Extras.parts (flatParts env (memBackend V M)) (tensorExtras zi zc)
    let c := (Client.converse P ⟨((f, s), z, p), false⟩ (h ++ [.close, .init])).2
    c.inited = true ∧ (Client.request P (.search 1 q k) c).1 = .ok (.hits []) ∧
      c.w.2.2.files = p.files := by
  intro P c
  have hB : Plain (flatParts env (memBackend V M)) := ⟨rfl, rfl, rfl, rfl⟩
  have hE : Extras.Quiet (tensorExtras (S := S) (V := V) (A := A) zi zc) :=
    ⟨fun _ => rfl, fun _ => rfl, fun _ => rfl, fun _ => rfl⟩
  obtain ⟨-, k2, k3⟩ := C193_no_effect hB hE (f, s) z p (h ++ [.close, .init])
  have hf := (C193_never_saved (flatParts env (memBackend V M)) zi zc (f, s) z p
    (h ++ [.close, .init])).1
  rw [converse_append (flatParts env (memBackend V M))] at k2 k3
  generalize (Client.converse (flatParts env (memBackend V M)) ⟨(f, s), false⟩ h).2 = c0 at k2 k3
  obtain ⟨⟨f0, s0⟩, b0⟩ := c0
  obtain ⟨d, d1, d2, d3⟩ := C80_client_reinit memLawful env f0 s0 b0 (C80_memory_reinit s0).1
  have e : (Client.converse (flatParts env (memBackend V M)) ⟨(f0, s0), b0⟩ [.close, .init]).2 =
      ⟨flatOn (memBackend V M) ((memBackend V M).init ((memBackend V M).close s0)), true⟩ := by
    simp only [Client.converse, Client.ask, d1, d3]
  rw [e] at k2 k3
  have i : c.inited = true := k3
  have w : c.w.1 = flatOn (memBackend V M) ((memBackend V M).init ((memBackend V M).close s0)) := k2
  refine ⟨i, ?_, hf⟩
  simp only [Client.request, i]
  show (P.request (.search 1 q k) c.w).1 = _
  simp only [P, Extras.parts, Extras.inner, w]
  rfl

end lost

/-- One insert and a search through a client with a scalar quantizer and a tensor persistence manager:
the search finds the vector; after `close` and `initialize` it finds nothing. -/
example :
    let P := Extras.parts (flatParts exFlat (memBackend Nat Nat))
      (tensorExtras (S := Nat) (V := Nat) (A := Nat) (fun z : Bool => z) (fun z => z))
    let w : (Flat Nat × Mem Nat Nat) × Bool × Tensor Nat Nat Nat :=
      ((Flat.new, Mem.new), false, Tensor.new [])
    let ins : ClCall (IxCall Nat Nat) := .request (.insert 2 [("a", 3)] none)
    (Client.request P (.search 1 5 1) (Client.converse P ⟨w, false⟩ [.init, ins]).2).1
      = .ok (.hits [⟨"a", 2, none⟩]) ∧
    (Client.request P (.search 1 5 1)
      (Client.converse P ⟨w, false⟩ [.init, ins, .close, .init]).2).1 = .ok (.hits []) := by
  decide

end Valori.Props
