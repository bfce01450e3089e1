import Verif.Model.Client
import Verif.Props.Flat

/-!
# Property C80: the client
-/

namespace Valori.Props
open Valori Valori.Spec

section generic
variable {W Q R : Type}

/-- A new client over components in state `w`, after a history (newest first). -/
def clRun (P : Parts W Q R) (w : W) (h : List (ClCall Q)) : List (ClCall Q × Bool) × Client W :=
  Client.run P ⟨w, false⟩ h

theorem clRun_open (P : Parts W Q R) (w : W) (h : List (ClCall Q)) :
    (clRun P w h).2.inited = clOpen (clRun P w h).1 := by
  induction h with
  | nil => rfl
  | cons x h ih =>
    simp only [clRun, Client.run] at ih ⊢
    cases x with
    | init =>
      simp only [Client.call, Client.init]
      split <;> simp [clOpen, Client.fine, ih]
    | close =>
      simp only [Client.call, Client.close]
      split <;> simp [clOpen, Client.fine, ih]
    | request q =>
      simp only [Client.call, Client.request, clOpen]
      split <;> simp [ih]

/-- **C80** Life cycle, for any components whatsoever: after every history, a request to a client that
is not open raises ValoriError and leaves every component as it was; a request to an open client gives
exactly the reply of the component and changes the components exactly as the component does.  The
client is open after an `initialize` that returned and before a `close` that returned. -/
theorem C80_client_lifecycle (P : Parts W Q R) (w : W) (h : List (ClCall Q)) (q : Q) :
    let c := (clRun P w h).2
    (clOpen (clRun P w h).1 = false → Client.request P q c = (.error .valori, c)) ∧
    (clOpen (clRun P w h).1 = true →
      (Client.request P q c).1 = (P.request q c.w).1 ∧
      (Client.request P q c).2.w = (P.request q c.w).2) := by
  intro c
  have ho := clRun_open P w h
  constructor
  · intro hc
    rw [hc] at ho
    simp only [Client.request]
    rw [if_pos (by simpa using ho)]
  · intro hc
    rw [hc] at ho
    simp only [Client.request]
    rw [if_neg (by simpa using ho)]
    exact ⟨rfl, rfl⟩

end generic

section flat
variable {σ V M D : Type} {B : Backend σ V M} {okId : Id → Prop} {okM : M → Prop}

/-- The client after its first `initialize` on storage that holds `live` behaves like a flat index on
that storage: the state is the flat index on the initialised storage. -/
theorem cl_first (env : FlatEnv V D) (s : σ) {l : List Id} {s' : σ}
    (hl : B.list (B.init s) none = (.ok l, s')) :
    Client.init (flatParts env B) ⟨(Flat.new, s), false⟩ = (.ok (), ⟨flatOn B (B.init s), true⟩) := by
  simp only [Client.init, Client.steps, flatParts, Flat.init, hl, flatOn]

/-- **C80** A client over a flat index can be closed and initialised again: whatever state it is in,
`close` and `initialize` leave it open with a flat index newly built on the reopened storage (to which
C13 - C18 apply, and C19 when the storage is durable). -/
theorem C80_client_reinit (L : Lawful B okId okM) (env : FlatEnv V D) (f : Flat V) (s : σ) (b : Bool)
    (hs : L.inv (B.init (B.close s))) :
    ∃ c, Client.close (flatParts env B) ⟨(f, s), b⟩ = (.ok (), c) ∧ c.inited = false ∧
      Client.init (flatParts env B) c = (.ok (), ⟨flatOn B (B.init (B.close s)), true⟩) := by
  obtain ⟨l, s', e, -⟩ := L.list hs
  refine ⟨⟨(Flat.close f, B.close s), false⟩, rfl, rfl, ?_⟩
  exact cl_first env (B.close s) e

/-- **C80** Reopening on the same disk storage object keeps everything. -/
theorem C80_disk_reinit (denv : DiskEnv M) (hg : ∀ l, (denv.glob l).Perm l) :
    Durable (diskLawful (V := V) denv hg)
      (fun s => (diskBackend denv).init ((diskBackend denv).close s)) := by
  intro s ⟨h1, h2, h3, h4⟩
  have h1 : s.Inv := h1
  exact ⟨⟨⟨h1.ok, fun _ => rfl⟩, rfl, h3, h4⟩, rfl⟩

/-- **C80** Reopening on the same hybrid storage object keeps everything. -/
theorem C80_hybrid_reinit [ByteSize V] [ByteSize M] (denv : DiskEnv M)
    (hg : ∀ l, (denv.glob l).Perm l) :
    Durable (hybLawful (V := V) denv hg)
      (fun s => (hybBackend denv).init ((hybBackend denv).close s)) := by
  intro s ⟨h1, h2, h3, h4⟩
  have h1 : Hyb.Inv denv (OwnName denv) s := h1
  refine ⟨⟨⟨Mem.Inv.empty true, ⟨h1.disk.ok, fun _ => rfl⟩, rfl, rfl, ?_⟩, rfl, h3, h4⟩, rfl⟩
  intro x y hx
  simp [hybBackend, Hyb.init, Hyb.close, Mem.init, Mem.at', Mem.contentOf] at hx

/-- **C80** Reopening memory storage forgets everything but works. -/
theorem C80_memory_reinit [ByteSize V] [ByteSize M] (s : Mem V M) :
    (memLawful (V := V) (M := M)).inv ((memBackend V M).init ((memBackend V M).close s)) ∧
    ∀ id, (memLawful (V := V) (M := M)).content
      ((memBackend V M).init ((memBackend V M).close s)) id = none := by
  refine ⟨⟨Mem.Inv.empty true, rfl, ⟨List.nodup_nil, ?_⟩, fun _ _ => trivial⟩, fun _ => rfl⟩
  intro id
  constructor
  · intro h; exact absurd h List.not_mem_nil
  · intro h; exact absurd h Bool.false_ne_true

end flat

/-- A client on memory storage: closed, opened, used, closed, opened again. -/
example :
    let P := flatParts exFlat (memBackend Nat Nat)
    let w : Flat Nat × Mem Nat Nat := (Flat.new, Mem.new)
    let ins : ClCall (IxCall Nat Nat) := .request (.insert 2 [("a", 3)] none)
    (clRun P w [.init, .close, ins, .init, ins]).1.map Prod.snd = [true, true, true, true, false] ∧
    (Client.request P (.search 1 5 1) (clRun P w [ins, .init]).2).1 = .ok (.hits [⟨"a", 2, none⟩]) ∧
    (Client.request P (.search 1 5 1) (clRun P w [.init, .close, ins, .init]).2).1 = .ok (.hits []) ∧
    (Client.request P (.search 1 5 1) (clRun P w [.close, ins, .init]).2).1 = .error .valori := by
  decide

end Valori.Props
