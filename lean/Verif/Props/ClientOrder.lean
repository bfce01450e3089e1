import Verif.Model.Client

/-!
# Property C147: the order in which a client starts and stops its components
-/

namespace Valori.Props
open Valori Valori.Spec

/-- The components of a client. -/
inductive Part where
  | storage | index | quantizer | persistence
deriving DecidableEq, Repr

/-- A component that notes its start or stop in a common log, and then may raise. -/
def logPart (raises : Part → Option Err) (x : Part) (log : List Part) : Res (List Part) Unit :=
  (match raises x with | none => .ok () | some e => .error e, log ++ [x])

/-- Components that keep a common log; `hasQ` and `hasP` say which optional ones there are, and
`raisesI` and `raisesC` which of them raise what on `initialize` and on `close`. -/
def logParts (hasQ hasP : Bool) (raisesI raisesC : Part → Option Err) :
    Parts (List Part) Unit Unit where
  storageInit := logPart raisesI .storage
  indexInit := logPart raisesI .index
  quantInit := if hasQ then some (logPart raisesI .quantizer) else none
  persInit := if hasP then some (logPart raisesI .persistence) else none
  persClose := if hasP then some (logPart raisesC .persistence) else none
  quantClose := if hasQ then some (logPart raisesC .quantizer) else none
  indexClose := logPart raisesC .index
  storageClose := logPart raisesC .storage
  request _ w := (.ok (), w)

/-- The components there are, in the order in which they start. -/
def startOrder (hasQ hasP : Bool) : List Part :=
  [.storage, .index, .quantizer, .persistence].filter fun x =>
    (x ≠ .quantizer ∨ hasQ) ∧ (x ≠ .persistence ∨ hasP)

/-- The part of a list up to and with the first entry that raises. -/
def upToFirst (raises : Part → Option Err) : List Part → List Part
  | [] => []
  | x :: l => if (raises x).isSome then [x] else x :: upToFirst raises l

/-- **C147** Whatever components there are and whichever of them raise whatever, `initialize`
starts storage, index, quantizer and persistence in this order and no further than the first
that raises, whose exception becomes a `ValoriError`; the components before it stay started and
the client open or closed as it was. -/
theorem C147_client_start (hasQ hasP : Bool) (raisesI raisesC : Part → Option Err)
    (log : List Part) (b : Bool) :
    let r := Client.init (logParts hasQ hasP raisesI raisesC) ⟨log, b⟩
    r.2.w = log ++ upToFirst raisesI (startOrder hasQ hasP) ∧
    ((∀ x ∈ startOrder hasQ hasP, raisesI x = none) → r.1 = .ok () ∧ r.2.inited = true) ∧
    ((∃ x ∈ startOrder hasQ hasP, raisesI x ≠ none) →
      r.1 = .error .valori ∧ r.2.inited = b) := by
  cases hasQ <;> cases hasP <;>
  rcases h1 : raisesI .storage with _ | _ <;> rcases h2 : raisesI .index with _ | _ <;>
  rcases h3 : raisesI .quantizer with _ | _ <;> rcases h4 : raisesI .persistence with _ | _ <;>
  simp [Client.init, Client.steps, logParts, logPart, startOrder, upToFirst, h1, h2, h3, h4]

/-- **C147** `close` stops the components in the opposite order and no further than the first
that raises, whose exception the caller gets as it is; the client then still counts as open and
the components after it are not stopped. -/
theorem C147_client_stop (hasQ hasP : Bool) (raisesI raisesC : Part → Option Err)
    (log : List Part) (b : Bool) :
    let r := Client.close (logParts hasQ hasP raisesI raisesC) ⟨log, b⟩
    r.2.w = log ++ upToFirst raisesC (startOrder hasQ hasP).reverse ∧
    ((∀ x ∈ startOrder hasQ hasP, raisesC x = none) → r.1 = .ok () ∧ r.2.inited = false) ∧
    (∀ x e, (upToFirst raisesC (startOrder hasQ hasP).reverse).getLast? = some x →
      raisesC x = some e → r.1 = .error e ∧ r.2.inited = b) := by
  cases hasQ <;> cases hasP <;>
  rcases h1 : raisesC .storage with _ | _ <;> rcases h2 : raisesC .index with _ | _ <;>
  rcases h3 : raisesC .quantizer with _ | _ <;> rcases h4 : raisesC .persistence with _ | _ <;>
  simp [Client.close, Client.steps, logParts, logPart, startOrder, upToFirst, h1, h2, h3, h4] <;>
  (rintro x e rfl; simp [h1, h2, h3, h4])

/-- All four components, where the quantizer fails to start and the index to stop. -/
example :
    let P := logParts true true (fun x => if x = .quantizer then some .quantization else none)
      (fun x => if x = .index then some .index else none)
    Client.init P ⟨[], false⟩ = (.error .valori, ⟨[.storage, .index, .quantizer], false⟩) ∧
    Client.close P ⟨[], true⟩ = (.error .index, ⟨[.persistence, .quantizer, .index], true⟩) ∧
    (∃ x ∈ startOrder true true, (if x = Part.quantizer then some Err.quantization else none) ≠ none)
    := by decide

end Valori.Props
