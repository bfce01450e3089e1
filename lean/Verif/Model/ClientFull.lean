import Verif.Model.Client
import Verif.Model.Tensor

/-!
# A client with a quantizer and a persistence manager (/repo/src/valori/client.py)

The components of a client without the two optional ones are given; this file adds them.  Each has a
state of its own: neither is handed the index or the storage (client.py:57, 60).
-/

namespace Valori
open Spec

/-- What the client calls on its quantizer (state `Z`) and its persistence manager (state `P`):
`initialize` and `close`, client.py:56-60 and 118-122.  Any of them may raise. -/
structure Extras (Z P : Type) where
  quantInit : Z → Res Z Unit
  quantClose : Z → Res Z Unit
  persInit : P → Res P Unit
  persClose : P → Res P Unit

namespace Extras
variable {W Z P Q R : Type}

/-- A step of the inner components. -/
def inner {α : Type} (f : W → Res W α) (w : W × Z × P) : Res (W × Z × P) α :=
  match f w.1 with
  | (r, w') => (r, (w', w.2))

/-- A step of the quantizer. -/
def onZ (f : Z → Res Z Unit) (w : W × Z × P) : Res (W × Z × P) Unit :=
  match f w.2.1 with
  | (r, z) => (r, (w.1, z, w.2.2))

/-- A step of the persistence manager. -/
def onP (f : P → Res P Unit) (w : W × Z × P) : Res (W × Z × P) Unit :=
  match f w.2.2 with
  | (r, p) => (r, (w.1, w.2.1, p))

/-- The components of `VectorDBClient(storage, index, quantizer, persistence)`, client.py:25-48.  The
requests are `insert`, `search`, `delete` and `update`, which call the method of the index and nothing
else, client.py:66-97; `get_stats` (client.py:99-114), which reads all four, is left out. -/
def parts (B : Parts W Q R) (E : Extras Z P) : Parts (W × Z × P) Q R where
  storageInit := inner B.storageInit
  indexInit := inner B.indexInit
  quantInit := some (onZ E.quantInit)
  persInit := some (onP E.persInit)
  persClose := some (onP E.persClose)
  quantClose := some (onZ E.quantClose)
  indexClose := inner B.indexClose
  storageClose := inner B.storageClose
  request q := inner (B.request q)

end Extras

/-- The quantizer and the tensor persistence manager of a client.  The quantizer is given by its
`initialize` and `close`; `TensorPersistence.initialize` and `close` only set a flag, tensor.py:31-38
and 198-200. -/
def tensorExtras {S V A Z : Type} (zi zc : Z → Z) : Extras Z (Tensor S V A) where
  quantInit z := (.ok (), zi z)
  quantClose z := (.ok (), zc z)
  persInit p := (.ok (), Tensor.init p)
  persClose p := (.ok (), Tensor.close p)

namespace Client
variable {W Q R : Type}

/-- What a call on a client gives its caller. -/
inductive Answer (R : Type) where
  | unit (r : Except Err Unit)
  | reply (r : Except Err R)

/-- One call with its answer (harness). -/
def ask (P : Parts W Q R) (c : Client W) : ClCall Q → Answer R × Client W
  | .init => let r := init P c; (.unit r.1, r.2)
  | .close => let r := close P c; (.unit r.1, r.2)
  | .request q => let r := request P q c; (.reply r.1, r.2)

/-- A history, oldest call first, with all answers (harness). -/
def converse (P : Parts W Q R) : Client W → List (ClCall Q) → List (Answer R) × Client W
  | c, [] => ([], c)
  | c, x :: h =>
    let r := ask P c x
    let rest := converse P r.2 h
    (r.1 :: rest.1, rest.2)

end Client
end Valori
