import Verif.Model.Flat
import Verif.Spec.Client

/-!
# Model of `VectorDBClient` (/repo/src/valori/client.py)

The components share one world `W` (the index holds a reference to the storage).
-/

namespace Valori
open Spec

/-- The components of a client, client.py:25-48.  `request` stands for the methods of the index that
the client forwards to, and for the statistics of all components. -/
structure Parts (W Q R : Type) where
  storageInit : W → Res W Unit
  indexInit : W → Res W Unit
  quantInit : Option (W → Res W Unit)
  persInit : Option (W → Res W Unit)
  persClose : Option (W → Res W Unit)
  quantClose : Option (W → Res W Unit)
  indexClose : W → Res W Unit
  storageClose : W → Res W Unit
  request : Q → W → Res W R

/-- A client: the world of its components and `_initialized`. -/
structure Client (W : Type) where
  w : W
  inited : Bool
deriving DecidableEq

namespace Client
variable {W Q R : Type}

/-- Run steps until one raises; an absent optional component is no step. -/
def steps : List (Option (W → Res W Unit)) → W → Res W Unit
  | [], w => (.ok (), w)
  | none :: l, w => steps l w
  | some f :: l, w =>
    match f w with
    | (.ok _, w') => steps l w'
    | (.error e, w') => (.error e, w')

/-- `initialize`, client.py:50-64. -/
def init (P : Parts W Q R) (c : Client W) : Res (Client W) Unit :=
  match steps [some P.storageInit, some P.indexInit, P.quantInit, P.persInit] c.w with
  | (.ok _, w) => (.ok (), ⟨w, true⟩)
  | (.error _, w) => (.error .valori, { c with w := w })

/-- `insert`, `search`, `delete`, `update`, `get_stats`, client.py:66-114. -/
def request (P : Parts W Q R) (q : Q) (c : Client W) : Res (Client W) R :=
  if !c.inited then (.error .valori, c)
  else
    match P.request q c.w with
    | (r, w) => (r, { c with w := w })

/-- `close`, client.py:116-126. -/
def close (P : Parts W Q R) (c : Client W) : Res (Client W) Unit :=
  match steps [P.persClose, P.quantClose, some P.indexClose, some P.storageClose] c.w with
  | (.ok _, w) => (.ok (), ⟨w, false⟩)
  | (.error e, w) => (.error e, { c with w := w })

/-- Did a call return normally? -/
def fine {α : Type} : Except Err α → Bool
  | .ok _ => true
  | .error _ => false

/-- One call (harness). -/
def call (P : Parts W Q R) (c : Client W) : ClCall Q → Bool × Client W
  | .init => let r := init P c; (fine r.1, r.2)
  | .close => let r := close P c; (fine r.1, r.2)
  | .request q => let r := request P q c; (fine r.1, r.2)

/-- A history, newest first (harness). -/
def run (P : Parts W Q R) (c : Client W) : List (ClCall Q) → List (ClCall Q × Bool) × Client W
  | [] => ([], c)
  | x :: h =>
    let (tr, c') := run P c h
    let (b, c'') := call P c' x
    ((x, b) :: tr, c'')

end Client

/-- Replies of an index to forwarded requests, with search results. -/
inductive FwdReply (D M : Type) where
  | ids (l : List Id)
  | flag (b : Bool)
  | hits (l : List (Hit D M))
deriving DecidableEq

/-- Wrap a result. -/
def fwd {σ α D M : Type} (f : α → FwdReply D M) (r : Res σ α) : Res σ (FwdReply D M) :=
  match r with
  | (.ok a, s) => (.ok (f a), s)
  | (.error e, s) => (.error e, s)

/-- A client made of a flat index and a storage, without quantizer and persistence: what
`create_vector_db(index_type="flat")` builds, factory.py:53-61. -/
def flatParts {σ V M D : Type} (env : FlatEnv V D) (B : Backend σ V M) :
    Parts (Flat V × σ) (IxCall V M) (FwdReply D M) where
  storageInit w := (.ok (), (w.1, B.init w.2))
  indexInit w := Flat.init B w.1 w.2
  quantInit := none
  persInit := none
  persClose := none
  quantClose := none
  indexClose w := (.ok (), (Flat.close w.1, w.2))
  storageClose w := (.ok (), (w.1, B.close w.2))
  request q w :=
    match q with
    | .insert nd rows mds => fwd .ids (Flat.insert B nd rows mds w.1 w.2)
    | .delete ids => fwd .flag (Flat.delete B ids w.1 w.2)
    | .update id v m => fwd .flag (Flat.update B id v m w.1 w.2)
    | .search nd q k => fwd .hits (Flat.search env B nd q k w.1 w.2)

end Valori
