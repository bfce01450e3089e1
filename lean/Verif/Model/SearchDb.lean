import Verif.Model.Client
import Verif.Model.Annoy
import Verif.Model.Text
import Verif.Model.Np

/-!
# Ready-made databases: factory.py:138-268, 299-345, helpers.py:21-61, and clients over an Annoy index
-/

namespace Valori
open Spec

/-- Requests to a client over an Annoy index. -/
inductive AnReq (V M : Type) where
  | insert (ndim cols : Nat) (rows : List V) (mds : Option (List (Option M)))
  | delete (ids : List String)
  | update (id : String) (v : V) (m : Option M)
  | search (q : V) (k : Int)
  | stats
deriving DecidableEq

/-- Replies. -/
inductive AnReply (F M : Type) where
  | ids (l : List String)
  | flag (b : Bool)
  | hits (l : List (AnHit F M))
  | count (n : Nat)

/-- Wrap a result, leaving the storage alone: an Annoy index keeps its own copy of everything and never
calls the storage. -/
def anFwd {σ L V F M α : Type} (f : α → AnReply F M) (s : σ) (r : Res (Annoy L V M) α) :
    Res (Annoy L V M × σ) (AnReply F M) :=
  match r with
  | (.ok a, x) => (.ok (f a), (x, s))
  | (.error e, x) => (.error e, (x, s))

/-- A client made of an Annoy index and a storage: what `create_vector_db(index_type="annoy")` builds,
factory.py:53-61.  The client has no method that calls `build`, client.py:66-126. -/
def annoyParts {σ L V F M : Type} [Field F] [LinearOrder F] (env : AnEnv L V F M) (B : Backend σ V M) :
    Parts (Annoy L V M × σ) (AnReq V M) (AnReply F M) where
  storageInit w := (.ok (), (w.1, B.init w.2))
  indexInit w := (.ok (), (Annoy.init w.1, w.2))
  quantInit := none
  persInit := none
  persClose := none
  quantClose := none
  indexClose w := (.ok (), (Annoy.close w.1, w.2))
  storageClose w := (.ok (), (w.1, B.close w.2))
  request q w :=
    match q with
    | .insert nd cols rows mds => anFwd .ids w.2 (Annoy.insert env nd cols rows mds w.1)
    | .delete ids => anFwd .flag w.2 (Annoy.delete env ids w.1)
    | .update id v m => anFwd .flag w.2 (Annoy.update env id v m w.1)
    | .search q k => anFwd .hits w.2 (Annoy.search env q k w.1, w.1)
    | .stats => (.ok (.count (Annoy.statCount w.1)), w)

/-- A value in a document or its metadata. -/
inductive MVal (O : Type) where
  | text (t : Text)
  | num (n : Nat)
  | other (o : O)
deriving DecidableEq

/-- What the encoder returns: rows, and the length of the second axis, if there is one.  The encoder
gives a one-dimensional empty array for no texts. -/
structure Encoded (V : Type) where
  rows : List V
  cols : Option Nat

/-- The world of the ready-made databases.  `encode` is `SentenceTransformer(model).encode`, which may
raise; `make` is `create_vector_db` with the given dimension and number of vectors; `insert` is the
client's. -/
structure DbEnv (C V O : Type) where
  model : Text
  encode : List (MVal O) → Except Err (Encoded V)
  make : Nat → Nat → Except Err C
  insert : C → List V → List (Dict String (MVal O)) → Except Err C

variable {C V O : Type}

/-- `len(text)`.  Only texts are taken to have a length. -/
def MVal.len : MVal O → Except Err Nat
  | .text t => .ok t.length
  | .num _ => .error .typeE
  | .other _ => .error .typeE

/-- One entry of the metadata, helpers.py:45-53. -/
def textMeta (E : DbEnv C V O) (v : Encoded V) (t : MVal O) : Except Err (Dict String (MVal O)) :=
  match t.len with
  | .error e => .error e
  | .ok n =>
    match v.cols with
    | none => .error .indexRange
    | some d => .ok [("text", t), ("text_length", .num n), ("model_used", .text E.model),
        ("embedding_dimension", .num d)]

/-- `create_vectors_from_text`, helpers.py:21-61, with the package installed; the conversion to float32 is
left out. -/
def vectorsFromText (E : DbEnv C V O) (texts : List (MVal O)) :
    Except Err (Encoded V × List (Dict String (MVal O))) :=
  match E.encode texts with
  | .error e => .error e
  | .ok v =>
    match mapE (textMeta E v) texts with
    | .error e => .error e
    | .ok ms => .ok (v, ms)

/-- Create the database and insert, factory.py:162-175, 200-213, 249-268: `vectors.shape[1]` raises when
there is no second axis. -/
def fillDb (E : DbEnv C V O) (v : Encoded V) (ms : List (Dict String (MVal O))) : Except Err C :=
  match v.cols with
  | none => .error .indexRange
  | some d =>
    match E.make d v.rows.length with
    | .error e => .error e
    | .ok c => E.insert c v.rows ms

/-- `create_semantic_search_db`, factory.py:138-175. -/
def semanticDb (E : DbEnv C V O) (texts : List (MVal O)) : Except Err C :=
  match vectorsFromText E texts with
  | .error e => .error e
  | .ok (v, ms) => fillDb E v ms

/-- `doc["text"]`. -/
def docText (doc : Dict String (MVal O)) : Except Err (MVal O) :=
  match doc.get? "text" with
  | none => .error .key
  | some t => .ok t

/-- `{**a, **b}`. -/
def mergeDict {α : Type} (a b : Dict String α) : Dict String α := b.foldl (fun d e => d.set e.1 e.2) a

/-- The combined metadata of the document at position `i`, factory.py:242-247. -/
def combineMeta (i : Nat) (textMeta : Dict String (MVal O)) (doc : Dict String (MVal O)) :
    Dict String (MVal O) :=
  (mergeDict textMeta (doc.filter fun e => e.1 ≠ "text")).set "doc_id" (.num i)

/-- The loop of factory.py:242-247. -/
def combineAll : Nat → List (Dict String (MVal O)) → List (Dict String (MVal O)) → List (Dict String (MVal O))
  | i, t :: ts, d :: ds => combineMeta i t d :: combineAll (i + 1) ts ds
  | _, _, _ => []

/-- `create_hybrid_search_db`, factory.py:216-268. -/
def hybridDb (E : DbEnv C V O) (docs : List (Dict String (MVal O))) : Except Err C :=
  match mapE docText docs with
  | .error e => .error e
  | .ok texts =>
    match vectorsFromText E texts with
    | .error e => .error e
    | .ok (v, ms) => fillDb E v (combineAll 0 ms docs)

/-- The loop of `_extract_image_features`, factory.py:311-337, from position `i`: an image that cannot be
read is skipped.  `feature` opens and encodes an image. -/
def imageLoop {P : Type} (pathText : P → Text) (feature : P → Except Err V) :
    Nat → List P → List V × List (Dict String (MVal O))
  | _, [] => ([], [])
  | i, p :: ps =>
    let r := imageLoop pathText feature (i + 1) ps
    match feature p with
    | .error _ => r
    | .ok v => (v :: r.1, [("image_path", .text (pathText p)), ("image_id", .num i),
        ("extractor", .text "clip".toList)] :: r.2)

/-- `create_image_search_db`, factory.py:178-213, with its packages installed: an unknown extractor raises;
an array made of no rows has one axis. -/
def imageDb {P : Type} (E : DbEnv C V O) (dim : Nat) (pathText : P → Text) (feature : P → Except Err V)
    (extractor : String) (paths : List P) : Except Err C :=
  if extractor ≠ "clip" then .error .value
  else
    let r := imageLoop (O := O) pathText feature 0 paths
    fillDb E ⟨r.1, if r.1.isEmpty then none else some dim⟩ r.2

end Valori
