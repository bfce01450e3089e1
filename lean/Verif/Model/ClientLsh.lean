import Verif.Model.ClientFull
import Verif.Model.Lsh
import Verif.Spec.Session

/-!
# A client over an LSH index

As `flatParts` in `Model/Client.lean`.  `LSHIndex.initialize` accepts the storage and ignores it,
lsh.py:59-63; no other method of the index names a storage.
-/

namespace Valori
open Spec

/-- Replies of the index. -/
inductive LsReply (S M : Type) where
  | ids (l : List String)
  | flag (b : Bool)
  | hits (l : List (NHit S M))
  | count (n : Nat)
deriving DecidableEq

/-- Wrap a result, leaving the storage alone. -/
def lsFwd {σ V S M α : Type} (f : α → LsReply S M) (s : σ) (r : Res (Lsh V M) α) :
    Res (Lsh V M × σ) (LsReply S M) :=
  match r with
  | (.ok a, x) => (.ok (f a), (x, s))
  | (.error e, x) => (.error e, (x, s))

/-- A client made of an LSH index and a storage: what `create_vector_db(index_type="lsh")` builds,
factory.py:53-61.  `search` passes no threshold, client.py:75-80.  Of the statistics only the number of
vectors is kept. -/
def lshParts {σ V S M : Type} [LinearOrder S] (env : LshEnv V S M) (B : Backend σ V M) :
    Parts (Lsh V M × σ) (SsReq V M) (LsReply S M) where
  storageInit w := (.ok (), (w.1, B.init w.2))
  indexInit w := (.ok (), (Lsh.init env w.1, w.2))
  quantInit := none
  persInit := none
  persClose := none
  quantClose := none
  indexClose w := (.ok (), (Lsh.close env w.1, w.2))
  storageClose w := (.ok (), (w.1, B.close w.2))
  request q w :=
    match q with
    | .insert nd cols rows mds => lsFwd .ids w.2 (Lsh.insert env nd cols rows mds w.1)
    | .delete ids =>
      match Lsh.delete env ids w.1 with
      | (b, x) => (.ok (.flag b), (x, w.2))
    | .update id v m => lsFwd .flag w.2 (Lsh.update env id v m w.1)
    | .search q k => lsFwd .hits w.2 (Lsh.search env q k none w.1, w.1)
    | .stats => (.ok (.count (Lsh.statCount w.1)), w)

end Valori
