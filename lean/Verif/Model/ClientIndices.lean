import Verif.Model.ClientFull
import Verif.Model.Ivf
import Verif.Model.Hnsw

/-!
# Clients over the other indices that keep their vectors in the storage

As `flatParts` in `Model/Client.lean`, without quantizer and persistence.
-/

namespace Valori
open Spec

/-- A client made of an IVF index and a storage: what `create_vector_db(index_type="ivf")` builds,
factory.py:53-61. -/
def ivfParts {σ V M D : Type} [LinearOrder D] (env : IvfEnv V D) (B : Backend σ V M) :
    Parts (Ivf V × σ) (IxCall V M) (FwdReply D M) where
  storageInit w := (.ok (), (w.1, B.init w.2))
  indexInit w := Ivf.init env B w.1 w.2
  quantInit := none
  persInit := none
  persClose := none
  quantClose := none
  indexClose w := (.ok (), (Ivf.close w.1, w.2))
  storageClose w := (.ok (), (w.1, B.close w.2))
  request q w :=
    match q with
    | .insert nd rows mds => fwd .ids (Ivf.insert env B nd rows mds w.1 w.2)
    | .delete ids => fwd .flag (Ivf.delete B ids w.1 w.2)
    | .update id v m => fwd .flag (Ivf.update env B id v m w.1 w.2)
    | .search nd q k => fwd .hits (Ivf.search env B nd q k w.1 w.2)

/-- A client made of an HNSW index and a storage: what `create_vector_db(index_type="hnsw")` builds,
factory.py:53-61. -/
def hnswParts {σ V M D : Type} [LinearOrder D] (env : HnswEnv V D) (B : Backend σ V M) :
    Parts (Hnsw V × σ) (IxCall V M) (FwdReply D M) where
  storageInit w := (.ok (), (w.1, B.init w.2))
  indexInit w := Hnsw.init env B w.1 w.2
  quantInit := none
  persInit := none
  persClose := none
  quantClose := none
  indexClose w := (.ok (), (Hnsw.close w.1, w.2))
  storageClose w := (.ok (), (w.1, B.close w.2))
  request q w :=
    match q with
    | .insert nd rows mds => fwd .ids (Hnsw.insert env B nd rows mds w.1 w.2)
    | .delete ids => fwd .flag (Hnsw.delete B ids w.1 w.2)
    | .update id v m => fwd .flag (Hnsw.update B id v m w.1 w.2)
    | .search nd q k => fwd .hits (Hnsw.search env B nd q k w.1 w.2)

end Valori
