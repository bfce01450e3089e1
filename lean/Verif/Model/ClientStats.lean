import Verif.Model.ClientIndices

/-!
# `VectorDBClient.get_stats` (/repo/src/valori/client.py)
-/

namespace Valori
open Spec

/-- The dictionary `get_stats()` of a client returns, client.py:103-114.  Of each component only the
counts are kept: `storage` and `index` are `get_stats()["vector_count"]` of that component (for hybrid
storage the count nested under "disk"), `none` if the component answers "not_initialized"; `inMemory` is
the count hybrid storage nests under "memory". -/
structure ClientStats where
  storage : Option Nat
  inMemory : Option Nat
  index : Option Nat
  hasQuantization : Bool
  hasPersistence : Bool
deriving DecidableEq

/-- `get_stats`, client.py:98-114, of a client over an index with statistics `ix` and a storage with
statistics `mem` for its memory part (hybrid.py:163, `none` for other backends). -/
def Client.stats {X σ V M Q R : Type} (P : Parts (X × σ) Q R) (B : Backend σ V M) (ix : X → Option Nat)
    (mem : σ → Option Nat) (c : Client (X × σ)) : Except Err ClientStats :=
  if !c.inited then .error .valori
  else .ok ⟨B.count c.w.2, mem c.w.2, ix c.w.1, P.quantInit.isSome, P.persInit.isSome⟩

/-- The count `get_stats()` of hybrid storage nests under "memory", hybrid.py:158-172. -/
def Hyb.memCount {V M : Type} (s : Hyb V M) : Option Nat :=
  if s.inited then s.mem.statCount else none

end Valori
