import Verif.Model.Incr

/-!
# `get_stats` of the persistence managers

/repo/src/valori/persistence/tensor.py:164-196 and incremental.py:194-232.
Simplifications: the directory can be listed (the `except` branch, which reports an error text, is left
out); it holds no files but those of the manager; no path is an absolute one or leads through "..", and
two different paths are two files.  The size of a file is a function of its contents.
-/

namespace Valori

/-- The numbers in the answer of `TensorPersistence.get_stats`, tensor.py:180-190. -/
structure TpStats where
  saves : Nat
  loads : Nat
  files : Nat
  bytes : Nat
deriving DecidableEq, Repr

/-- `get_stats`, tensor.py:164-190; `none` is the answer `{"status": "not_initialized"}`. -/
def Tensor.stats {S V A : Type} (size : TFile S V A → Nat) (f : Tensor S V A) : Option TpStats :=
  if !f.inited then none
  else some ⟨f.saves, f.loads, f.files.length, (f.files.map fun e => size e.2).sum⟩

/-- The numbers in the answer of `IncrementalPersistence.get_stats`, incremental.py:213-224. -/
structure IpStats where
  operations : Nat
  logged : Nat
  checkpoints : Nat
  last : Nat
  bytes : Nat
deriving DecidableEq, Repr

/-- `get_stats`, incremental.py:194-224.  A line of the log counts if it is not blank (203), so a piece
of a line counts too.  `own` is the size of `operations.log` and `checkpoint.json` together. -/
def Incr.stats {S V A : Type} (size : TFile S V A → Nat) (own : IDisk S V A → Nat) (f : Incr S V A) :
    Option IpStats :=
  if !f.inited then none
  else some ⟨f.count, f.disk.log.length + (if f.disk.cut then 1 else 0),
    (f.disk.files.keys.filter Incr.globMatch).length, f.last,
    (f.disk.files.map fun e => size e.2).sum + own f.disk⟩

end Valori
