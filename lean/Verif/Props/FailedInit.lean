import Verif.Props.StoreContract

/-!
# Property C183: indices whose `initialize` failed
-/

namespace Valori.Props
open Valori Valori.Spec

variable {σ V M D : Type} [LinearOrder D]

omit [LinearOrder D] in
/-- **C183** (an index whose `initialize` raised refuses work): false for the flat index.  If listing the
storage raises, so does `initialize`, but the index counts as initialised and answers every search with
nothing, whatever the storage holds then. -/
theorem C183_flat_refuted (env : FlatEnv V D) (B : Backend σ V M) (s s1 : σ) (e : Err)
    (h : B.list s none = (.error e, s1)) :
    let r := Flat.init B Flat.new s
    r.1 = .error .index ∧ r.2.2 = s1 ∧ r.2.1.statCount = some 0 ∧
      ∀ q k t, Flat.search env B 1 q k r.2.1 t = (.ok [], r.2.1, t) := by
  simp [Flat.init, h, Flat.new, Flat.statCount, Flat.search]

/-- **C183.** The same of the IVF index. -/
theorem C183_ivf_refuted (env : IvfEnv V D) (B : Backend σ V M) (s s1 : σ) (e : Err)
    (h : B.list s none = (.error e, s1)) :
    let r := Ivf.init env B Ivf.new s
    r.1 = .error .index ∧ r.2.2 = s1 ∧ r.2.1.statCount = some 0 ∧
      ∀ q k t, Ivf.search env B 1 q k r.2.1 t = (.ok [], r.2.1, t) := by
  simp [Ivf.init, h, Ivf.new, Ivf.statCount, Ivf.search]

/-- **C183.** The same of the HNSW index. -/
theorem C183_hnsw_refuted (env : HnswEnv V D) (B : Backend σ V M) (s s1 : σ) (e : Err)
    (h : B.list s none = (.error e, s1)) :
    let r := Hnsw.init env B Hnsw.new s
    r.1 = .error .index ∧ r.2.2 = s1 ∧ r.2.1.statCount = some 0 ∧
      ∀ q k t, Hnsw.search env B 1 q k r.2.1 t = (.ok [], r.2.1, t) := by
  simp [Hnsw.init, h, Hnsw.new, Hnsw.statCount, Hnsw.search]

/-- **C183.** Initialising again is the way out: after `initialize` failed because the storage could not
be listed, it behaves as on a new index.  Missing: refusing work before that. -/
theorem C183_retry_partial (fenv : IvfEnv V D) (henv : HnswEnv V D) (B : Backend σ V M) (s s1 : σ) (e : Err)
    (h : B.list s none = (.error e, s1)) (t : σ) :
    Flat.init B (Flat.init B Flat.new s).2.1 t = Flat.init B Flat.new t ∧
    Ivf.init fenv B (Ivf.init fenv B Ivf.new s).2.1 t = Ivf.init fenv B Ivf.new t ∧
    Hnsw.init henv B (Hnsw.init henv B Hnsw.new s).2.1 t = Hnsw.init henv B Hnsw.new t := by
  simp [Flat.init, Ivf.init, Hnsw.init, h, Flat.new, Ivf.new, Hnsw.new]

/-- A storage that is opened only after the index was initialised: one vector, never found; found after
initialising again. -/
example :
    let B := memBackend Nat Nat
    let env : FlatEnv Nat Nat := ⟨true, fun _ => 1, fun _ => true, fun a b => a - b,
      fun l => (List.range l.length)⟩
    let r := Flat.init B Flat.new Mem.new
    let t := (B.store Mem.new.init "a" 7 none).2
    (∃ e, (B.list Mem.new none).1 = .error e) ∧ r.1 = .error .index ∧
    (Flat.search env B 1 7 5 r.2.1 t).1.toOption.map List.length = some 0 ∧
    (Flat.search env B 1 7 5 (Flat.init B r.2.1 t).2.1 t).1.toOption.map List.length = some 1 := by
  refine ⟨⟨.storage, rfl⟩, rfl, by decide, by decide⟩

end Valori.Props
