import Verif.Model.Hnsw
import Verif.Props.Storage

/-!
# Failures and statistics of storage backends and of the indices on them: C142, C143
-/

namespace Valori.Props
open Valori Valori.Spec

section storage
variable {σ V M : Type}

/-- All exceptions of a backend are `StorageError`. -/
structure OnlyStorage (B : Backend σ V M) : Prop where
  store : ∀ s id v m e, (B.store s id v m).1 = .error e → e = .storage
  retrieve : ∀ s id e, (B.retrieve s id).1 = .error e → e = .storage
  delete : ∀ s id e, (B.delete s id).1 = .error e → e = .storage
  update : ∀ s id v m e, (B.update s id v m).1 = .error e → e = .storage
  list : ∀ s n e, (B.list s n).1 = .error e → e = .storage

variable [ByteSize V] [ByteSize M]

/-- **C142.**  Whatever its state, and however damaged its files, the memory backend raises nothing
but `StorageError`. -/
theorem C142_memory_errors : OnlyStorage (memBackend V M) := by
  constructor
  · intro s id v m e h
    simp only [memBackend, Mem.store] at h
    repeat' split at h
    all_goals first | (simp at h; done) | simpa [eq_comm] using h
  · intro s id e h
    simp only [memBackend, Mem.retrieve] at h
    repeat' split at h
    all_goals first | (simp at h; done) | simpa [eq_comm] using h
  · intro s id e h
    simp only [memBackend, Mem.delete] at h
    repeat' split at h
    all_goals first | (simp at h; done) | simpa [eq_comm] using h
  · intro s id v m e h
    simp only [memBackend, Mem.update] at h
    repeat' split at h
    all_goals first | (simp at h; done) | simpa [eq_comm] using h
  · intro s n e h
    simp only [memBackend, Mem.list] at h
    repeat' split at h
    all_goals first | (simp at h; done) | simpa [eq_comm] using h

omit [ByteSize V] [ByteSize M] in
/-- **C142.**  The same of the disk backend. -/
theorem C142_disk_errors (env : DiskEnv M) : OnlyStorage (diskBackend (V := V) env) := by
  constructor
  · intro s id v m e h
    simp only [diskBackend, Disk.store] at h
    repeat' split at h
    all_goals first | (simp at h; done) | simpa [eq_comm] using h
  · intro s id e h
    simp only [diskBackend, Disk.retrieve] at h
    repeat' split at h
    all_goals first | (simp at h; done) | simpa [eq_comm] using h
  · intro s id e h
    simp only [diskBackend, Disk.delete] at h
    repeat' split at h
    all_goals first | (simp at h; done) | simpa [eq_comm] using h
  · intro s id v m e h
    simp only [diskBackend, Disk.update] at h
    repeat' split at h
    all_goals first | (simp at h; done) | simpa [eq_comm] using h
  · intro s n e h
    simp only [diskBackend, Disk.list] at h
    repeat' split at h
    all_goals first | (simp at h; done) | simpa [eq_comm] using h

/-- **C142.**  The same of the hybrid backend. -/
theorem C142_hybrid_errors (env : DiskEnv M) : OnlyStorage (hybBackend (V := V) env) := by
  constructor
  · intro s id v m e h
    simp only [hybBackend, Hyb.store] at h
    repeat' split at h
    all_goals first | (simp at h; done) | simpa [eq_comm] using h
  · intro s id e h
    simp only [hybBackend, Hyb.retrieve] at h
    repeat' split at h
    all_goals first | (simp at h; done) | simpa [eq_comm] using h
  · intro s id e h
    simp only [hybBackend, Hyb.delete] at h
    repeat' split at h
    all_goals first | (simp at h; done) | simpa [eq_comm] using h
  · intro s id v m e h
    simp only [hybBackend, Hyb.update] at h
    repeat' split at h
    all_goals first | (simp at h; done) | simpa [eq_comm] using h
  · intro s n e h
    simp only [hybBackend, Hyb.list] at h
    split at h
    · simpa [eq_comm] using h
    · exact (C142_disk_errors (V := V) env).list s.disk n e h

/-- **C142.**  New and closed backends report that they are not initialised; initialised ones report
numbers, however they were before. -/
theorem C142_stats (env : DiskEnv M) (d : Dir V M) (limit : Int) :
    (memBackend V M).count Mem.new = none ∧ (diskBackend env).count (Disk.opened d) = none ∧
    (hybBackend env).count (Hyb.opened d limit) = none ∧
    (∀ s : Mem V M, (memBackend V M).count (s.close) = none ∧ s.close.statUsage = none ∧
      (memBackend V M).count s.init = some 0 ∧ s.init.statUsage = some 0 ∧
      (s.inited = false → s.statUsage = none)) ∧
    (∀ s : Disk V M, (diskBackend env).count s.close = none ∧
      (diskBackend env).count s.init = some s.dir.vec.length) ∧
    (∀ s : Hyb V M, (hybBackend env).count s.close = none ∧
      (hybBackend env).count s.init = some s.disk.dir.vec.length ∧ s.init.mem.statCount = some 0) := by
  refine ⟨rfl, rfl, rfl, fun s => ⟨rfl, rfl, rfl, rfl, fun h => by simp [Mem.statUsage, h]⟩,
    fun s => ⟨rfl, rfl⟩, fun s => ⟨rfl, rfl, rfl⟩⟩

/-- The errors do occur: a closed backend, and a vector file cut off by a crash. -/
example : ((memBackend Nat Nat).retrieve Mem.new "a").1 = .error .storage ∧
    ((diskBackend exEnv).retrieve (⟨⟨[("a", .torn)], []⟩, 1, true⟩ : Disk Nat Nat) "a").1 =
      .error .storage ∧
    ((hybBackend exEnv).retrieve (⟨Mem.init Mem.new, ⟨⟨[("a", .torn)], []⟩, 1, true⟩, 5, true⟩ :
      Hyb Nat Nat) "a").1 = .error .storage := by decide

end storage

section index
variable {σ V M D : Type}

/-- **C143.**  Every failure of the flat index is a `ValoriIndexError`, whatever the backend raises
and in whatever state. -/
theorem C143_flat_errors (env : FlatEnv V D) (B : Backend σ V M) (f : Flat V) (s : σ) :
    (∀ e, (Flat.init B f s).1 = .error e → e = .index) ∧
    (∀ nd rows mds e, (Flat.insert B nd rows mds f s).1 = .error e → e = .index) ∧
    (∀ nd q k e, (Flat.search env B nd q k f s).1 = .error e → e = .index) ∧
    (∀ ids e, (Flat.delete B ids f s).1 = .error e → e = .index) ∧
    (∀ id v m e, (Flat.update B id v m f s).1 = .error e → e = .index) := by
  refine ⟨?_, ?_, ?_, ?_, ?_⟩
  · intro e h
    unfold Flat.init at h
    repeat' split at h
    all_goals first | (simp at h; done) | simpa [eq_comm] using h
  · intro nd rows mds e h
    unfold Flat.insert at h
    repeat' split at h
    all_goals first | (simp at h; done) | simpa [eq_comm] using h
  · intro nd q k e h
    unfold Flat.search at h
    simp only at h
    repeat' split at h
    all_goals first | (simp at h; done) | simpa [eq_comm] using h
  · intro ids e h
    unfold Flat.delete at h
    repeat' split at h
    all_goals first | (simp at h; done) | simpa [eq_comm] using h
  · intro id v m e h
    unfold Flat.update at h
    repeat' split at h
    all_goals first | (simp at h; done) | simpa [eq_comm] using h

/-- **C143.**  A flat index that is new or closed refuses every call, without change and without
touching the storage; so does an initialised one given an array of the wrong rank. -/
theorem C143_flat_refuses (env : FlatEnv V D) (B : Backend σ V M) (f : Flat V) (s : σ)
    (nd : Nat) (rows : List (Id × V)) (mds : Option (List (Option M))) (q : V) (k : Int)
    (ids : List Id) (id : Id) (v : V) (m : Option M) :
    (Flat.new : Flat V).inited = false ∧ f.close.inited = false ∧ f.close.statCount = none ∧
    (f.inited = false → Flat.insert B nd rows mds f s = (.error .index, f, s) ∧
      Flat.search env B nd q k f s = (.error .index, f, s) ∧
      Flat.delete B ids f s = (.error .index, f, s) ∧
      Flat.update B id v m f s = (.error .index, f, s) ∧ f.statCount = none) ∧
    (nd ≠ 2 → Flat.insert B nd rows mds f s = (.error .index, f, s)) ∧
    (nd ≠ 1 → Flat.search env B nd q k f s = (.error .index, f, s)) := by
  refine ⟨rfl, rfl, rfl, fun h => ?_, fun h => ?_, fun h => ?_⟩
  · simp [Flat.insert, Flat.search, Flat.delete, Flat.update, Flat.statCount, h]
  · simp [Flat.insert, h]
  · simp [Flat.search, h]

variable [LinearOrder D]

omit [LinearOrder D] in
/-- Training raises nothing but `ValoriIndexError`. -/
theorem ivf_train_errors (env : IvfEnv V D) (B : Backend σ V M) (f : Ivf V) (s : σ) (e : Err)
    (h : (Ivf.train env B f s).1 = .error e) : e = .index := by
  unfold Ivf.train at h
  repeat' split at h
  all_goals first | (simp at h; done) | simpa [eq_comm] using h

/-- Scanning raises nothing but `ValoriIndexError`. -/
theorem ivf_scanTop_errors (env : IvfEnv V D) (B : Backend σ V M) (q : V) (k : Int) (c : List Id)
    (f : Ivf V) (s : σ) (e : Err) (h : (Ivf.scanTop env B q k c f s).1 = .error e) : e = .index := by
  unfold Ivf.scanTop at h
  repeat' split at h
  all_goals first | (simp at h; done) | simpa [eq_comm] using h

/-- **C143.**  Every failure of the IVF index is a `ValoriIndexError`. -/
theorem C143_ivf_errors (env : IvfEnv V D) (B : Backend σ V M) (f : Ivf V) (s : σ) :
    (∀ e, (Ivf.init env B f s).1 = .error e → e = .index) ∧
    (∀ nd rows mds e, (Ivf.insert env B nd rows mds f s).1 = .error e → e = .index) ∧
    (∀ nd q k e, (Ivf.search env B nd q k f s).1 = .error e → e = .index) ∧
    (∀ ids e, (Ivf.delete B ids f s).1 = .error e → e = .index) ∧
    (∀ id v m e, (Ivf.update env B id v m f s).1 = .error e → e = .index) := by
  refine ⟨?_, ?_, ?_, ?_, ?_⟩
  · intro e h
    unfold Ivf.init at h
    repeat' split at h
    · simpa [eq_comm] using h
    · exact ivf_train_errors _ _ _ _ _ h
    · simp at h
  · intro nd rows mds e h
    unfold Ivf.insert at h
    simp only at h
    repeat' split at h
    all_goals first | (simp at h; done) | simpa [eq_comm] using h
  · intro nd q k e h
    unfold Ivf.search at h
    repeat' split at h
    all_goals first
      | (simp at h; done)
      | exact ivf_scanTop_errors _ _ _ _ _ _ _ _ h
      | simpa [eq_comm] using h
  · intro ids e h
    unfold Ivf.delete at h
    repeat' split at h
    all_goals first | (simp at h; done) | simpa [eq_comm] using h
  · intro id v m e h
    unfold Ivf.update at h
    simp only at h
    repeat' split at h
    all_goals first | (simp at h; done) | simpa [eq_comm] using h

/-- **C143.**  An IVF index that is new or closed refuses every call, without change and without
touching the storage; so does an initialised one given an array of the wrong rank. -/
theorem C143_ivf_refuses (env : IvfEnv V D) (B : Backend σ V M) (f : Ivf V) (s : σ)
    (nd : Nat) (rows : List (Id × V)) (mds : Option (List (Option M))) (q : V) (k : Int)
    (ids : List Id) (id : Id) (v : V) (m : Option M) :
    (Ivf.new : Ivf V).inited = false ∧ f.close.inited = false ∧ f.close.statCount = none ∧
    (f.inited = false → Ivf.insert env B nd rows mds f s = (.error .index, f, s) ∧
      Ivf.search env B nd q k f s = (.error .index, f, s) ∧
      Ivf.delete B ids f s = (.error .index, f, s) ∧
      Ivf.update env B id v m f s = (.error .index, f, s) ∧ f.statCount = none) ∧
    (nd ≠ 2 → Ivf.insert env B nd rows mds f s = (.error .index, f, s)) ∧
    (nd ≠ 1 → Ivf.search env B nd q k f s = (.error .index, f, s)) := by
  refine ⟨rfl, rfl, rfl, fun h => ?_, fun h => ?_, fun h => ?_⟩
  · simp [Ivf.insert, Ivf.search, Ivf.delete, Ivf.update, Ivf.statCount, h]
  · simp [Ivf.insert, h]
  · simp [Ivf.search, h]

omit [LinearOrder D] in
/-- **C143.**  Initialising an IVF index fails only if the storage cannot be listed or read, or if
KMeans fails; with fewer stored vectors than clusters it succeeds and leaves the index untrained. -/
theorem C143_ivf_init (env : IvfEnv V D) (B : Backend σ V M) (f : Ivf V) (s s' : σ) (l : List Id)
    (hl : B.list s none = (.ok l, s')) (hn : (l.length : Int) < env.nClusters) :
    Ivf.init env B f s = (.ok (), { f with ids := l, count := l.length, inited := true }, s') := by
  unfold Ivf.init
  rw [hl]
  simp only
  rw [if_neg (by omega)]

/-- **C143.**  Every failure of the HNSW index is a `ValoriIndexError`. -/
theorem C143_hnsw_errors (env : HnswEnv V D) (B : Backend σ V M) (f : Hnsw V) (s : σ) :
    (∀ e, (Hnsw.init env B f s).1 = .error e → e = .index) ∧
    (∀ nd rows mds e, (Hnsw.insert env B nd rows mds f s).1 = .error e → e = .index) ∧
    (∀ nd q k e, (Hnsw.search env B nd q k f s).1 = .error e → e = .index) ∧
    (∀ ids e, (Hnsw.delete B ids f s).1 = .error e → e = .index) ∧
    (∀ id v m e, (Hnsw.update B id v m f s).1 = .error e → e = .index) := by
  refine ⟨?_, ?_, ?_, ?_, ?_⟩
  · intro e h
    unfold Hnsw.init at h
    simp only at h
    repeat' split at h
    all_goals first | (simp at h; done) | simpa [eq_comm] using h
  · intro nd rows mds e h
    unfold Hnsw.insert at h
    repeat' split at h
    all_goals first | (simp at h; done) | simpa [eq_comm] using h
  · intro nd q k e h
    unfold Hnsw.search at h
    repeat' split at h
    all_goals first | (simp at h; done) | simpa [eq_comm] using h
  · intro ids e h
    unfold Hnsw.delete at h
    repeat' split at h
    all_goals first | (simp at h; done) | simpa [eq_comm] using h
  · intro id v m e h
    unfold Hnsw.update at h
    repeat' split at h
    all_goals first | (simp at h; done) | simpa [eq_comm] using h

/-- **C143.**  An HNSW index that is new or closed refuses every call, without change and without
touching the storage; so does an initialised one given an array of the wrong rank. -/
theorem C143_hnsw_refuses (env : HnswEnv V D) (B : Backend σ V M) (f : Hnsw V) (s : σ)
    (nd : Nat) (rows : List (Id × V)) (mds : Option (List (Option M))) (q : V) (k : Int)
    (ids : List Id) (id : Id) (v : V) (m : Option M) :
    (Hnsw.new : Hnsw V).inited = false ∧ f.close.inited = false ∧ f.close.statCount = none ∧
    (f.inited = false → Hnsw.insert env B nd rows mds f s = (.error .index, f, s) ∧
      Hnsw.search env B nd q k f s = (.error .index, f, s) ∧
      Hnsw.delete B ids f s = (.error .index, f, s) ∧
      Hnsw.update B id v m f s = (.error .index, f, s) ∧ f.statCount = none ∧
      f.statMaxLevel = none) ∧
    (nd ≠ 2 → Hnsw.insert env B nd rows mds f s = (.error .index, f, s)) ∧
    (nd ≠ 1 → Hnsw.search env B nd q k f s = (.error .index, f, s)) := by
  refine ⟨rfl, rfl, rfl, fun h => ?_, fun h => ?_, fun h => ?_⟩
  · simp [Hnsw.insert, Hnsw.search, Hnsw.delete, Hnsw.update, Hnsw.statCount, Hnsw.statMaxLevel, h]
  · simp [Hnsw.insert, h]
  · simp [Hnsw.search, h]

end index

/-- The storage error of a closed backend reaches the caller of a flat index as an index error. -/
example : (Flat.update (memBackend Nat Nat) "a" 1 none ⟨["a"], [], 1, true⟩ Mem.new).1 =
    .error .index := by decide

/-- Two stored vectors, four clusters. -/
example : ((memBackend Nat Nat).list (⟨[("a", 1), ("b", 2)], [], 2, 0, true⟩) none).1 =
    .ok ["a", "b"] := by decide

end Valori.Props
