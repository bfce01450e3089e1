import Verif.Props.ClientLsh

/-!
# C248: an LSH index after `clear`
-/

namespace Valori.Props
open Valori Valori.Spec Valori.Lsh

variable {V S M : Type} [LinearOrder S] {env : LshEnv V S M}

/-- What a call returns. -/
inductive LshSaid (S M : Type) where
  | ids (r : Except Err (List String))
  | flag (r : Except Err Bool)
  | hits (r : Except Err (List (NHit S M)))
  | done

/-- The reply to a call. -/
def lshSays (env : LshEnv V S M) (f : Lsh V M) : SCall V M S → LshSaid S M
  | .insert nd cols rows mds => .ids (Lsh.insert env nd cols rows mds f).1
  | .delete ids => .flag (.ok (Lsh.delete env ids f).1)
  | .update id v m => .flag (Lsh.update env id v m f).1
  | .search q k t => .hits (Lsh.search env q k t f)
  | .clear => .done

/-- The replies to a history. -/
def lshTalk (env : LshEnv V S M) : Lsh V M → List (SCall V M S) → List (LshSaid S M)
  | _, [] => []
  | f, c :: cs => lshSays env f c :: lshTalk env (Lsh.call env f c) cs

/-- The vectors the call names have length `d` (and no other defect, if it is a search). -/
def SCall.Fits (env : LshEnv V S M) (d : Nat) : SCall V M S → Prop
  | .insert _ cols _ _ => cols = d
  | .search q _ _ => storable env d q = true
  | _ => True

/-- An index in use without content. -/
def lshBare (env : LshEnv V S M) (d : Option Nat) : Lsh V M :=
  ⟨List.replicate env.numTables [], d, [], [], 0, true⟩

omit [LinearOrder S] in
theorem removeLoop_bare (d : Option Nat) (l : List Int) :
    removeLoop env l (lshBare env d : Lsh V M) =
      (if l.any (· < 0) then .error .indexRange else .ok (), lshBare env d) := by
  induction l with
  | nil => rfl
  | cons i l ih =>
    by_cases h : i < 0
    · have : ¬ (((lshBare env d : Lsh V M).vectors.length : Int) ≤ i) := by simp [lshBare]; omega
      have hg : pyGet (lshBare env d : Lsh V M).vectors i = none := by
        simp only [lshBare, pyGet]
        split <;> simp_all
      simp only [removeLoop, if_neg this, hg]
      simp [h]
    · have : ((lshBare env d : Lsh V M).vectors.length : Int) ≤ i := by simp [lshBare]; omega
      simp only [removeLoop, if_pos this, ih]
      simp [h]

theorem search_bare (hc : env.hashSize ≤ env.numProj) (hset : SetLike env.setOrder) (q : V) (k : Int) (t : Option S)
    (o : Option Nat) (hq : ∀ d, o = some d → storable env d q = true) :
    Lsh.search env q k t (lshBare env o : Lsh V M) = .ok [] := by
  simp only [Lsh.search]
  rw [if_neg (by simp [lshBare])]
  cases o with
  | none => rfl
  | some d =>
    have hv : Lsh.valid env d q = true := hq d rfl
    have hdim : (lshBare env (some d) : Lsh V M).dimension = some d := rfl
    have htab : (lshBare env (some d) : Lsh V M).tables = List.replicate env.numTables [] := rfl
    simp only [hdim]
    rw [if_neg (by simp [hv]), hashVector_ok hc (by rw [hdim, valid_dim hv])]
    have hnil : env.setOrder [] = [] := by
      rw [List.eq_nil_iff_forall_not_mem]
      intro i h
      have := ((hset []).2 i).1 h
      simp at this
    simp only [htab, exactCands_replicate, relaxedCands_replicate, List.isEmpty_nil, if_pos, hnil,
      Lsh.score, sortDesc, List.insertionSort_nil]
    simp [sliceTo]

omit [LinearOrder S] in
theorem update_bare (o : Option Nat) (id : String) (v : V) (m : Option M) :
    Lsh.update env id v m (lshBare env o) = (.ok false, lshBare env o) := by
  simp only [Lsh.update]
  rw [if_neg (by simp [lshBare])]
  cases env.parse id with
  | none => rfl
  | some i =>
    dsimp only
    split
    · rfl
    · have hg : pyGet (lshBare env o : Lsh V M).vectors i = none := by
        simp only [lshBare, pyGet]
        split <;> simp_all
      simp only [hg]

/-- One call on the cleared and on the new index: same reply, and afterwards they are the same or still
without content. -/
theorem bare_call (hc : env.hashSize ≤ env.numProj) (hset : SetLike env.setOrder) (d : Nat) (c : SCall V M S)
    (hf : SCall.Fits env d c) :
    lshSays env (lshBare env (some d)) c = lshSays env (lshBare env none) c ∧
    (Lsh.call env (lshBare env (some d)) c = Lsh.call env (lshBare env none) c ∨
      Lsh.call env (lshBare env (some d)) c = lshBare env (some d) ∧ Lsh.call env (lshBare env none) c = lshBare env none) := by
  cases c with
  | insert nd cols rows mds =>
    obtain rfl : cols = d := hf
    have key : ∀ l : List (Option M),
        Lsh.add env nd cols rows l (lshBare env (some cols)) = Lsh.add env nd cols rows l (lshBare env none) ∨
        ∃ e, Lsh.add env nd cols rows l (lshBare env (some cols)) = (.error e, lshBare env (some cols)) ∧
          Lsh.add env nd cols rows l (lshBare env none) = (.error e, lshBare env none) := by
      intro l
      by_cases h1 : rows.length ≠ l.length
      · right; exact ⟨.index, by simp [Lsh.add, lshBare, h1], by simp [Lsh.add, lshBare, h1]⟩
      by_cases h2 : nd < 2
      · right; exact ⟨.indexRange, by simp [Lsh.add, lshBare, h1, h2], by simp [Lsh.add, lshBare, h1, h2]⟩
      · left; simp [Lsh.add, lshBare, h1, h2]
    simp only [lshSays, Lsh.call, Lsh.insert]
    cases mds with
    | none =>
      dsimp only
      rcases key (rows.map fun _ => some env.emptyMd) with h | ⟨e, h, h'⟩
      · rw [h]; exact ⟨rfl, .inl rfl⟩
      · rw [h, h']; exact ⟨rfl, .inr ⟨rfl, rfl⟩⟩
    | some l =>
      dsimp only
      rcases key l with h | ⟨e, h, h'⟩
      · rw [h]; exact ⟨rfl, .inl rfl⟩
      · rw [h, h']; exact ⟨rfl, .inr ⟨rfl, rfl⟩⟩
  | delete ids =>
    have hr : ∀ o : Option Nat, Lsh.remove env (ids.filterMap env.parse) (lshBare env o : Lsh V M) =
        (if (ids.filterMap env.parse).any (· < 0) then .error .indexRange else .ok (), lshBare env o) := by
      intro o
      have : (lshBare env o : Lsh V M).inited = true := rfl
      simp only [Lsh.remove, this, Bool.not_true, Bool.false_eq_true, if_false, removeLoop_bare]
    simp only [lshSays, Lsh.call, Lsh.delete, hr]
    by_cases h : ((ids.filterMap env.parse).any (· < 0)) = true
    · simp only [if_pos h]
      exact ⟨trivial, .inr ⟨trivial, trivial⟩⟩
    · simp only [if_neg h]
      exact ⟨trivial, .inr ⟨trivial, trivial⟩⟩
  | update id v m =>
    simp only [lshSays, Lsh.call, update_bare]
    exact ⟨trivial, .inr ⟨trivial, trivial⟩⟩
  | search q k t =>
    refine ⟨?_, .inr ⟨rfl, rfl⟩⟩
    simp only [lshSays]
    rw [search_bare hc hset q k t _ (by rintro _ ⟨⟩; exact hf), search_bare hc hset q k t none (by simp)]
  | clear => exact ⟨rfl, .inr ⟨rfl, rfl⟩⟩

/-- **C248**, for vectors of the same length: whatever the index held, after `clear` it gives the same replies to all later
calls as a new index of the same configuration.  Missing: vectors of another length, see `C248_dimension_refuted`. -/
theorem C248_like_new_partial (hc : env.hashSize ≤ env.numProj) (hset : SetLike env.setOrder) (f : Lsh V M)
    (hi : f.inited = true) {numTables hashSize numProj : Int} {g : Lsh V M}
    (hg : Lsh.new numTables hashSize numProj = .ok g) (cs : List (SCall V M S))
    (hf : ∀ d, f.dimension = some d → ∀ c ∈ cs, SCall.Fits env d c) :
    lshTalk env (Lsh.clear env f) cs = lshTalk env (Lsh.init env g) cs := by
  have h1 : Lsh.clear env f = lshBare env f.dimension := by
    simp only [Lsh.clear, lshBare, hi]
  have h2 : Lsh.init env g = lshBare env none := by
    unfold Lsh.new at hg
    split at hg
    · cases hg
    split at hg
    · cases hg
    split at hg
    · cases hg
    · cases hg; rfl
  rw [h1, h2]
  clear h1 h2 hg
  cases hd : f.dimension with
  | none => rfl
  | some d =>
    replace hf := hf d hd
    induction cs with
    | nil => rfl
    | cons c cs ih =>
      have h := bare_call hc hset d c (hf c List.mem_cons_self)
      simp only [lshTalk, h.1]
      rcases h.2 with h | ⟨h, h'⟩
      · rw [h]
      · rw [h, h', ih fun c hc => hf c (List.mem_cons_of_mem _ hc)]

/-- **C248 (refuted)** The length of the vectors outlives `clear`, and also `close` and `initialize`: vectors of another length
are refused, by a new index they are taken. -/
theorem C248_dimension_refuted (hc : env.hashSize ≤ env.numProj) (f : Lsh V M) (hi : f.inited = true) {d d' : Nat}
    (hd : f.dimension = some d) (hne : d' ≠ d) (v : V) (hv : storable env d' v = true) (md : M)
    {numTables hashSize numProj : Int} {g : Lsh V M} (hg : Lsh.new numTables hashSize numProj = .ok g) :
    (Lsh.insert env 2 d' [v] (some [some md]) (Lsh.clear env f)).1 = .error .index ∧
    (Lsh.insert env 2 d' [v] (some [some md]) (Lsh.init env (Lsh.close env f))).1 = .error .index ∧
    (Lsh.insert env 2 d' [v] (some [some md]) (Lsh.init env g)).1 = .ok ["0"] := by
  have hv' : Lsh.valid env d' v = true := hv
  have h2 : Lsh.init env g = lshBare env none := by
    unfold Lsh.new at hg
    split at hg
    · cases hg
    split at hg
    · cases hg
    split at hg
    · cases hg
    · cases hg; rfl
  refine ⟨?_, ?_, ?_⟩
  · simp [Lsh.insert, Lsh.add, Lsh.clear, hi, hd, Ne.symm hne]
  · simp [Lsh.insert, Lsh.add, Lsh.clear, Lsh.close, Lsh.init, hd, Ne.symm hne]
  · rw [h2]
    have hh : ∀ f : Lsh V M, f.dimension = some d' → ∃ cs, hashVector env f v = .ok cs := fun f hf =>
      ⟨_, hashVector_ok hc (by rw [hf, valid_dim hv'])⟩
    obtain ⟨cs, hcs⟩ := hh ⟨List.replicate env.numTables [], some d', [some v], [some md], 1, true⟩ rfl
    simp [Lsh.insert, Lsh.add, lshBare, hv', addLoop, hcs]
    rfl

-- an index with content that is cleared, and calls that fit
example : let f := Lsh.run (exLshEnv 1 2) (lshBare (exLshEnv 1 2) none) exLshHist
    f.inited = true ∧ f.dimension = some 2 ∧ f.vectors ≠ [] ∧
    (∀ c ∈ [.insert 2 2 [[1, 2]] none, .search [1, 2] 1 none], SCall.Fits (exLshEnv 1 2) 2 c) ∧
    storable (exLshEnv 1 2) 3 [1, 2, 3] = true := by
  refine ⟨by decide +kernel, by decide +kernel, by decide +kernel, ?_, by decide +kernel⟩
  intro c hc
  simp only [List.mem_cons, List.not_mem_nil, or_false] at hc
  rcases hc with rfl | rfl
  · rfl
  · show storable (exLshEnv 1 2) 2 [1, 2] = true
    decide +kernel

example : Lsh.new 2 1 2 = .ok (⟨[], none, [], [], 0, false⟩ : Lsh (List Int) Nat) ∧
    (exLshEnv 1 2).hashSize ≤ (exLshEnv 1 2).numProj := by decide

end Valori.Props
