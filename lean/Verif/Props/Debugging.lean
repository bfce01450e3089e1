import Verif.Lemmas.Debugging
import Verif.Props.Lsh
import Mathlib.Algebra.Order.Field.Rat
import Mathlib.Tactic.NormNum
import Mathlib.Tactic.Positivity

/-! Properties of the profiler, the analysers, the index inspector and the decorators. -/

namespace Valori.Props
open Spec (plain finished IsSummary pairsWith SCall Slots)

/-! ### Concrete programs used in the examples -/

/-- The clock advances by two per reading, the memory by one. -/
def dbEnv : ProfEnv ℚ := ⟨fun n => 2 * n, fun n => n⟩

/-- Adds one to the state. -/
def dbInc : Body Nat := .act fun n => (.ok (), n + 1)

/-- Raises. -/
def dbFail : Body Nat := .act fun n => (.error .value, n)

/-- A nested measurement; the inner block raises, the code after it is skipped. -/
def dbProg : Body Nat :=
  .seq (.measure "a" dbInc) (.measure "b" (.seq (.measure "a" dbFail) (.measure "c" dbInc)))

/-- Nothing recorded yet. -/
def dbStart (q : Nat) : PState ℚ Nat := ⟨[], 0, q⟩

/-! ### C122 -/

section profiler
variable {F σ : Type}

/-- C122: a program does the same with and without its measurements: same outcome, same exception,
same effect. -/
theorem C122_measure_transparent [Sub F] (env : ProfEnv F) (b : Body σ) (s : PState F σ) :
    (b.run env s).1 = (plain b s.prog).1 ∧ (b.run env s).2.prog = (plain b s.prog).2 :=
  Body.run_plain env b s

example : (dbProg.run dbEnv (dbStart 3)).1 = .error .value ∧
    (dbProg.run dbEnv (dbStart 3)).2.prog = 4 := by
  constructor <;> rfl

/-! ### C123 -/

/-- C123: for every name, the earlier records stay and exactly one is added for each block of that
name left, normally or by an exception; each is the difference of two readings taken in this
order. -/
theorem C123_every_block_recorded [Sub F] (env : ProfEnv F) (b : Body σ) (s : PState F σ)
    (op : String) :
    ∃ new, ((b.run env s).2.prof.get? op).getD [] = (s.prof.get? op).getD [] ++ new ∧
      new.length = (finished b s.prog).count op ∧
      ∀ m ∈ new, ∃ i j, s.tick ≤ i ∧ i < j ∧
        m = ⟨env.clock j - env.clock i, env.memory j - env.memory i, env.clock j⟩ := by
  obtain ⟨new, h1, h2, h3⟩ := Body.run_records env b s op
  refine ⟨new, h1, h2, fun m hm => ?_⟩
  obtain ⟨i, j, a, b, _, c⟩ := h3 m hm
  exact ⟨i, j, a, b, c⟩

example : finished dbProg 3 = ["a", "a", "b"] := rfl
example : (((dbProg.run dbEnv (dbStart 3)).2.prof.get? "a").getD []).length = 2 := rfl

/-- C123: a measured block adds, last, the record of its own readings: the first reading of the
block and the one after everything inside. -/
theorem C123_own_record [Sub F] (env : ProfEnv F) (op : String) (b : Body σ) (s : PState F σ) :
    ∃ before, ((Body.measure op b).run env s).2.prof.get? op = some (before ++
      [⟨env.clock (b.run env { s with tick := s.tick + 1 }).2.tick - env.clock s.tick,
        env.memory (b.run env { s with tick := s.tick + 1 }).2.tick - env.memory s.tick,
        env.clock (b.run env { s with tick := s.tick + 1 }).2.tick⟩]) := by
  simp only [Body.run]
  rw [Prof.get?_record, if_pos rfl]
  exact ⟨_, rfl⟩

example : ((Body.measure "a" dbInc).run dbEnv (dbStart 3)).2.prof.get? "a"
    = some [⟨2, 1, 2⟩] := by
  simp [Body.run, dbInc, dbStart, Prof.record, Dict.set, Dict.get?, dbEnv]

/-- C123: with a clock that never goes back no duration is negative. -/
theorem C123_durations_nonneg [Field F] [LinearOrder F] [IsStrictOrderedRing F] (env : ProfEnv F)
    (hc : Monotone env.clock) (b : Body σ) (s : PState F σ) (op : String)
    (h : ∀ m ∈ (s.prof.get? op).getD [], 0 ≤ m.duration) :
    ∀ m ∈ ((b.run env s).2.prof.get? op).getD [], 0 ≤ m.duration := by
  obtain ⟨new, h1, _, h3⟩ := Body.run_records env b s op
  rw [h1]
  intro m hm
  rcases List.mem_append.1 hm with hm | hm
  · exact h m hm
  · obtain ⟨i, j, _, hij, _, rfl⟩ := h3 m hm
    exact sub_nonneg.2 (hc hij.le)

example : Monotone dbEnv.clock := fun a b h => by
  have : (a : ℚ) ≤ b := by exact_mod_cast h
  simp only [dbEnv]; linarith

/-! ### C124 -/

variable [Field F] [LinearOrder F] [IsStrictOrderedRing F]

/-- C124: after any program `get_summary` succeeds; it lists exactly the names recorded, in the same
order, each with the number of its records and a correct summary of their durations and memory
differences; the mean lies between least and greatest. -/
theorem C124_summary_exact (env : ProfEnv F) (b : Body σ) (q : σ) (t : Nat) :
    ∃ out, (b.run env ⟨[], t, q⟩).2.prof.summary = .ok out ∧
      List.Forall₂ (fun (e : String × List (Meas F)) (o : String × OpSummary F) =>
        o.1 = e.1 ∧ o.2.count = e.2.length ∧
        IsSummary (e.2.map Meas.duration) o.2.duration ∧ IsSummary (e.2.map Meas.memory) o.2.memory ∧
        o.2.duration.least ≤ o.2.duration.avg ∧ o.2.duration.avg ≤ o.2.duration.greatest)
        (b.run env ⟨[], t, q⟩).2.prof out := by
  have hn := Body.run_nonempty env b ⟨[], t, q⟩ (by intro e he; cases he)
  generalize (b.run env ⟨[], t, q⟩).2.prof = p at hn
  unfold Prof.summary
  induction p with
  | nil => exact ⟨[], rfl, .nil⟩
  | cons e p ih =>
    obtain ⟨out, h1, h2⟩ := ih fun x hx => hn x (List.mem_cons_of_mem _ hx)
    have he := hn e (List.mem_cons_self ..)
    obtain ⟨d, d1, d2⟩ := summarise_spec (e.2.map Meas.duration) (by simpa using he)
    obtain ⟨m, m1, m2⟩ := summarise_spec (e.2.map Meas.memory) (by simpa using he)
    refine ⟨(e.1, ⟨e.2.length, d, m⟩) :: out, ?_, ?_⟩
    · simp only [mapE, d1, m1, h1]
    · exact .cons ⟨rfl, rfl, d2, m2, d2.avg_between.1, d2.avg_between.2⟩ h2

example : (dbProg.run dbEnv (dbStart 3)).2.prof.summary.toOption.map
    (fun d => d.map fun e => (e.1, e.2.count)) = some [("a", 2), ("b", 1)] := by
  decide +kernel

end profiler

/-! ### C125 -/

/-- C125: a function decorated with `timing_decorator` or `debug_function` behaves as the function
itself: called once, same result, same exception, same effect. -/
theorem C125_decorators_transparent {ε σ α : Type} (f : PyFun ε σ α) (s : σ) :
    timingDecorator f s = f s ∧ debugDecorator f s = f s := by
  unfold timingDecorator debugDecorator
  rcases f s with ⟨r | r, s'⟩ <;> exact ⟨rfl, rfl⟩

/-- C125, the part that holds of `memory_usage_decorator`: it behaves as the function itself when
`psutil` is missing or the function does not raise ImportError.  Missing: see
`C125_memory_decorator_refuted`. -/
theorem C125_memory_decorator_partial {ε σ α : Type} (psutil : Bool) (isImport : ε → Bool)
    (f : PyFun ε σ α) (s : σ)
    (h : psutil = false ∨ ∀ e, (f s).1 = .error e → isImport e = false) :
    memoryDecorator psutil isImport f s = f s := by
  unfold memoryDecorator
  cases psutil with
  | false => rfl
  | true =>
    have h : ∀ e, (f s).1 = .error e → isImport e = false := by simpa using h
    rw [if_pos rfl]
    rcases hf : f s with ⟨r | r, s'⟩
    · rw [hf] at h
      simp only
      rw [if_neg (by rw [h r rfl]; decide)]
    · rfl

example : memoryDecorator true (fun e : Nat => e == 0)
    (fun n : Nat => (.error 1, n + 1) : PyFun Nat Nat Unit) 5 = (.error 1, 6) := rfl

/-- C125 is false for `memory_usage_decorator`: a function that raises ImportError is run a second
time, whatever it does. -/
theorem C125_memory_decorator_refuted {ε σ α : Type} (isImport : ε → Bool) (f : PyFun ε σ α) (s s' : σ)
    (e : ε) (h : f s = (.error e, s')) (he : isImport e = true) :
    memoryDecorator true isImport f s = f s' := by
  unfold memoryDecorator
  rw [if_pos rfl, h]
  simp only
  rw [if_pos he]

/-- The witness: a counter that is raised once before the ImportError ends at two. -/
example : memoryDecorator true (fun e : Nat => e == 0)
    (fun n : Nat => (.error 0, n + 1) : PyFun Nat Nat Unit) 5 = (.error 0, 7) := rfl

/-! ### C126 -/

section analyser
variable {F : Type} [Field F] [LinearOrder F] [IsStrictOrderedRing F]

/-- The number lies on the scale the documentation gives. -/
def OnScale (x : F) : Prop := 0 ≤ x ∧ x ≤ 1

/-- Every row has `cols` entries, there is at least one entry. -/
def IsMatrix (cols : Nat) (rows : List (List (Cell F))) : Prop :=
  0 < cols ∧ rows ≠ [] ∧ ∀ r ∈ rows, r.length = cols

omit [IsStrictOrderedRing F] in
theorem score_unfold (rows : List (List (Cell F))) (n : Nat) :
    qualityScore rows n = max 0 (1 - ((badCells rows : Nat) : F) / n * (1 / 2)
      - ((rows.filter constantRow).length : F) / rows.length * (3 / 10)
      - ((rows.filter zeroRow).length : F) / rows.length * (1 / 5)) := by
  unfold qualityScore badCells
  push_cast
  rw [add_div]

/-- C126: the quality score of a non-empty matrix is between 0 and 1, in fact at least a fifth. -/
theorem C126_quality_range (cols : Nat) (rows : List (List (Cell F))) (h : IsMatrix cols rows) :
    OnScale (qualityScore rows (rows.length * cols)) ∧
      1 / 5 ≤ qualityScore rows (rows.length * cols) := by
  obtain ⟨hc, hr, hw⟩ := h
  have hn : (0 : F) < (rows.length : F) := by
    exact_mod_cast List.length_pos_of_ne_nil hr
  have hcols : (0 : F) < (cols : F) := by exact_mod_cast hc
  have hb := bad_bound cols rows hw
  have hb' : ((badCells rows : Nat) : F) / (rows.length * cols : Nat)
      + ((rows.filter zeroRow).length : F) / rows.length ≤ 1 := by
    push_cast
    rw [div_add_div _ _ (by positivity) (by positivity), div_le_one (by positivity)]
    have : ((badCells rows : Nat) : F) + ((rows.filter zeroRow).length : F) * cols
        ≤ (rows.length : F) * cols := by exact_mod_cast hb
    nlinarith
  have h0 : 0 ≤ ((badCells rows : Nat) : F) / (rows.length * cols : Nat) := by positivity
  have h1 : 0 ≤ ((rows.filter zeroRow).length : F) / rows.length := by positivity
  have h2 : 0 ≤ ((rows.filter constantRow).length : F) / rows.length := by positivity
  have h3 : ((rows.filter constantRow).length : F) / rows.length ≤ 1 := by
    rw [div_le_one hn]; exact_mod_cast List.length_filter_le ..
  rw [score_unfold]
  refine ⟨⟨le_max_left _ _, max_le zero_le_one (by linarith)⟩, le_max_of_le_right (by linarith)⟩

example : IsMatrix 2 [[Cell.fin (1 : ℚ), .nan], [.fin 0, .fin 0]] := by
  refine ⟨by decide, by decide, ?_⟩
  intro r hr
  simp at hr
  rcases hr with rfl | rfl <;> rfl

/-- C126: the score is 1 exactly for data without NaN, without infinities and without constant
rows. -/
theorem C126_quality_best (cols : Nat) (rows : List (List (Cell F))) (h : IsMatrix cols rows) :
    qualityScore rows (rows.length * cols) = 1 ↔
      (∀ r ∈ rows, ∀ c ∈ r, ∃ x, c = .fin x) ∧ ∀ r ∈ rows, ∃ a ∈ r, ∃ b ∈ r, a ≠ b := by
  obtain ⟨hc, hr, hw⟩ := h
  have hn : (0 : F) < (rows.length : F) := by
    exact_mod_cast List.length_pos_of_ne_nil hr
  have hcols : (0 : F) < (cols : F) := by exact_mod_cast hc
  have h0 : 0 ≤ ((badCells rows : Nat) : F) / (rows.length * cols : Nat) := by positivity
  have h1 : 0 ≤ ((rows.filter zeroRow).length : F) / rows.length := by positivity
  have h2 : 0 ≤ ((rows.filter constantRow).length : F) / rows.length := by positivity
  have key : qualityScore rows (rows.length * cols) = 1 ↔
      badCells rows = 0 ∧ (rows.filter constantRow).length = 0 := by
    rw [score_unfold]
    constructor
    · intro e
      have e' : (1 : F) ≤ 1 - ((badCells rows : Nat) : F) / (rows.length * cols : Nat) * (1 / 2)
          - ((rows.filter constantRow).length : F) / rows.length * (3 / 10)
          - ((rows.filter zeroRow).length : F) / rows.length * (1 / 5) := by
        rcases le_max_iff.1 e.ge with h | h
        · exact absurd h (not_le.2 zero_lt_one)
        · exact h
      have k1 : ((badCells rows : Nat) : F) / (rows.length * cols : Nat) = 0 := by linarith
      have k2 : ((rows.filter constantRow).length : F) / rows.length = 0 := by linarith
      rw [div_eq_zero_iff] at k1 k2
      constructor
      · rcases k1 with k | k
        · exact_mod_cast k
        · exfalso; push_cast at k; exact (mul_pos hn hcols).ne' k
      · rcases k2 with k | k
        · exact_mod_cast k
        · exact absurd k hn.ne'
    · rintro ⟨e1, e2⟩
      have e3 : (rows.filter zeroRow).length = 0 := by
        rw [List.length_eq_zero_iff, List.filter_eq_nil_iff] at e2 ⊢
        exact fun r hr hz => e2 r hr (zero_constant hz)
      rw [e1, e2, e3]
      simp
  rw [key]
  have a1 : badCells rows = 0 ↔ ∀ r ∈ rows, ∀ c ∈ r, ∃ x, c = .fin x := by
    unfold badCells
    rw [Nat.add_eq_zero_iff, List.length_eq_zero_iff, List.length_eq_zero_iff,
      List.filter_eq_nil_iff, List.filter_eq_nil_iff]
    constructor
    · rintro ⟨p, q⟩ r hr c hc
      have p := p c (List.mem_flatten.2 ⟨r, hr, hc⟩)
      have q := q c (List.mem_flatten.2 ⟨r, hr, hc⟩)
      cases c with
      | fin x => exact ⟨x, rfl⟩
      | nan => simp [Cell.isNan] at p
      | inf b => simp [Cell.isInf] at q
    · intro p
      constructor <;> intro c hc <;> obtain ⟨r, hr, hc⟩ := List.mem_flatten.1 hc <;>
        obtain ⟨x, rfl⟩ := p r hr c hc <;> simp [Cell.isNan, Cell.isInf]
  rw [a1]
  apply and_congr_right
  intro fins
  rw [List.length_eq_zero_iff, List.filter_eq_nil_iff]
  constructor
  · intro p r hr
    have p := p r hr
    cases r with
    | nil => exact absurd rfl p
    | cons a r =>
      unfold constantRow at p
      rw [List.all_eq_true] at p
      push Not at p
      obtain ⟨b, hb, hn⟩ := p
      refine ⟨a, List.mem_cons_self .., b, hb, ?_⟩
      rintro rfl
      obtain ⟨x, rfl⟩ := fins _ hr _ hb
      simp [Cell.eqv] at hn
  · intro p r hr hk
    obtain ⟨a, ha, b, hb, hab⟩ := p r hr
    cases r with
    | nil => cases ha
    | cons c r =>
      unfold constantRow at hk
      rw [List.all_eq_true] at hk
      have ka := hk a ha
      have kb := hk b hb
      obtain ⟨x, rfl⟩ := fins _ hr _ ha
      obtain ⟨y, rfl⟩ := fins _ hr _ hb
      obtain ⟨z, rfl⟩ := fins _ hr c (List.mem_cons_self ..)
      simp [Cell.eqv] at ka kb
      exact hab (by rw [ka, kb])

/-- Data made only of NaN and data made only of zeros get the same middling score. -/
theorem C126_quality_worst_cases :
    qualityScore [[Cell.nan (F := ℚ), .nan], [.nan, .nan]] 4 = 1 / 2 ∧
    qualityScore [[Cell.fin (0 : ℚ), .fin 0], [.fin 0, .fin 0]] 4 = 1 / 2 ∧
    qualityScore [[Cell.inf (F := ℚ) true, .inf true]] 2 = 1 / 5 := by
  decide +kernel

/-! ### C127 -/

/-- C127 is false: `high_similarity_pairs` and `low_similarity_pairs` are twice the number of pairs
of (sampled) vectors that are very similar (more than 0.95, or infinite) or very dissimilar (less than
-0.5). -/
theorem C127_pairs_refuted (sim : List (Cell F) → List (Cell F) → Cell F)
    (hs : ∀ a b, sim a b = sim b a) (choice : Nat → List Nat) (cols : Nat)
    (rows : List (List (Cell F))) (a : Analysis F)
    (h : analyzeVectors sim choice (.mat cols rows) = .ok (some a)) :
    a.high = 2 * pairsWith (fun x y => (sim x y).above (95 / 100)) (sampled choice rows) ∧
    a.low = 2 * pairsWith (fun x y => (sim x y).below (-(1 / 2))) (sampled choice rows) ∧
    ∀ (b : F) (c : Cell F), (c.above b = true ↔ c = .inf false ∨ ∃ x, c = .fin x ∧ b < x) ∧
      (c.below b = true ↔ c = .inf true ∨ ∃ x, c = .fin x ∧ x < b) := by
  unfold analyzeVectors at h
  simp only at h
  split_ifs at h
  · simp at h
  simp only [Except.ok.injEq, Option.some.injEq] at h
  subst h
  refine ⟨?_, ?_, fun b c => ?_⟩
  · simp only
    rw [offDiagonal_count, offCount_pairs sim hs _ _ (zipIdx_snd_nodup _), zipIdx_fst]
  · simp only
    rw [offDiagonal_count, offCount_pairs sim hs _ _ (zipIdx_snd_nodup _), zipIdx_fst]
  · cases c with
    | inf s => cases s <;> simp [Cell.above, Cell.below]
    | fin x => simp [Cell.above, Cell.below]
    | nan => simp [Cell.above, Cell.below]

/-- The smallest witness: two vectors, one similar pair, reported as two. -/
example : (analyzeVectors (F := ℚ) (fun _ _ => .fin 1) (fun _ => [])
    (.mat 2 [[.fin 1, .fin 2], [.fin 2, .fin 4]])).toOption.join.map (fun a => (a.high, a.low))
    = some (2, 0) := by
  decide +kernel

/-! ### C128 -/

/-- All entries are one and the same number. -/
def OneValue (r : List (Cell F)) : Bool := r.all fun a => decide (a ≠ .nan ∧ r.head? = some a)

/-- All entries are zero. -/
def AllZero (r : List (Cell F)) : Bool := r.all fun a => decide (a = .fin 0)

omit [IsStrictOrderedRing F] [Field F] in
theorem oneValue_eq (r : List (Cell F)) : constantRow r = OneValue r := by
  cases r with
  | nil => rfl
  | cons x l =>
    change ((x :: l).all fun y => y.eqv x) = _
    unfold OneValue
    congr 1
    funext a
    cases a <;> cases x <;> simp [Cell.eqv, eq_comm, Bool.beq_eq_decide_eq]

/-- C128, the part that holds: a matrix with at least two rows and one column is analysed, and the
plain counts are right; an empty array is reported as such.  Missing: a single vector, see
`C128_analysis_total_refuted`. -/
theorem C128_analysis_total_partial (sim : List (Cell F) → List (Cell F) → Cell F)
    (choice : Nat → List Nat) (hch : ∀ n, 1000 < n → (choice n).length = 1000 ∧ ∀ i ∈ choice n, i < n)
    (cols : Nat) (rows : List (List (Cell F))) :
    (rows.length * cols = 0 → analyzeVectors sim choice (.mat cols rows) = .ok none) ∧
    (0 < cols → 2 ≤ rows.length → ∃ a, analyzeVectors sim choice (.mat cols rows) = .ok (some a) ∧
      a.count = rows.length ∧ a.dimension = cols ∧
      a.nanValues = rows.flatten.count .nan ∧
      a.infValues = rows.flatten.count (.inf false) + rows.flatten.count (.inf true) ∧
      a.constantVectors = rows.countP OneValue ∧ a.zeroVectors = rows.countP AllZero ∧
      a.score = qualityScore rows (rows.length * cols)) := by
  constructor
  · intro h
    unfold analyzeVectors
    simp only
    rw [if_pos h]
  · intro hc hr
    unfold analyzeVectors
    simp only
    have h1 : ¬ rows.length * cols = 0 := by
      rw [Nat.mul_eq_zero]; omega
    have h2 : 2 ≤ (sampled choice rows).length := by
      unfold sampled
      split_ifs with hl
      · obtain ⟨k1, k2⟩ := hch _ hl
        have : ((choice rows.length).filterMap fun i => rows[i]?).length = 1000 := by
          rw [← k1]
          generalize choice rows.length = c at k2
          clear k1
          induction c with
          | nil => rfl
          | cons i c ih =>
            have hi := k2 i (List.mem_cons_self ..)
            rw [List.filterMap_cons, List.getElem?_eq_getElem hi]
            simp only [List.length_cons]
            rw [ih fun j hj => k2 j (List.mem_cons_of_mem _ hj)]
        omega
      · exact hr
    have h3 : (offDiagonal sim (sampled choice rows)).isEmpty = false := by
      generalize sampled choice rows = l at h2
      match l, h2 with
      | x :: y :: l, _ =>
        rw [List.isEmpty_eq_false_iff_exists_mem]
        refine ⟨sim x y, ?_⟩
        unfold offDiagonal
        rw [List.mem_flatten]
        refine ⟨_, List.mem_map.2 ⟨(x, 0), by simp [List.zipIdx_cons], rfl⟩, ?_⟩
        exact List.mem_map.2 ⟨(y, 1), by simp [List.zipIdx_cons], rfl⟩
    rw [if_neg h1, h3]
    refine ⟨_, rfl, rfl, rfl, ?_, ?_, ?_, ?_, rfl⟩ <;> simp only [← List.countP_eq_length_filter]
    · rw [List.count]
      apply List.countP_congr
      intro c _
      cases c <;> simp [Cell.isNan]
    · generalize rows.flatten = l
      induction l with
      | nil => rfl
      | cons c l ih =>
        rw [List.countP_cons, ih, List.count_cons, List.count_cons]
        rcases c with x | _ | b
        · simp [Cell.isInf]
        · simp [Cell.isInf]
        · cases b <;> simp [Cell.isInf] <;> omega
    · apply List.countP_congr
      intro r _
      rw [oneValue_eq]
    · apply List.countP_congr
      intro r _
      unfold zeroRow AllZero
      rw [List.all_eq_true, List.all_eq_true]
      apply forall₂_congr
      intro c _
      cases c <;> simp [Cell.eqv]

/-- C128 is false: analysing a single vector raises ValueError, whatever the vector; so does a
one-dimensional array with IndexError. -/
theorem C128_analysis_total_refuted (sim : List (Cell F) → List (Cell F) → Cell F)
    (choice : Nat → List Nat) (cols : Nat) (row v : List (Cell F)) (hc : 0 < cols) (hv : v ≠ []) :
    analyzeVectors sim choice (.mat cols [row]) = .error .value ∧
    analyzeVectors sim choice (.vec v) = .error .indexRange := by
  constructor
  · unfold analyzeVectors
    simp only [List.length_singleton, Nat.one_mul]
    rw [if_neg (by omega)]
    rfl
  · unfold analyzeVectors
    simp only
    rw [if_neg (by simpa using hv)]

example : analyzeVectors (F := ℚ) (fun _ _ => .fin 1) (fun _ => []) (.mat 1 [[.fin 1]])
    = .error .value := by decide +kernel

/-! ### C129 -/

/-- C129 is false: the field `sparsity` is the fraction of entries that are not zero; with the
fraction of zero entries it adds up to one. -/
theorem C129_sparsity_refuted (sim : List (Cell F) → List (Cell F) → Cell F)
    (choice : Nat → List Nat) (cols : Nat) (rows : List (List (Cell F))) (h : IsMatrix cols rows)
    (a : Analysis F) (ha : analyzeVectors sim choice (.mat cols rows) = .ok (some a)) :
    a.sparsity + (rows.flatten.countP fun c => c.eqv (.fin 0) : Nat) / (rows.length * cols : Nat)
      = 1 := by
  obtain ⟨hc, hr, hw⟩ := h
  unfold analyzeVectors at ha
  simp only at ha
  split_ifs at ha with h1 h2
  · simp at ha
  simp only [Except.ok.injEq, Option.some.injEq] at ha
  subst ha
  simp only
  have hlen : rows.flatten.length = rows.length * cols := by
    rw [List.length_flatten]
    clear h1 h2 hr
    induction rows with
    | nil => simp
    | cons r rows ih =>
      rw [List.map_cons, List.sum_cons, ih fun x hx => hw x (List.mem_cons_of_mem _ hx),
        hw r (List.mem_cons_self ..), List.length_cons, Nat.succ_mul]; omega
  have hsum : (rows.flatten.filter fun c => !c.eqv (.fin 0)).length
      + rows.flatten.countP (fun c => c.eqv (.fin 0)) = rows.length * cols := by
    rw [← hlen, ← List.countP_eq_length_filter]
    have := List.length_eq_countP_add_countP (fun c : Cell F => c.eqv (.fin 0)) (l := rows.flatten)
    have e : rows.flatten.countP (fun c => !c.eqv (.fin 0))
        = rows.flatten.countP (fun c => decide ¬ (c.eqv (.fin 0)) = true) := by
      congr 1; funext c; simp
    rw [e]; omega
  rw [← add_div, ← Nat.cast_add, hsum]
  exact div_self (by exact_mod_cast h1)

/-- All zeros, reported as not sparse at all. -/
example : (analyzeVectors (F := ℚ) (fun _ _ => .nan) (fun _ => [])
    (.mat 2 [[.fin 0, .fin 0], [.fin 0, .fin 0]])).toOption.join.map Analysis.sparsity
    = some 0 := by decide +kernel

/-! ### C130 -/

/-- A call of `analyze_query`: distances of the results (if they have one), `k`, the time. -/
structure QCall (F : Type) where
  results : List (Option F)
  k : Int
  time : F

/-- The history after the calls. -/
def historyAfter : List (QCall F) → List (QueryEntry F) → List (QueryEntry F)
  | [], h => h
  | c :: cs, h => historyAfter cs (analyzeQuery c.results c.k c.time h).2

omit [IsStrictOrderedRing F] [Field F] in
theorem distancesOf_ok (l : List (Option F)) (h : none ∉ l) :
    ∃ ds, distancesOf l = .ok ds ∧ l = ds.map some := by
  unfold distancesOf
  induction l with
  | nil => exact ⟨[], rfl, rfl⟩
  | cons x l ih =>
    obtain ⟨ds, h1, h2⟩ := ih fun hn => h (List.mem_cons_of_mem _ hn)
    cases x with
    | none => exact absurd (List.mem_cons_self ..) h
    | some d =>
      refine ⟨d :: ds, ?_, by rw [h2]; rfl⟩
      simp only [mapE, h1]

omit [IsStrictOrderedRing F] [Field F] in
theorem distancesOf_error (l : List (Option F)) (h : none ∈ l) :
    distancesOf l = .error .key := by
  unfold distancesOf
  induction l with
  | nil => cases h
  | cons x l ih =>
    cases x with
    | none => rfl
    | some d =>
      have := ih (by simpa using h)
      simp only [mapE, this]

omit [IsStrictOrderedRing F] [Field F] in
/-- C130: one analysis tells the number of results and the true range of their distances; a result
without a distance makes it raise and leaves the history alone. -/
theorem C130_query_entry (results : List (Option F)) (k : Int) (time : F) (h : List (QueryEntry F)) :
    (none ∈ results → analyzeQuery results k time h = (.error .key, h)) ∧
    (none ∉ results → ∃ a, analyzeQuery results k time h = (.ok a, h ++ [a]) ∧
      a.count = results.length ∧ a.expected = k ∧ a.time = time ∧
      (a.distances = none ↔ results = []) ∧
      ∀ lo hi, a.distances = some (lo, hi) →
        some lo ∈ results ∧ some hi ∈ results ∧ ∀ d, some d ∈ results → lo ≤ d ∧ d ≤ hi) := by
  constructor
  · intro hn
    unfold analyzeQuery
    rw [distancesOf_error results hn]
  · intro hn
    obtain ⟨ds, h1, h2⟩ := distancesOf_ok results hn
    unfold analyzeQuery
    rw [h1]
    cases ds with
    | nil =>
      refine ⟨_, rfl, rfl, rfl, rfl, ?_, ?_⟩
      · simp [h2]
      · intro lo hi e; simp at e
    | cons x l =>
      refine ⟨_, rfl, rfl, rfl, rfl, ?_, ?_⟩
      · simp [h2]
      · intro lo hi e
        simp only [Option.some.injEq, Prod.mk.injEq] at e
        obtain ⟨rfl, rfl⟩ := e
        have a1 := foldl_min_spec l x
        have a2 := foldl_max_spec l x
        subst h2
        refine ⟨List.mem_map_of_mem a1.1, List.mem_map_of_mem a2.1, ?_⟩
        intro d hd
        obtain ⟨d', hd', e⟩ := List.mem_map.1 hd
        cases e
        exact ⟨a1.2 _ hd', a2.2 _ hd'⟩

example : (analyzeQuery [some (3 : ℚ), some 1, some 2] 5 7 []).1.toOption.bind QueryEntry.distances
    = some (1, 3) := by decide +kernel

/-- C130: the patterns summarise exactly the queries analysed without an exception, in whatever order
calls succeeded and failed. -/
theorem C130_query_patterns (calls : List (QCall F)) :
    ∃ good : List (QCall F), good = calls.filter (fun c => c.results.all Option.isSome) ∧
      (good = [] → queryPatterns (historyAfter calls []) = .ok none) ∧
      (good ≠ [] → ∃ t c, queryPatterns (historyAfter calls []) = .ok (some (good.length, t, c)) ∧
        IsSummary (good.map QCall.time) t ∧
        IsSummary (good.map fun q => (q.results.length : F)) c) := by
  refine ⟨_, rfl, ?_⟩
  have key : ∀ (cs : List (QCall F)) (h : List (QueryEntry F)),
      ∃ new, historyAfter cs h = h ++ new ∧
        new.map QueryEntry.time
          = (cs.filter (fun c => c.results.all Option.isSome)).map QCall.time ∧
        new.map QueryEntry.count
          = (cs.filter (fun c => c.results.all Option.isSome)).map (fun q => q.results.length) := by
    intro cs
    induction cs with
    | nil => intro h; exact ⟨[], by simp [historyAfter], rfl, rfl⟩
    | cons c cs ih =>
      intro h
      have hs := C130_query_entry c.results c.k c.time h
      by_cases hn : none ∈ c.results
      · have e : (c.results.all Option.isSome) = false := by
          rw [List.all_eq_false]; exact ⟨none, hn, by simp⟩
        obtain ⟨new, n1, n2, n3⟩ := ih h
        refine ⟨new, ?_, ?_, ?_⟩
        · simp only [historyAfter, hs.1 hn, n1]
        · rw [List.filter_cons_of_neg (by simp [e])]; exact n2
        · rw [List.filter_cons_of_neg (by simp [e])]; exact n3
      · have e : (c.results.all Option.isSome) = true := by
          rw [List.all_eq_true]
          intro x hx
          cases x with
          | none => exact absurd hx hn
          | some d => rfl
        obtain ⟨a, a1, a2, a3, a4, _⟩ := hs.2 hn
        obtain ⟨new, n1, n2, n3⟩ := ih (h ++ [a])
        refine ⟨a :: new, ?_, ?_, ?_⟩
        · simp only [historyAfter, a1, n1]; simp
        · rw [List.filter_cons_of_pos (by exact e), List.map_cons, List.map_cons, n2, a4]
        · rw [List.filter_cons_of_pos (by exact e), List.map_cons, List.map_cons, n3, a2]
  obtain ⟨new, n1, n2, n3⟩ := key calls []
  rw [n1, List.nil_append]
  generalize calls.filter (fun c => c.results.all Option.isSome) = good at n2 n3
  have hl : new.length = good.length := by
    have := congrArg List.length n2
    simpa using this
  constructor
  · rintro rfl
    have : new = [] := List.length_eq_zero_iff.1 hl
    rw [this]; rfl
  · intro hg
    have hne : new ≠ [] := by
      intro e; rw [e] at hl; exact hg (List.length_eq_zero_iff.1 hl.symm)
    obtain ⟨t, t1, t2⟩ := summarise_spec (new.map QueryEntry.time) (by simpa using hne)
    obtain ⟨c, c1, c2⟩ := summarise_spec (new.map fun q => (q.count : F)) (by simpa using hne)
    refine ⟨t, c, ?_, n2 ▸ t2, ?_⟩
    · unfold queryPatterns
      cases new with
      | nil => exact absurd rfl hne
      | cons x l => simp only [t1, c1, hl]
    · have e : (new.map fun q => (q.count : F)) = good.map fun q => (q.results.length : F) := by
        have := congrArg (List.map (fun n : Nat => (n : F))) n3
        rw [List.map_map, List.map_map] at this
        exact this
      rw [← e]; exact c2

example : queryPatterns (historyAfter
    [⟨[some (1 : ℚ)], 1, 4⟩, ⟨[none], 1, 9⟩, ⟨[some 1, some 2], 2, 6⟩] [])
    = .ok (some (2, ⟨4, 6, 5, 10⟩, ⟨1, 2, 3 / 2, 3⟩)) := by decide +kernel

end analyser

/-! ### C131 -/

section inspector
variable {V S M : Type} [LinearOrder S]

/-- All the ids of a table. -/
theorem table_entries {code : V → Code} {cur : Nat → Option V} {d : Dict Code (List Int)}
    (h : Lsh.TableOk code cur d) (n : Nat) (hn : ∀ i v, cur i = some v → i < n) :
    (d.map fun e => e.2.length).sum = ((List.range n).filter fun i => (cur i).isSome).length := by
  have hget : ∀ e ∈ d, Lsh.bucket d e.1 = e.2 := by
    intro e he
    unfold Lsh.bucket
    rw [Dict.get?_of_mem h.keys he]; rfl
  have hnd : (d.map Prod.snd).flatten.Nodup := by
    rw [List.nodup_flatten]
    constructor
    · intro l hl
      obtain ⟨e, he, rfl⟩ := List.mem_map.1 hl
      rw [← hget e he]; exact h.nd _
    · rw [List.pairwise_map]
      have hk : d.Pairwise fun a b => a.1 ≠ b.1 := by
        have := h.keys
        unfold Dict.keys at this
        rw [List.Nodup, List.pairwise_map] at this
        exact this
      refine (List.pairwise_iff_forall_sublist.2 ?_)
      intro a b hs
      have hab := List.pairwise_iff_forall_sublist.1 hk hs
      have ha : a ∈ d := hs.subset (by simp)
      have hb : b ∈ d := hs.subset (by simp)
      intro i hia hib
      rw [← hget a ha, h.mem] at hia
      rw [← hget b hb, h.mem] at hib
      obtain ⟨n1, v1, e1, c1, k1⟩ := hia
      obtain ⟨n2, v2, e2, c2, k2⟩ := hib
      have : n1 = n2 := by omega
      subst this
      rw [c1] at c2
      cases c2
      exact hab (k1.symm.trans k2)
  have hperm : (d.map Prod.snd).flatten.Perm
      (((List.range n).filter fun i => (cur i).isSome).map fun i : Nat => (i : Int)) := by
    rw [List.perm_ext_iff_of_nodup hnd]
    · intro i
      constructor
      · intro hi
        obtain ⟨l, hl, hi⟩ := List.mem_flatten.1 hi
        obtain ⟨e, he, rfl⟩ := List.mem_map.1 hl
        rw [← hget e he, h.mem] at hi
        obtain ⟨m, v, rfl, hc, _⟩ := hi
        refine List.mem_map.2 ⟨m, List.mem_filter.2 ⟨List.mem_range.2 (hn m v hc), ?_⟩, rfl⟩
        rw [hc]; rfl
      · intro hi
        obtain ⟨m, hm, rfl⟩ := List.mem_map.1 hi
        have hm := (List.mem_filter.1 hm).2
        obtain ⟨v, hv⟩ := Option.isSome_iff_exists.1 hm
        have : ((m : Nat) : Int) ∈ Lsh.bucket d (code v) := (h.mem _ _).2 ⟨m, v, rfl, hv, rfl⟩
        unfold Lsh.bucket at this
        cases hg : d.get? (code v) with
        | none => rw [hg] at this; cases this
        | some l =>
          rw [hg] at this
          exact List.mem_flatten.2 ⟨l, List.mem_map.2 ⟨(code v, l), Dict.mem_of_get? hg, rfl⟩, this⟩
    · refine List.Nodup.map ?_ (List.Nodup.filter _ List.nodup_range)
      intro a b; simp
  have := hperm.length_eq
  rw [List.length_map, List.length_flatten, List.map_map] at this
  exact this

/-- C131: inspecting an LSH index after any history reports its tables, and every live vector once
per table. -/
theorem C131_inspect_tables {env : LshEnv V S M} (hc : env.hashSize ≤ env.numProj)
    (hp : 0 < env.numTables) {h : List (SCall V M S)} (ho : LshOk env h) :
    ∃ buckets, inspectTables (lshAfter env h).tables =
      some (env.numTables, buckets, env.numTables * (slotsAfter env h).count) := by
  have hI := lsh_inv hc ho
  unfold inspectTables
  have hne : (lshAfter env h).tables ≠ [] := by
    intro e; have := hI.len; rw [e] at this; simp at this; omega
  rw [if_neg (by simpa using hne)]
  refine ⟨((lshAfter env h).tables.map List.length).sum, ?_⟩
  rw [hI.len]
  have hcnt : ((List.range (slotsAfter env h).slots.length).filter
      fun i => (Lsh.cur (slotsAfter env h) i).isSome).length = (slotsAfter env h).count := by
    unfold Slots.count Lsh.cur Slots.at?
    generalize (slotsAfter env h).slots = l
    induction l using List.reverseRecOn with
    | nil => rfl
    | append_singleton l x ih =>
      rw [List.length_append, List.length_singleton, List.range_succ, List.filter_append,
        List.filter_append, List.length_append, List.length_append]
      congr 1
      · rw [← ih]
        congr 1
        apply List.filter_congr
        intro i hi
        rw [List.getElem?_append_left (List.mem_range.1 hi)]
      · rw [List.filter_cons, List.filter_cons]
        simp
        cases x <;> simp
  have hall : ∀ tb ∈ (lshAfter env h).tables,
      (tb.map fun e => e.2.length).sum = (slotsAfter env h).count := by
    intro tb htb
    obtain ⟨t, ht⟩ := List.mem_iff_getElem?.1 htb
    rw [← hcnt]
    refine table_entries (hI.tab.ok t tb ht) _ ?_
    intro i v hv
    unfold Lsh.cur at hv
    obtain ⟨x, hx, _⟩ := Option.map_eq_some_iff.1 hv
    exact Lsh.at?_lt hx
  have : ∀ l : List (Dict Code (List Int)), (∀ tb ∈ l, (tb.map fun e => e.2.length).sum
      = (slotsAfter env h).count) →
      (l.map fun t => (t.map fun e => e.2.length).sum).sum = l.length * (slotsAfter env h).count := by
    intro l hl
    induction l with
    | nil => simp
    | cons x l ih =>
      rw [List.map_cons, List.sum_cons, ih fun y hy => hl y (List.mem_cons_of_mem _ hy),
        hl x (List.mem_cons_self ..), List.length_cons, Nat.succ_mul]; omega
  rw [this _ hall, hI.len]

example : inspectTables (lshAfter (exLshEnv 1 2) exLshHist).tables = some (2, 4, 6) := by decide

/-- C131: only for an index without hash tables, such as one that was made and not initialised, does the
inspection report that there are none; for a new one that is initialised it reports tables without
buckets. -/
theorem C131_inspect_new {a b c : Int} {f : Lsh V M} (hf : Lsh.new a b c = .ok f) (env : LshEnv V S M)
    (hp : 0 < env.numTables) :
    inspectTables f.tables = none ∧ inspectTables (Lsh.init env f).tables = some (env.numTables, 0, 0) := by
  unfold Lsh.new at hf
  split at hf
  · cases hf
  split at hf
  · cases hf
  split at hf
  · cases hf
  cases hf
  refine ⟨rfl, ?_⟩
  unfold inspectTables Lsh.init
  obtain ⟨n, hn⟩ : ∃ n, env.numTables = n + 1 := ⟨_, (Nat.succ_pred_eq_of_pos hp).symm⟩
  simp [hn]

example : ∃ f : Lsh Nat Nat, Lsh.new 2 3 4 = .ok f := ⟨_, rfl⟩

/-- C131, the part of the vector inspection that holds: after any history without deletions the
inspection succeeds and reports the number of vectors and their dimension.  Missing: indexes with
deleted vectors, HNSW indexes, see the refutations. -/
theorem C131_inspect_vectors_partial {env : LshEnv V S M} (hc : env.hashSize ≤ env.numProj)
    {h : List (SCall V M S)} (ho : LshOk env h) (hl : ∀ o ∈ (slotsAfter env h).slots, o.isSome) :
    ∃ d, inspectVectors env.dim (.slots (lshAfter env h).vectors)
        = .ok (some ((slotsAfter env h).slots.length, d)) ∧
      ((slotsAfter env h).slots ≠ [] → d = (slotsAfter env h).dim) := by
  have hI := lsh_inv hc ho
  rw [hI.vec]
  have hd : ∀ n v m, (slotsAfter env h).at? n = some (v, m) →
      (slotsAfter env h).dim = some (env.dim v) := hI.dims
  generalize slotsAfter env h = a at hl hd
  obtain ⟨dim, slots⟩ := a
  simp only at hl hd
  cases slots with
  | nil => exact ⟨none, rfl, by simp⟩
  | cons x l =>
    cases x with
    | none => have := hl none (List.mem_cons_self ..); simp at this
    | some p =>
      obtain ⟨v, m⟩ := p
      have e0 := hd 0 v m rfl
      refine ⟨some (env.dim v), ?_, fun _ => e0.symm⟩
      simp only [List.map_cons, Option.map_some, inspectVectors]
      rw [if_pos, List.length_map]
      · rfl
      · rw [List.all_eq_true]
        intro o ho
        have ho := List.mem_of_mem_take ho
        obtain ⟨y, hy, rfl⟩ := List.mem_map.1 ho
        have hys := hl y (List.mem_cons_of_mem _ hy)
        obtain ⟨⟨w, k⟩, rfl⟩ := Option.isSome_iff_exists.1 hys
        obtain ⟨n, hn⟩ := List.mem_iff_getElem?.1 hy
        have := hd (n + 1) w k (by simp [Slots.at?, hn])
        rw [e0] at this
        simp only [Option.map_some, beq_iff_eq]
        exact (Option.some.inj this).symm

example : ∀ o ∈ (slotsAfter (exLshEnv 1 2) [.insert 2 2 [[1, 1], [2, 2]] none]).slots,
    o.isSome := by decide

/-- C131 is false: once a vector other than the first has been deleted, the inspection raises
ValueError (while it is among the first hundred); a deleted first vector hides the dimension and the
count is that of the slots. -/
theorem C131_inspect_deleted_refuted (dim : V → Nat) (v : V) (l : List (Option V)) :
    (none ∈ l.take 99 → inspectVectors dim (.slots (some v :: l)) = .error .value) ∧
    inspectVectors dim (.slots (none :: l)) = .ok (some (l.length + 1, none)) := by
  refine ⟨?_, rfl⟩
  intro h
  simp only [inspectVectors]
  rw [if_neg]
  intro e
  rw [List.all_eq_true] at e
  have := e none h
  simp at this

/-- A history that gets there: two vectors, the second one deleted. -/
example : inspectVectors List.length (.slots (lshAfter (exLshEnv 1 2)
    [.insert 2 2 [[1, 1], [2, 2]] none, .delete ["1"]]).vectors) = .error .value := by decide

/-- C131 is false for HNSW: an index holding anything cannot be inspected; only an empty one can, which is
reported with its count. -/
theorem C131_inspect_hnsw_refuted (dim : V → Nat) (d : Dict String V) :
    (d ≠ [] → inspectVectors dim (.table d) = .error .typeE) ∧
    (∀ r, inspectVectors dim (.table d) = .ok r → r = some (d.length, none) ∧ d.length = 0) ∧
    (d = [] → ∃ r, inspectVectors dim (.table d) = .ok r) := by
  cases d with
  | nil => exact ⟨fun h => absurd rfl h, fun r h => by cases h; exact ⟨rfl, rfl⟩, fun _ => ⟨_, rfl⟩⟩
  | cons x l => exact ⟨fun _ => rfl, (fun r h => by cases h), fun h => by cases h⟩

end inspector

end Valori.Props
