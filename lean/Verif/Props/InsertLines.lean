import Verif.Model.InsertLines
import Verif.Props.BatchLines
import Mathlib.Algebra.Order.BigOperators.Group.List

/-!
# C257: the progress a batch insert shows
-/

namespace Valori.Props
open Valori

variable {σ V M I Q R : Type}

theorem mem_printLine {st : BStats} {l : BLine} (h : l ∈ printLine st) :
    l.processed = st.processed ∧ l.total = st.total ∧ l.percent = (l.processed : Rat) / l.total * 100 := by
  unfold printLine at h
  split at h
  · cases h
  · rw [List.mem_singleton] at h
    subst h
    exact ⟨rfl, rfl, rfl⟩

/-- No line shows more than what was processed before and the sizes of the batches that can be stored. -/
theorem insertLines_le (E : BatchEnv σ V M I Q R) (vectors : List V) (metadata : List M) (bad : Nat → Prop) [DecidablePred bad]
    (hbad : ∀ i, bad i → ∀ s, ∃ e, (E.insert s (batchAt vectors i E.batchSize) (batchAt metadata i E.batchSize)).1 = .error e)
    (is : List Nat) : ∀ (s : σ) (st : BStats), ∀ l ∈ insertLines E vectors metadata is s st,
      l.total = st.total ∧ l.percent = (l.processed : Rat) / st.total * 100 ∧
      l.processed ≤ st.processed + (is.map fun i => if bad i then 0 else (batchAt vectors i E.batchSize).length).sum := by
  induction is with
  | nil => intro s st l hl; cases hl
  | cons i is ih =>
    intro s st l hl
    rw [List.map_cons, List.sum_cons]
    unfold insertLines at hl
    dsimp only at hl
    have hb := hbad i
    rcases hr : E.insert s (batchAt vectors i E.batchSize) (batchAt metadata i E.batchSize) with ⟨r, s1⟩
    rw [hr] at hl
    cases r with
    | error e =>
      dsimp only at hl
      cases ho : E.onError e with
      | error e' => rw [ho] at hl; cases hl
      | ok u =>
        rw [ho] at hl
        obtain ⟨h1, h2, h3⟩ := ih _ _ l hl
        dsimp only at h1 h2 h3
        exact ⟨h1, h2, by omega⟩
    | ok ids =>
      have hnb : ¬ bad i := fun h => by
        obtain ⟨e, he⟩ := hb h s
        rw [hr] at he
        cases he
      rw [if_neg hnb]
      dsimp only at hl
      rcases List.mem_append.1 hl with hl | hl
      · obtain ⟨h1, h2, h3⟩ := mem_printLine hl
        dsimp only at h1 h2
        exact ⟨h2, by rw [h3, h2], by omega⟩
      · cases hg : E.progress (st.processed + (batchAt vectors i E.batchSize).length) st.total with
        | error e =>
          rw [hg] at hl
          dsimp only at hl
          cases ho : E.onError e with
          | error e' => rw [ho] at hl; cases hl
          | ok u =>
            rw [ho] at hl
            obtain ⟨h1, h2, h3⟩ := ih _ _ l hl
            dsimp only at h1 h2 h3
            exact ⟨h1, h2, by omega⟩
        | ok u =>
          rw [hg] at hl
          obtain ⟨h1, h2, h3⟩ := ih _ _ l hl
          dsimp only at h1 h2 h3
          exact ⟨h1, h2, by omega⟩

/-- The batches make up the whole. -/
theorem starts_sum {α : Type} (l : List α) (b : Nat) (hb : 1 ≤ b) :
    ((starts l.length b).map fun i => (batchAt l i b).length).sum = l.length := by
  have key : ∀ m, ((List.range m).map fun k => (batchAt l (k * b) b).length).sum = min (m * b) l.length := by
    intro m
    induction m with
    | zero => simp
    | succ m ih =>
      rw [List.range_succ, List.map_append, List.sum_append, ih]
      simp only [List.map_cons, List.map_nil, List.sum_cons, List.sum_nil, batchAt, List.length_take, List.length_drop]
      rw [Nat.add_mul, Nat.one_mul]
      omega
  unfold starts
  rw [List.map_map]
  have := key ((l.length + b - 1) / b)
  have hall : l.length ≤ (l.length + b - 1) / b * b := by
    have := Nat.div_add_mod (l.length + b - 1) b
    have h3 := Nat.mod_lt (l.length + b - 1) (show 0 < b by omega)
    rw [Nat.mul_comm] at this
    omega
  rw [Nat.min_eq_right hall] at this
  exact this

/-- With a client that stores every batch and a callback that does not raise there is a line for every batch. -/
theorem insertLines_all (E : BatchEnv σ V M I Q R) (vectors : List V) (metadata : List M)
    (hins : ∀ s v m, ∃ ids s', E.insert s v m = (.ok ids, s')) (hprog : ∀ p t, E.progress p t = .ok ()) (is : List Nat) :
    ∀ (s : σ) (st : BStats), st.total ≠ 0 → (insertLines E vectors metadata is s st).length = is.length ∧
      (is ≠ [] → ∃ l, (insertLines E vectors metadata is s st).getLast? = some l ∧
        l.processed = st.processed + (is.map fun i => (batchAt vectors i E.batchSize).length).sum) := by
  induction is with
  | nil => intro s st _; exact ⟨rfl, fun h => absurd rfl h⟩
  | cons i is ih =>
    intro s st ht
    obtain ⟨ids, s1, hr⟩ := hins s (batchAt vectors i E.batchSize) (batchAt metadata i E.batchSize)
    unfold insertLines
    dsimp only
    rw [hr]
    dsimp only
    rw [hprog]
    dsimp only
    obtain ⟨h1, h2⟩ := ih s1 { st with processed := st.processed + (batchAt vectors i E.batchSize).length } ht
    have hl : printLine { st with processed := st.processed + (batchAt vectors i E.batchSize).length } =
        [⟨((st.processed + (batchAt vectors i E.batchSize).length : Nat) : Rat) / st.total * 100,
          st.processed + (batchAt vectors i E.batchSize).length, st.total, st.failed⟩] := by
      unfold printLine
      simp only [ht, if_false]
    rw [hl]
    refine ⟨by simp [h1, Nat.add_comm], fun _ => ?_⟩
    by_cases he : is = []
    · subst he
      exact ⟨_, by simp [insertLines]; rfl, by simp⟩
    · obtain ⟨l, k1, k2⟩ := h2 he
      refine ⟨l, by rw [List.getLast?_append, k1]; rfl, ?_⟩
      rw [k2, List.map_cons, List.sum_cons]
      dsimp only
      omega

/-- **C257**, a new manager or one after `reset_stats`: a batch insert never shows more than 100 per cent; with a client that stores every
batch and a callback that does not raise it shows a line for every batch, the last with 100 per cent.  Missing: batches that fail
and managers used before, see the refutations. -/
theorem C257_first_partial (E : BatchEnv σ V M I Q R) (hb : 1 ≤ E.batchSize) (vectors : List V) (metadata : List M)
    (hne : vectors ≠ []) (s : σ) (st : BStats) (h0 : st.processed = 0) :
    (∀ l ∈ batchInsertLines E vectors metadata s st, l.percent ≤ 100 ∧ l.processed ≤ l.total) ∧
    ((∀ s v m, ∃ ids s', E.insert s v m = (.ok ids, s')) → (∀ p t, E.progress p t = .ok ()) →
      (batchInsertLines E vectors metadata s st).length = (vectors.length + E.batchSize - 1) / E.batchSize ∧
      ∃ l, (batchInsertLines E vectors metadata s st).getLast? = some l ∧ l.percent = 100) := by
  have hn : 0 < vectors.length := List.length_pos_iff.2 hne
  have hq : (0 : Rat) < vectors.length := by exact_mod_cast hn
  have hle := insertLines_le E vectors metadata (fun _ => False) (fun _ h => h.elim) (starts vectors.length E.batchSize) s
    { st with total := vectors.length }
  simp only [if_false, starts_sum vectors E.batchSize hb, h0, Nat.zero_add] at hle
  have heq : insertLines E vectors metadata (starts vectors.length E.batchSize) s { total := vectors.length, processed := 0, failed := st.failed } =
      batchInsertLines E vectors metadata s st := by unfold batchInsertLines; rw [← h0]
  rw [heq] at hle
  refine ⟨?_, ?_⟩
  · intro l hl
    obtain ⟨e1, e2, e3⟩ := hle l hl
    refine ⟨?_, by omega⟩
    have h4 : (l.processed : Rat) ≤ vectors.length := by exact_mod_cast e3
    have : (l.processed : Rat) / vectors.length ≤ 1 := by rw [div_le_one hq]; exact h4
    rw [e2]
    linarith
  · intro hins hprog
    obtain ⟨h1, h2⟩ := insertLines_all E vectors metadata hins hprog (starts vectors.length E.batchSize) s
      { st with total := vectors.length } (by dsimp only; omega)
    have hlen : (starts vectors.length E.batchSize).length = (vectors.length + E.batchSize - 1) / E.batchSize := by simp [starts]
    have hpos : 0 < (vectors.length + E.batchSize - 1) / E.batchSize := Nat.div_pos (by omega) (by omega)
    refine ⟨h1.trans hlen, ?_⟩
    obtain ⟨l, k1, k2⟩ := h2 (by intro h; rw [h] at hlen; simp at hlen; omega)
    refine ⟨l, k1, ?_⟩
    rw [starts_sum vectors E.batchSize hb] at k2
    dsimp only at k2
    obtain ⟨-, e2, -⟩ := hle l (List.mem_of_getLast? k1)
    rw [e2, k2, h0, Nat.zero_add, div_self hq.ne', one_mul]

/-- **C257 (refuted)**: if the client refuses one of the batches, no line of a new manager shows 100 per cent. -/
theorem C257_failed_refuted (E : BatchEnv σ V M I Q R) (hb : 1 ≤ E.batchSize) (vectors : List V) (metadata : List M)
    (s : σ) (st : BStats) (h0 : st.processed = 0) (i : Nat) (hi : i ∈ starts vectors.length E.batchSize)
    (hfail : ∀ s, ∃ e, (E.insert s (batchAt vectors i E.batchSize) (batchAt metadata i E.batchSize)).1 = .error e) :
    ∀ l ∈ batchInsertLines E vectors metadata s st, l.percent < 100 := by
  have hil : i < vectors.length := by
    unfold starts at hi
    obtain ⟨k, hk, rfl⟩ := List.mem_map.1 hi
    have hk := List.mem_range.1 hk
    have h1 := Nat.div_mul_le_self (vectors.length + E.batchSize - 1) E.batchSize
    have h2 : (k + 1) * E.batchSize ≤ (vectors.length + E.batchSize - 1) / E.batchSize * E.batchSize :=
      Nat.mul_le_mul_right _ hk
    rw [Nat.add_mul, Nat.one_mul] at h2
    omega
  have hn : 0 < vectors.length := by omega
  have hq : (0 : Rat) < vectors.length := by exact_mod_cast hn
  have hle := insertLines_le E vectors metadata (fun j => j = i) (fun j h => by rw [h]; exact hfail)
    (starts vectors.length E.batchSize) s { st with total := vectors.length }
  have hsum : ((starts vectors.length E.batchSize).map fun j =>
      if j = i then 0 else (batchAt vectors j E.batchSize).length).sum < vectors.length := by
    conv_rhs => rw [← starts_sum vectors E.batchSize hb]
    refine List.sum_lt_sum _ _ (fun j _ => by split <;> omega) ⟨i, hi, ?_⟩
    rw [if_pos rfl]
    simp only [batchAt, List.length_take, List.length_drop]
    omega
  intro l hl
  obtain ⟨-, e2, e3⟩ := hle l hl
  dsimp only at e2 e3
  have h4 : (l.processed : Rat) < vectors.length := by
    have : l.processed < vectors.length := by omega
    exact_mod_cast this
  have : (l.processed : Rat) / vectors.length < 1 := by rw [div_lt_one hq]; exact h4
  rw [e2]
  linarith

/-- **C257 (refuted)**: on a manager that has processed items before, an insert that stores everything ends above 100 per cent. -/
theorem C257_reuse_refuted (E : BatchEnv σ V M I Q R) (hb : 1 ≤ E.batchSize) (vectors : List V) (metadata : List M)
    (hne : vectors ≠ []) (s : σ) (st : BStats) (h0 : 0 < st.processed)
    (hins : ∀ s v m, ∃ ids s', E.insert s v m = (.ok ids, s')) (hprog : ∀ p t, E.progress p t = .ok ()) :
    ∃ l, (batchInsertLines E vectors metadata s st).getLast? = some l ∧ 100 < l.percent := by
  have hn : 0 < vectors.length := List.length_pos_iff.2 hne
  have hq : (0 : Rat) < vectors.length := by exact_mod_cast hn
  obtain ⟨-, h2⟩ := insertLines_all E vectors metadata hins hprog (starts vectors.length E.batchSize) s
    { st with total := vectors.length } (by dsimp only; omega)
  have hlen : (starts vectors.length E.batchSize).length = (vectors.length + E.batchSize - 1) / E.batchSize := by simp [starts]
  have hpos : 0 < (vectors.length + E.batchSize - 1) / E.batchSize := Nat.div_pos (by omega) (by omega)
  obtain ⟨l, k1, k2⟩ := h2 (by intro h; rw [h] at hlen; simp at hlen; omega)
  refine ⟨l, k1, ?_⟩
  rw [starts_sum vectors E.batchSize hb] at k2
  dsimp only at k2
  obtain ⟨-, e2, -⟩ := insertLines_le E vectors metadata (fun _ => False) (fun _ h => h.elim) (starts vectors.length E.batchSize) s
    { st with total := vectors.length } l (List.mem_of_getLast? k1)
  dsimp only at e2
  have : (1 : Rat) < (l.processed : Rat) / vectors.length := by
    rw [one_lt_div hq, k2]
    exact_mod_cast Nat.lt_add_of_pos_left h0
  rw [e2]
  linarith

/-- **C257**, the counters of the lines: with a progress callback that does not raise, the processed and the failed items of a line, less
those from before the call, are together the items of the batches tried so far. -/
theorem C257_counters (E : BatchEnv σ V M I Q R) (vectors : List V) (metadata : List M) (s : σ) (st : BStats)
    (hprog : ∀ p t, E.progress p t = .ok ()) :
    ∀ l ∈ batchInsertLines E vectors metadata s st, ∃ tried, tried ≠ [] ∧ tried <+: starts vectors.length E.batchSize ∧
      l.processed + l.failed = st.processed + st.failed + (tried.map fun i => (batchAt vectors i E.batchSize).length).sum := by
  have main : ∀ (is : List Nat) (s : σ) (st : BStats), ∀ l ∈ insertLines E vectors metadata is s st, ∃ tried, tried ≠ [] ∧
      tried <+: is ∧ l.processed + l.failed =
        st.processed + st.failed + (tried.map fun i => (batchAt vectors i E.batchSize).length).sum := by
    intro is
    induction is with
    | nil => intro s st l hl; cases hl
    | cons i is ih =>
      intro s st l hl
      unfold insertLines at hl
      dsimp only at hl
      rcases hr : E.insert s (batchAt vectors i E.batchSize) (batchAt metadata i E.batchSize) with ⟨r, s1⟩
      rw [hr] at hl
      cases r with
      | error e =>
        dsimp only at hl
        cases ho : E.onError e with
        | error e' => rw [ho] at hl; cases hl
        | ok u =>
          rw [ho] at hl
          obtain ⟨tried, -, h2, h3⟩ := ih _ _ l hl
          dsimp only at h3
          refine ⟨i :: tried, by simp, List.cons_prefix_cons.2 ⟨rfl, h2⟩, ?_⟩
          rw [List.map_cons, List.sum_cons, h3]
          omega
      | ok ids =>
        dsimp only at hl
        rw [hprog] at hl
        rcases List.mem_append.1 hl with hl | hl
        · have hf : l.failed = st.failed := by
            unfold printLine at hl
            split at hl
            · cases hl
            · rw [List.mem_singleton] at hl
              subst hl
              rfl
          obtain ⟨h1, -, -⟩ := mem_printLine hl
          dsimp only at h1
          refine ⟨[i], by simp, by simp, ?_⟩
          simp only [List.map_cons, List.map_nil, List.sum_cons, List.sum_nil]
          omega
        · obtain ⟨tried, -, h2, h3⟩ := ih _ _ l hl
          dsimp only at h3
          refine ⟨i :: tried, by simp, List.cons_prefix_cons.2 ⟨rfl, h2⟩, ?_⟩
          rw [List.map_cons, List.sum_cons, h3]
          omega
  exact main _ s { st with total := vectors.length }

/-- A client that refuses batches that begin with 7, in batches of two. -/
def exInsEnv : BatchEnv Unit Nat Nat Nat Nat Nat :=
  ⟨2, fun s v _ => if v.head? = some 7 then (.error .value, s) else (.ok v, s), fun s q => (.ok [q], s), fun _ _ => .ok (), fun _ => .ok ()⟩

example : batchInsertLines exInsEnv [1, 2, 7, 4, 5] [] () resetStats = [⟨40, 2, 5, 0⟩, ⟨60, 3, 5, 2⟩] ∧
    2 ∈ starts 5 2 ∧ (exInsEnv.insert () (batchAt [1, 2, 7, 4, 5] 2 2) []).1 = .error .value ∧
    batchInsertLines exInsEnv [1, 2, 3] [] () resetStats = [⟨200 / 3, 2, 3, 0⟩, ⟨100, 3, 3, 0⟩] ∧
    batchInsertLines exInsEnv [1] [] () ⟨3, 3, 0⟩ = [⟨400, 4, 1, 0⟩] := by decide +kernel

/-- A client that stores everything. -/
example : ∃ E : BatchEnv Unit Nat Nat Nat Nat Nat, 1 ≤ E.batchSize ∧ (∀ s v m, ∃ ids s', E.insert s v m = (.ok ids, s')) ∧
    ∀ p t, E.progress p t = .ok () :=
  ⟨⟨2, fun s v _ => (.ok v, s), fun s q => (.ok [q], s), fun _ _ => .ok (), fun _ => .ok ()⟩, by decide,
    fun s v _ => ⟨v, s, rfl⟩, fun _ _ => rfl⟩

end Valori.Props
