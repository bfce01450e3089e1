import Verif.Model.BatchLines
import Mathlib.Algebra.Order.Ring.Rat
import Mathlib.Tactic.Linarith
import Mathlib.Tactic.FieldSimp

/-!
# C256: the progress a batch search shows
-/

namespace Valori.Props
open Valori

variable {σ V M I Q R : Type}

theorem searchEach_counts (E : BatchEnv σ V M I Q R) (qs : List Q) :
    ∀ (s : σ) (st : BStats) (out rs : List (List R)) (s' : σ) (st' : BStats),
      searchEach E qs (s, st, out) = (.ok rs, s', st') → st'.processed = st.processed ∧ st'.total = st.total := by
  induction qs with
  | nil => intro s st out rs s' st' h; simp only [searchEach] at h; cases h; exact ⟨rfl, rfl⟩
  | cons q qs ih =>
    intro s st out rs s' st' h
    unfold searchEach at h
    rcases hr : E.search s q with ⟨r, s1⟩
    rw [hr] at h
    cases r with
    | ok r => exact ih _ _ _ _ _ _ h
    | error e =>
      dsimp only at h
      cases ho : E.onError e with
      | error e' => rw [ho] at h; cases h
      | ok u =>
        rw [ho] at h
        cases u
        obtain ⟨a, b⟩ := ih _ _ _ _ _ _ h
        exact ⟨a, b⟩

/-- The lines printed from batch `j` on, when `p` items had been processed before the call. -/
theorem searchLines_spec (E : BatchEnv σ V M I Q R) (queries : List Q) (p : Nat) (hne : queries ≠ []) :
    ∀ (m j : Nat) (s : σ) (st : BStats) (out : List (List R)), st.total = queries.length →
      st.processed = p + min (j * E.batchSize) queries.length →
      (∀ l ∈ searchLines E queries ((List.range' j m).map (· * E.batchSize)) (s, st, out),
        l.total = queries.length ∧ l.processed ≤ p + queries.length ∧
        l.percent = (l.processed : Rat) / queries.length * 100) ∧
      ∀ rs s' st', searchLoop E queries ((List.range' j m).map (· * E.batchSize)) (s, st, out) = (.ok rs, s', st') →
        0 < m → (searchLines E queries ((List.range' j m).map (· * E.batchSize)) (s, st, out)).length = m ∧
          ∃ l, (searchLines E queries ((List.range' j m).map (· * E.batchSize)) (s, st, out)).getLast? = some l ∧
            l.processed = p + min ((j + m) * E.batchSize) queries.length := by
  intro m
  induction m with
  | zero => intro j s st out _ _; exact ⟨by simp [searchLines], fun _ _ _ _ h => absurd h (by omega)⟩
  | succ m ih =>
    intro j s st out ht hp
    have hn : queries.length ≠ 0 := by simpa using hne
    rw [List.range'_succ, List.map_cons]
    unfold searchLines searchLoop
    dsimp only
    rcases he : searchEach E (batchAt queries (j * E.batchSize) E.batchSize) (s, st, []) with ⟨r, s1, st1⟩
    cases r with
    | error e => exact ⟨by simp, fun _ _ _ h => by cases h⟩
    | ok rs =>
      dsimp only
      obtain ⟨c1, c2⟩ := searchEach_counts E _ _ _ _ _ _ _ he
      have hlen : (batchAt queries (j * E.batchSize) E.batchSize).length =
          min E.batchSize (queries.length - j * E.batchSize) := by simp [batchAt]
      have hp' : st1.processed + (batchAt queries (j * E.batchSize) E.batchSize).length =
          p + min ((j + 1) * E.batchSize) queries.length := by
        rw [c1, hp, hlen, Nat.add_mul, Nat.one_mul]; omega
      have ht' : st1.total = queries.length := c2.trans ht
      rw [hp']
      have hl : printLine { st1 with processed := p + min ((j + 1) * E.batchSize) queries.length } =
          [⟨((p + min ((j + 1) * E.batchSize) queries.length : Nat) : Rat) / queries.length * 100,
            p + min ((j + 1) * E.batchSize) queries.length, queries.length, st1.failed⟩] := by
        unfold printLine
        simp only [ht', hn, if_false]
      rw [hl]
      have hfirst : p + min ((j + 1) * E.batchSize) queries.length ≤ p + queries.length := by omega
      cases hg : E.progress (p + min ((j + 1) * E.batchSize) queries.length) st1.total with
      | error e =>
        refine ⟨?_, fun _ _ _ h => by cases h⟩
        intro l hl
        simp only [List.append_nil, List.mem_singleton] at hl
        subst hl
        exact ⟨rfl, hfirst, rfl⟩
      | ok u =>
        dsimp only
        obtain ⟨i1, i2⟩ := ih (j + 1) s1 { st1 with processed := p + min ((j + 1) * E.batchSize) queries.length } (out ++ rs)
          ht' rfl
        refine ⟨?_, ?_⟩
        · intro l hl
          rcases List.mem_append.1 hl with hl | hl
          · rw [List.mem_singleton] at hl
            subst hl
            exact ⟨rfl, hfirst, rfl⟩
          · exact i1 l hl
        · intro rs' s' st' h _
          cases m with
          | zero =>
            refine ⟨by simp [searchLines], _, by simp [searchLines]; rfl, rfl⟩
          | succ m =>
            obtain ⟨k1, l, k2, k3⟩ := i2 rs' s' st' h (by omega)
            refine ⟨by simp [k1, Nat.add_comm], l, ?_, by rw [k3, show j + 1 + (m + 1) = j + (m + 1 + 1) by omega]⟩
            rw [List.getLast?_append, k2]
            rfl

theorem starts_range' (n b : Nat) : starts n b = (List.range' 0 ((n + b - 1) / b)).map (· * b) := by
  unfold starts; rw [List.range_eq_range']

/-- **C256**, a new manager or one after `reset_stats`: a batch search never shows more than 100 per cent, and if it returns it has shown
one line for each batch, the last one with 100 per cent.  Missing: a manager that was used before, see `C256_reuse_refuted`. -/
theorem C256_first_partial (E : BatchEnv σ V M I Q R) (hb : 1 ≤ E.batchSize) (queries : List Q) (hne : queries ≠ []) (s : σ)
    (st : BStats) (h0 : st.processed = 0) :
    (∀ l ∈ batchSearchLines E queries s st, l.percent ≤ 100 ∧ l.processed ≤ l.total) ∧
    ∀ rs s' st', batchSearch E queries s st = (.ok rs, s', st') →
      (batchSearchLines E queries s st).length = (queries.length + E.batchSize - 1) / E.batchSize ∧
      ∃ l, (batchSearchLines E queries s st).getLast? = some l ∧ l.percent = 100 := by
  have hn : 0 < queries.length := List.length_pos_iff.2 hne
  have hq : (0 : Rat) < queries.length := by exact_mod_cast hn
  have hspec := searchLines_spec E queries 0 hne ((queries.length + E.batchSize - 1) / E.batchSize) 0 s
    { st with total := queries.length } [] rfl (by simp [h0])
  rw [← starts_range'] at hspec
  obtain ⟨h1, h2⟩ := hspec
  refine ⟨?_, ?_⟩
  · intro l hl
    obtain ⟨e1, e2, e3⟩ := h1 l hl
    rw [Nat.zero_add] at e2
    refine ⟨?_, by omega⟩
    have : (l.processed : Rat) ≤ queries.length := by exact_mod_cast e2
    rw [e3]
    have : (l.processed : Rat) / queries.length ≤ 1 := by rw [div_le_one hq]; exact this
    linarith
  · intro rs s' st' h
    have hm : 0 < (queries.length + E.batchSize - 1) / E.batchSize := Nat.div_pos (by omega) (by omega)
    obtain ⟨k1, l, k2, k3⟩ := h2 rs s' st' h hm
    refine ⟨k1, l, k2, ?_⟩
    have hall : queries.length ≤ (queries.length + E.batchSize - 1) / E.batchSize * E.batchSize := by
      have := Nat.div_add_mod (queries.length + E.batchSize - 1) E.batchSize
      have h3 := Nat.mod_lt (queries.length + E.batchSize - 1) (show 0 < E.batchSize by omega)
      rw [Nat.mul_comm] at this
      omega
    have hlp : l.processed = queries.length := by rw [k3, Nat.zero_add, Nat.zero_add]; omega
    rw [(h1 l (List.mem_of_getLast? k2)).2.2, hlp, div_self hq.ne', one_mul]

/-- **C256 (refuted)**: every batch search that returns, on a manager that has processed items before, ends with a line above
100 per cent, whose number of processed items exceeds the total. -/
theorem C256_reuse_refuted (E : BatchEnv σ V M I Q R) (hb : 1 ≤ E.batchSize) (queries : List Q) (hne : queries ≠ []) (s : σ)
    (st : BStats) (h0 : 0 < st.processed) (rs : List (List R)) (s' : σ) (st' : BStats)
    (h : batchSearch E queries s st = (.ok rs, s', st')) :
    ∃ l, (batchSearchLines E queries s st).getLast? = some l ∧ 100 < l.percent ∧
      l.processed = st.processed + queries.length ∧ l.total = queries.length := by
  have hn : 0 < queries.length := List.length_pos_iff.2 hne
  have hq : (0 : Rat) < queries.length := by exact_mod_cast hn
  have hspec := searchLines_spec E queries st.processed hne ((queries.length + E.batchSize - 1) / E.batchSize) 0 s
    { st with total := queries.length } [] rfl (by simp)
  rw [← starts_range'] at hspec
  obtain ⟨h1, h2⟩ := hspec
  have hm : 0 < (queries.length + E.batchSize - 1) / E.batchSize := Nat.div_pos (by omega) (by omega)
  obtain ⟨-, l, k2, k3⟩ := h2 rs s' st' h hm
  have hall : queries.length ≤ (queries.length + E.batchSize - 1) / E.batchSize * E.batchSize := by
    have := Nat.div_add_mod (queries.length + E.batchSize - 1) E.batchSize
    have h3 := Nat.mod_lt (queries.length + E.batchSize - 1) (show 0 < E.batchSize by omega)
    rw [Nat.mul_comm] at this
    omega
  have hlp : l.processed = st.processed + queries.length := by rw [k3, Nat.zero_add]; omega
  obtain ⟨e1, -, e3⟩ := h1 l (List.mem_of_getLast? k2)
  refine ⟨l, k2, ?_, hlp, e1⟩
  have : (1 : Rat) < (l.processed : Rat) / queries.length := by
    rw [one_lt_div hq, hlp]
    exact_mod_cast Nat.lt_add_of_pos_left h0
  rw [e3]
  linarith

/-- **C256**, the counters: the last line of a search that returns shows the counters `get_stats` gives afterwards. -/
theorem C256_counters (E : BatchEnv σ V M I Q R) (hb : 1 ≤ E.batchSize) (queries : List Q) (hne : queries ≠ []) (s : σ)
    (st : BStats) (rs : List (List R)) (s' : σ) (st' : BStats) (h : batchSearch E queries s st = (.ok rs, s', st')) :
    ∃ l, (batchSearchLines E queries s st).getLast? = some l ∧
      l.processed = st'.processed ∧ l.total = st'.total ∧ l.failed = st'.failed := by
  have main : ∀ (is : List Nat), is ≠ [] → ∀ (s : σ) (st : BStats) (out : List (List R)), st.total ≠ 0 →
      searchLoop E queries is (s, st, out) = (.ok rs, s', st') →
      ∃ l, (searchLines E queries is (s, st, out)).getLast? = some l ∧
        l.processed = st'.processed ∧ l.total = st'.total ∧ l.failed = st'.failed := by
    intro is
    induction is with
    | nil => intro h; exact absurd rfl h
    | cons i is ih =>
      intro _ s st out ht h
      unfold searchLoop at h
      unfold searchLines
      dsimp only at h ⊢
      rcases he : searchEach E (batchAt queries i E.batchSize) (s, st, []) with ⟨r, s1, st1⟩
      rw [he] at h
      cases r with
      | error e => cases h
      | ok rs1 =>
        dsimp only at h ⊢
        have ht1 : st1.total ≠ 0 := by rw [(searchEach_counts E _ _ _ _ _ _ _ he).2]; exact ht
        have hl : printLine { st1 with processed := st1.processed + (batchAt queries i E.batchSize).length } =
            [⟨((st1.processed + (batchAt queries i E.batchSize).length : Nat) : Rat) / st1.total * 100,
              st1.processed + (batchAt queries i E.batchSize).length, st1.total, st1.failed⟩] := by
          unfold printLine
          simp only [ht1, if_false]
        rw [hl]
        cases hg : E.progress (st1.processed + (batchAt queries i E.batchSize).length) st1.total with
        | error e => rw [hg] at h; cases h
        | ok u =>
          rw [hg] at h
          dsimp only at h ⊢
          by_cases hn : is = []
          · subst hn
            simp only [searchLoop] at h
            cases h
            exact ⟨_, by simp [searchLines]; rfl, rfl, rfl, rfl⟩
          · obtain ⟨l, k1, k2⟩ := ih hn _ _ _ (by exact ht1) h
            exact ⟨l, by rw [List.getLast?_append, k1]; rfl, k2⟩
  have hn : 0 < queries.length := List.length_pos_iff.2 hne
  refine main _ ?_ s { st with total := queries.length } [] (by dsimp only; omega) h
  intro h0
  have hpos : 0 < (queries.length + E.batchSize - 1) / E.batchSize := Nat.div_pos (by omega) (by omega)
  have := congrArg List.length h0
  simp [starts] at this
  omega

/-- A manager with batches of two and a client that answers every query but 7. -/
def exLinesEnv : BatchEnv Unit Nat Nat Nat Nat Nat :=
  ⟨2, fun s _ _ => (.ok [], s), fun s q => if q = 7 then (.error .value, s) else (.ok [q], s), fun _ _ => .ok (), fun _ => .ok ()⟩

example : (batchSearchLines exLinesEnv [1, 7, 3] () resetStats) = [⟨200 / 3, 2, 3, 1⟩, ⟨100, 3, 3, 1⟩] ∧
    batchSearch exLinesEnv [1, 7, 3] () resetStats = (.ok [[1], [], [3]], (), ⟨3, 3, 1⟩) ∧
    (batchSearchLines exLinesEnv [1] () ⟨3, 3, 1⟩) = [⟨400, 4, 1, 1⟩] := by decide +kernel

end Valori.Props
