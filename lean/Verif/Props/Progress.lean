import Verif.Model.Progress
import Mathlib.Tactic.Linarith
import Mathlib.Tactic.FieldSimp
import Mathlib.Tactic.Positivity
import Mathlib.Algebra.Order.Field.Rat
import Mathlib.Algebra.Order.Floor.Ring
import Mathlib.Data.Rat.Floor

/-!
# C168, C169: progress and timing statistics
-/

namespace Valori.Props

/-- A line that makes sense: thirty places, as many of them full as the share done, a percentage between 0
and 100, and a remaining time that is not negative. -/
structure SaneLine (l : PLine) : Prop where
  width : l.bar.length = 30
  full : l.bar = List.replicate (l.bar.count true) true ++ List.replicate (30 - l.bar.count true) false
  share : (l.bar.count true : Rat) ≤ 30 * ((l.current : Rat) / l.total) ∧
    30 * ((l.current : Rat) / l.total) < l.bar.count true + 1
  percent : l.percent = 100 * ((l.current : Rat) / l.total) ∧ 0 ≤ l.percent ∧ l.percent ≤ 100
  eta : 0 ≤ l.eta

theorem line_sane (t : Tracker) (now : Rat) (ht : 0 < t.total) (h0 : 0 ≤ t.current)
    (h1 : t.current ≤ t.total) (hn : t.startTime ≤ now) : ∃ l, t.line now = .ok l ∧ SaneLine l ∧
      l.current = t.current ∧ l.total = t.total := by
  have hne : t.total ≠ 0 := ne_of_gt ht
  refine ⟨_, if_neg hne, ?_, rfl, rfl⟩
  have hT : (0 : Rat) < t.total := by exact_mod_cast ht
  have hC : (0 : Rat) ≤ t.current := by exact_mod_cast h0
  have hC1 : (t.current : Rat) ≤ t.total := by exact_mod_cast h1
  obtain ⟨k, hk⟩ : ∃ k : Nat, (30 * t.current).tdiv t.total = k := by
    refine ⟨((30 * t.current).tdiv t.total).toNat, ?_⟩
    rw [Int.toNat_of_nonneg]
    exact Int.tdiv_nonneg (by omega) (by omega)
  have hdiv : (30 * t.current) / t.total = k := by
    rw [← hk]; exact (Int.tdiv_eq_ediv_of_nonneg (by omega)).symm
  have hlo : (k : Int) * t.total ≤ 30 * t.current := by
    rw [← hdiv]; exact Int.ediv_mul_le _ hne
  have hhi : 30 * t.current < ((k : Int) + 1) * t.total := by
    rw [← hdiv]; exact Int.lt_ediv_add_one_mul_self _ ht
  have hk30 : k ≤ 30 := by
    by_contra hc
    have h31 : (31 : Int) ≤ k := by omega
    nlinarith
  have hcount : (List.replicate ((30 * t.current).tdiv t.total).toNat true ++
      List.replicate (30 - (30 * t.current).tdiv t.total).toNat false).count true = k := by
    rw [hk]
    simp [List.count_replicate]
  constructor
  · simp [hk]; omega
  · rw [hcount]
    have : (30 - (k : Int)).toNat = 30 - k := by omega
    simp only [hk, this, Int.toNat_natCast]
  · rw [hcount]
    have hlo' : (k : Rat) * t.total ≤ 30 * t.current := by exact_mod_cast hlo
    have hhi' : 30 * (t.current : Rat) < ((k : Rat) + 1) * t.total := by exact_mod_cast hhi
    constructor
    · rw [← mul_div_assoc, le_div_iff₀ hT]; exact hlo'
    · rw [← mul_div_assoc, div_lt_iff₀ hT]; exact hhi'
  · refine ⟨by simp only; ring, ?_, ?_⟩
    · simp only; positivity
    · simp only
      have : (t.current : Rat) / t.total ≤ 1 := by rw [div_le_one hT]; exact hC1
      linarith
  · simp only
    split
    · rename_i hpos
      have h2 : (0 : Rat) < t.current := by exact_mod_cast hpos
      have h3 : (0 : Rat) ≤ now - t.startTime := by linarith
      have h4 : (0 : Rat) ≤ ((t.total - t.current : Int) : Rat) := by exact_mod_cast (by omega)
      positivity
    · exact le_refl _

/-- The increments and the clock are as they should be: nothing negative, not more than `room` in all, and
no time before `since`. -/
def goodUpdates (since : Rat) : Int → List (Int × Rat × Rat) → Prop
  | room, [] => 0 ≤ room
  | room, (inc, now, now') :: rest =>
    0 ≤ inc ∧ since ≤ now ∧ since ≤ now' ∧ goodUpdates since (room - inc) rest

theorem goodUpdates_room (since : Rat) (us : List (Int × Rat × Rat)) (room : Int)
    (h : goodUpdates since room us) : 0 ≤ room := by
  induction us generalizing room with
  | nil => exact h
  | cons u us ih =>
    obtain ⟨h1, -, -, h2⟩ := h
    have := ih _ h2
    omega

/-- **C168** A tracker for at least one item that is not told of more items than there are never fails; all
lines it prints make sense, the numbers in them never decrease, and lines are at least a second apart. -/
theorem C168_tracker (t : Tracker) (us : List (Int × Rat × Rat)) (ht : 0 < t.total) (h0 : 0 ≤ t.current)
    (hu : goodUpdates t.startTime (t.total - t.current) us) :
    ∃ ls t', t.updates us = (.ok ls, t') ∧ (∀ l ∈ ls, SaneLine l.2 ∧ t.current ≤ l.2.current) ∧
      ls.Pairwise (fun a b => a.2.current ≤ b.2.current) ∧
      (∀ l ∈ ls.head?, t.lastUpdate + 1 ≤ l.1) ∧ ls.IsChain (fun a b => a.1 + 1 ≤ b.1) ∧
      t'.current = t.current + (us.map Prod.fst).sum ∧ t'.total = t.total := by
  induction us generalizing t with
  | nil => exact ⟨[], t, rfl, by simp, by simp, by simp, by simp, by simp, rfl⟩
  | cons u us ih =>
    obtain ⟨inc, now, now'⟩ := u
    obtain ⟨g1, g2, g3, g4⟩ := hu
    have groom := goodUpdates_room _ _ _ g4
    have hle : t.current + inc ≤ t.total := by omega
    by_cases hn : now - t.lastUpdate ≥ 1
    · obtain ⟨l, k1, k2, k3, k4⟩ := line_sane { t with current := t.current + inc } now' ht (by simp only; omega) hle g3
      obtain ⟨ls, t', h1, h2, h3, h4, h5, h6, h7⟩ := ih { t with current := t.current + inc, lastUpdate := now } ht (by simp only; omega)
        (by simpa [sub_sub] using g4)
      have hup : t.update inc now now' =
          (.ok (some l), { t with current := t.current + inc, lastUpdate := now }) := by
        simp only [Tracker.update, hn, if_true, k1]
      refine ⟨(now, l) :: ls, t', ?_, ?_, ?_, ?_, ?_, ?_, h7⟩
      · simp only [Tracker.updates, hup, h1]; rfl
      · intro x hx
        rcases List.mem_cons.1 hx with rfl | hx
        · exact ⟨k2, by rw [k3]; simp only; omega⟩
        · obtain ⟨m1, m2⟩ := h2 x hx
          exact ⟨m1, by simp only at m2; omega⟩
      · refine List.pairwise_cons.2 ⟨fun x hx => ?_, h3⟩
        obtain ⟨m1, m2⟩ := h2 x hx
        rw [k3]; exact m2
      · intro x hx
        simp only [List.head?_cons, Option.mem_def, Option.some.injEq] at hx
        subst hx
        simp only
        linarith
      · cases ls with
        | nil => simp
        | cons y ys => exact List.isChain_cons_cons.2 ⟨h4 y rfl, h5⟩
      · rw [h6]; simp [add_assoc]
    · obtain ⟨ls, t', h1, h2, h3, h4, h5, h6, h7⟩ := ih { t with current := t.current + inc } ht (by simp only; omega)
        (by simpa [sub_sub] using g4)
      have hup : t.update inc now now' = (.ok none, { t with current := t.current + inc }) := by
        simp only [Tracker.update, hn, if_false]
      refine ⟨ls, t', ?_, ?_, h3, h4, h5, ?_, h7⟩
      · simp only [Tracker.updates, hup, h1]; rfl
      · intro x hx
        obtain ⟨m1, m2⟩ := h2 x hx
        exact ⟨m1, by simp only at m2; omega⟩
      · rw [h6]; simp [add_assoc]

/-- **C168** `finish` shows a full bar, 100 percent and no time left, whatever was reported before. -/
theorem C168_finish (t : Tracker) (now : Rat) (ht : 0 < t.total) :
    ∃ l, (t.finish now).1 = .ok l ∧ l.bar = List.replicate 30 true ∧ l.percent = 100 ∧ l.eta = 0 ∧
      l.current = t.total := by
  have hne : t.total ≠ 0 := ne_of_gt ht
  have hT : (t.total : Rat) ≠ 0 := by exact_mod_cast hne
  refine ⟨_, if_neg hne, ?_, ?_, ?_, rfl⟩
  · simp [Int.mul_tdiv_cancel _ hne]
  · simp [div_self hT]
  · simp

/-- **C168 (refuted), nothing to do.** A tracker for no items cannot be finished. -/
theorem C168_finish_refuted (t : Tracker) (now : Rat) (ht : t.total = 0) :
    (t.finish now).1 = .error .other := by
  simp [Tracker.finish, Tracker.line, ht]

/-- **C168 (refuted), too much.** When more is reported than there is, the bar is longer than thirty places
as soon as this amounts to a thirtieth, and the remaining time is negative. -/
theorem C168_overshoot_refuted (t : Tracker) (now : Rat) (ht : 0 < t.total)
    (h : 31 * t.total ≤ 30 * t.current) (hn : t.startTime < now) :
    ∃ l, t.line now = .ok l ∧ 30 < l.bar.length ∧ 100 < l.percent ∧ l.eta < 0 := by
  have hne : t.total ≠ 0 := ne_of_gt ht
  have hT : (0 : Rat) < t.total := by exact_mod_cast ht
  have hc : t.total < t.current := by omega
  have hC : (t.total : Rat) < t.current := by exact_mod_cast hc
  refine ⟨_, if_neg hne, ?_, ?_, ?_⟩
  · have h31 : 31 ≤ (30 * t.current).tdiv t.total := by
      rw [Int.tdiv_eq_ediv_of_nonneg (by omega)]
      exact (Int.le_ediv_iff_mul_le ht).2 h
    simp only [List.length_append, List.length_replicate]
    omega
  · simp only
    have : (1 : Rat) < (t.current : Rat) / t.total := by rw [one_lt_div hT]; exact hC
    linarith
  · simp only
    rw [if_pos (by omega)]
    have h1 : (0 : Rat) < now - t.startTime := by linarith
    have h2 : (0 : Rat) < t.current := by linarith
    have h3 : ((t.total - t.current : Int) : Rat) < 0 := by exact_mod_cast (by omega)
    exact mul_neg_of_pos_of_neg (div_pos h1 h2) h3

/-- A tracker for four items with three updates, the second of which prints. -/
example : (Tracker.new 4 0 0).updates [(1, 1/2, 1/2), (1, 1, 1), (1, 3/2, 3/2)] =
    (.ok [(1, ⟨List.replicate 15 true ++ List.replicate 15 false, 50, 2, 4, 1, 1⟩)], ⟨4, 3, 0, 1⟩) ∧
    goodUpdates 0 4 [(1, 1/2, 1/2), (1, 1, 1), (1, 3/2, 3/2)] := by
  constructor
  · decide +kernel
  · simp only [goodUpdates]; decide +kernel

/-! ## C169: throughput -/

/-- The number of items processed in the events. -/
def itemsIn (es : List BEvent) : Nat :=
  (es.map fun | .processed n => n | _ => 0).sum

theorem after_items (es : List BEvent) (hes : ∀ e ∈ es, ∃ n, e = .processed n) (s : BTimes) :
    es.foldl BTimes.on s = { s with processed := s.processed + itemsIn es } := by
  induction es generalizing s with
  | nil => simp [itemsIn]
  | cons e es ih =>
    obtain ⟨n, rfl⟩ := hes e (by simp)
    rw [List.foldl_cons, ih (fun e he => hes e (by simp [he]))]
    simp [BTimes.on, itemsIn, Nat.add_assoc]

/-- **C169 (partial).** After one operation on a manager that is new or has just been reset, the statistics
give the time it took and the items it processed per second. -/
theorem C169_rate_partial (before items : List BEvent) (a b : Rat)
    (hb : before = [] ∨ ∃ es, before = es ++ [.reset]) (hes : ∀ e ∈ items, ∃ n, e = .processed n)
    (ha : 0 < a) (hab : a < b) :
    (BTimes.after (before ++ [.begin a] ++ items ++ [.done b])).rate =
      (b - a, (itemsIn items : Rat) / (b - a)) := by
  have h0 : before.foldl BTimes.on ⟨0, none, none⟩ = ⟨0, none, none⟩ := by
    rcases hb with rfl | ⟨es, rfl⟩
    · rfl
    · simp [BTimes.on]
  unfold BTimes.after
  simp only [List.foldl_append, h0, List.foldl_cons, List.foldl_nil, after_items items hes]
  have h1 : a ≠ 0 := ne_of_gt ha
  have h2 : b ≠ 0 := by linarith [ha, hab] |> fun h : (0 : Rat) < b => ne_of_gt h
  have h3 : b - a ≠ 0 := by intro h; linarith
  simp only [BTimes.on, BTimes.rate, h1, h2, ne_eq, not_false_eq_true, and_self, if_true, h3, and_true,
    Nat.zero_add, Prod.mk.injEq, true_and]
  split
  · rfl
  · rename_i hz
    have : itemsIn items = 0 := by omega
    simp [this]

/-- **C169 (refuted), two operations.** After a second operation the rate is wrong: it counts the items of
both over the time of the last. -/
theorem C169_two_refuted (n m : Nat) (a b c d : Rat) (hn : 0 < n) (hc : 0 < c) (hcd : c < d) :
    (BTimes.after [.begin a, .processed n, .done b, .begin c, .processed m, .done d]).rate =
      (d - c, (n + m : Nat) / (d - c)) ∧ ((m : Rat) / (d - c) < (n + m : Nat) / (d - c)) := by
  have h1 : c ≠ 0 := ne_of_gt hc
  have hd : 0 < d := by linarith
  have h2 : d ≠ 0 := ne_of_gt hd
  have h3 : 0 < d - c := by linarith
  refine ⟨?_, ?_⟩
  · simp only [BTimes.after, List.foldl_cons, List.foldl_nil, BTimes.on, BTimes.rate, h1, h2, ne_eq,
      not_false_eq_true, and_self, if_true, Nat.zero_add]
    rw [if_pos ⟨by omega, ne_of_gt h3⟩]
  · rw [div_lt_div_iff_of_pos_right h3]
    push_cast
    have : (0 : Rat) < n := by exact_mod_cast hn
    linarith

/-- **C169 (refuted), in between.** Asked during a second operation, for instance by a callback, the
statistics give a negative time and a negative rate. -/
theorem C169_during_refuted (n : Nat) (a b c : Rat) (hn : 0 < n) (ha : 0 < a) (hab : a < b) (hbc : b < c) :
    (BTimes.after [.begin a, .processed n, .done b, .begin c]).rate.1 < 0 ∧
    (BTimes.after [.begin a, .processed n, .done b, .begin c]).rate.2 < 0 := by
  have hb : b ≠ 0 := by intro h; linarith
  have hc : c ≠ 0 := by intro h; linarith
  have h3 : b - c < 0 := by linarith
  have hN : (0 : Rat) < n := by exact_mod_cast hn
  simp only [BTimes.after, List.foldl_cons, List.foldl_nil, BTimes.on, BTimes.rate, hb, hc, ne_eq,
    not_false_eq_true, and_self, if_true, Nat.zero_add]
  refine ⟨h3, ?_⟩
  rw [if_pos ⟨hn, ne_of_lt h3⟩]
  exact div_neg_of_pos_of_neg hN h3

/-- Ten items in two seconds. -/
example : (BTimes.after [.processed 3, .reset, .begin 5, .processed 4, .processed 6, .done 7]).rate = (2, 5) := by
  decide +kernel

end Valori.Props
