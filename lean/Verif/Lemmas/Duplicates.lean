import Verif.Model.Duplicates
import Mathlib.Data.List.Basic

/-!
# Lemmas about the duplicate search
-/

namespace Valori
variable {D : Type} [LinearOrder D]

theorem dupInner_fold (sim : Nat → Nat → D) (thr : D) (i : Nat) (l : List Nat) (hl : l.Nodup)
    (g P : List Nat) :
    (l.foldl (dupInner sim thr i) (g, P)).1 =
      g ++ l.filter (fun j => decide (j ∉ P ∧ thr ≤ sim i j)) ∧
    ∀ k, k ∈ (l.foldl (dupInner sim thr i) (g, P)).2 ↔
      k ∈ P ∨ (k ∈ l ∧ thr ≤ sim i k) := by
  induction l generalizing g P with
  | nil => simp
  | cons j l ih =>
    rw [List.nodup_cons] at hl
    rw [List.foldl_cons]
    unfold dupInner
    simp only
    split_ifs with h1 h2
    · obtain ⟨a, b⟩ := ih hl.2 g P
      refine ⟨?_, fun k => ?_⟩
      · rw [show (fun st j => if j ∈ st.2 then st else if thr ≤ sim i j then (st.1 ++ [j], j :: st.2)
          else st) = dupInner sim thr i from rfl, a, List.filter_cons_of_neg (by simp [h1])]
      · rw [show (fun st j => if j ∈ st.2 then st else if thr ≤ sim i j then (st.1 ++ [j], j :: st.2)
          else st) = dupInner sim thr i from rfl, b]
        constructor
        · rintro (h | ⟨h, h'⟩)
          · exact Or.inl h
          · exact Or.inr ⟨List.mem_cons_of_mem _ h, h'⟩
        · rintro (h | ⟨h, h'⟩)
          · exact Or.inl h
          · rcases List.mem_cons.1 h with rfl | h
            · exact Or.inl h1
            · exact Or.inr ⟨h, h'⟩
    · obtain ⟨a, b⟩ := ih hl.2 (g ++ [j]) (j :: P)
      refine ⟨?_, fun k => ?_⟩
      · rw [show (fun st j => if j ∈ st.2 then st else if thr ≤ sim i j then (st.1 ++ [j], j :: st.2)
          else st) = dupInner sim thr i from rfl, a, List.filter_cons_of_pos (by simp [h1, h2]),
          List.append_assoc, List.singleton_append]
        congr 2
        refine List.filter_congr fun x hx => ?_
        have : x ≠ j := fun e => hl.1 (e ▸ hx)
        simp [this]
      · rw [show (fun st j => if j ∈ st.2 then st else if thr ≤ sim i j then (st.1 ++ [j], j :: st.2)
          else st) = dupInner sim thr i from rfl, b]
        constructor
        · rintro (h | ⟨h, h'⟩)
          · rcases List.mem_cons.1 h with rfl | h
            · exact Or.inr ⟨by simp, h2⟩
            · exact Or.inl h
          · exact Or.inr ⟨List.mem_cons_of_mem _ h, h'⟩
        · rintro (h | ⟨h, h'⟩)
          · exact Or.inl (List.mem_cons_of_mem _ h)
          · rcases List.mem_cons.1 h with rfl | h
            · exact Or.inl (by simp)
            · exact Or.inr ⟨h, h'⟩
    · obtain ⟨a, b⟩ := ih hl.2 g P
      refine ⟨?_, fun k => ?_⟩
      · rw [show (fun st j => if j ∈ st.2 then st else if thr ≤ sim i j then (st.1 ++ [j], j :: st.2)
          else st) = dupInner sim thr i from rfl, a, List.filter_cons_of_neg (by simp [h2])]
      · rw [show (fun st j => if j ∈ st.2 then st else if thr ≤ sim i j then (st.1 ++ [j], j :: st.2)
          else st) = dupInner sim thr i from rfl, b]
        constructor
        · rintro (h | ⟨h, h'⟩)
          · exact Or.inl h
          · exact Or.inr ⟨List.mem_cons_of_mem _ h, h'⟩
        · rintro (h | ⟨h, h'⟩)
          · exact Or.inl h
          · rcases List.mem_cons.1 h with rfl | h
            · exact absurd h' h2
            · exact Or.inr ⟨h, h'⟩

/-- What holds after the rounds `0 ... m - 1`. -/
structure DupInv (sim : Nat → Nat → D) (thr : D) (n m : Nat) (G : List (List Nat)) (P : List Nat) :
    Prop where
  done : ∀ k < m, k ∈ P
  group : ∀ g ∈ G, ∃ h t, g = h :: t ∧ t ≠ [] ∧ h < m ∧ (h :: t).Pairwise (· < ·) ∧
    ∀ j ∈ t, j < n ∧ thr ≤ sim h j
  inP : ∀ g ∈ G, ∀ k ∈ g, k ∈ P
  disjoint : G.Pairwise fun g g' => ∀ k ∈ g, k ∉ g'
  ahead : ∀ k ∈ P, m ≤ k → ∃ g ∈ G, k ∈ g
  /-- whoever is similar to a round's own index is in a group of that round or an earlier one -/
  pairs : ∀ a b, a < m → a < b → b < n → thr ≤ sim a b →
    (∃ g ∈ G, a ∈ g.tail) ∨ ∃ g ∈ G, b ∈ g ∧ ∀ h ∈ g.head?, h ≤ a
  heads : (G.map List.head?).Pairwise fun x y => ∀ a ∈ x, ∀ b ∈ y, a < b

theorem dupInv_init (sim : Nat → Nat → D) (thr : D) (n : Nat) : DupInv sim thr n 0 [] [] where
  done := by simp
  group := by simp
  inP := by simp
  disjoint := List.Pairwise.nil
  ahead := by simp
  pairs := by simp
  heads := List.Pairwise.nil

theorem dupInv_step (sim : Nat → Nat → D) (thr : D) (n m : Nat) (hm : m < n) (G : List (List Nat))
    (P : List Nat) (h : DupInv sim thr n m G P) :
    DupInv sim thr n (m + 1) (dupOuter sim thr n (G, P) m).1 (dupOuter sim thr n (G, P) m).2 := by
  unfold dupOuter
  simp only
  by_cases hin : m ∈ P
  · rw [if_pos hin]
    refine ⟨?_, ?_, h.inP, h.disjoint, ?_, ?_, h.heads⟩
    · intro k hk
      by_cases e : k = m
      · exact e ▸ hin
      · exact h.done k (by omega)
    · intro g hg
      obtain ⟨a, t, e, h1, h2, h3⟩ := h.group g hg
      exact ⟨a, t, e, h1, by omega, h3⟩
    · exact fun k hk hmk => h.ahead k hk (by omega)
    · intro a b ha hab hb hs
      by_cases e : a = m
      · subst e
        left
        obtain ⟨g, hg, hk⟩ := h.ahead a hin le_rfl
        obtain ⟨x, t, rfl, h1, h2, -⟩ := h.group g hg
        refine ⟨_, hg, ?_⟩
        rcases List.mem_cons.1 hk with e | hk
        · omega
        · exact hk
      · exact h.pairs a b (by omega) hab hb hs
  · rw [if_neg hin]
    have hnd : (List.range' (m + 1) (n - (m + 1))).Nodup := List.nodup_range'
    obtain ⟨h1, h2⟩ := dupInner_fold sim thr m _ hnd [m] (m :: P)
    generalize (List.range' (m + 1) (n - (m + 1))).foldl (dupInner sim thr m) ([m], m :: P) = r at h1 h2
    obtain ⟨grp, P'⟩ := r
    simp only at h1 h2 ⊢
    subst h1
    have hmem : ∀ k, k ∈ List.range' (m + 1) (n - (m + 1)) ↔ m < k ∧ k < n := by
      intro k; rw [List.mem_range'_1]; omega
    have hP : ∀ k, k ∈ P → k ∈ P' := fun k hk => (h2 k).2 (Or.inl (List.mem_cons_of_mem _ hk))
    have hmP : m ∈ P' := (h2 m).2 (Or.inl (by simp))
    have hft : ∀ k, k ∈ (List.range' (m + 1) (n - (m + 1))).filter
        (fun j => decide (j ∉ m :: P ∧ thr ≤ sim m j)) ↔ m < k ∧ k < n ∧ k ∉ P ∧ thr ≤ sim m k := by
      intro k
      rw [List.mem_filter, hmem, decide_eq_true_eq, List.mem_cons]
      constructor
      · rintro ⟨⟨a, b⟩, c, d⟩; exact ⟨a, b, fun e => c (Or.inr e), d⟩
      · rintro ⟨a, b, c, d⟩; exact ⟨⟨a, b⟩, by rintro (e | e); omega; exact c e, d⟩
    have hsorted : ((List.range' (m + 1) (n - (m + 1))).filter
        (fun j => decide (j ∉ m :: P ∧ thr ≤ sim m j))).Pairwise (· < ·) :=
      List.Pairwise.filter _ List.pairwise_lt_range'
    have hahead : ∀ k ∈ P', m + 1 ≤ k → (∃ g ∈ G, k ∈ g) ∨ k ∈ (List.range' (m + 1) (n - (m + 1))).filter
        (fun j => decide (j ∉ m :: P ∧ thr ≤ sim m j)) := by
      intro k hk hmk
      rcases (h2 k).1 hk with hk | ⟨hk, hs⟩
      · rcases List.mem_cons.1 hk with e | hk
        · omega
        · exact Or.inl (h.ahead k hk (by omega))
      · by_cases hkP : k ∈ P
        · exact Or.inl (h.ahead k hkP (by omega))
        · exact Or.inr ((hft k).2 ⟨by omega, ((hmem k).1 hk).2, hkP, hs⟩)
    generalize (List.range' (m + 1) (n - (m + 1))).filter
      (fun j => decide (j ∉ m :: P ∧ thr ≤ sim m j)) = t at hft hsorted hahead
    have hdone : ∀ k < m + 1, k ∈ P' := by
      intro k hk
      by_cases e : k = m
      · exact e ▸ hmP
      · exact hP k (h.done k (by omega))
    have hold : ∀ g ∈ G, ∃ a t, g = a :: t ∧ t ≠ [] ∧ a < m + 1 ∧ (a :: t).Pairwise (· < ·) ∧
        ∀ j ∈ t, j < n ∧ thr ≤ sim a j := by
      intro g hg
      obtain ⟨a, t, e, g1, g2, g3⟩ := h.group g hg
      exact ⟨a, t, e, g1, by omega, g3⟩
    by_cases hlen : ([m] ++ t).length > 1
    · rw [if_pos hlen]
      have htne : t ≠ [] := by rintro rfl; simp at hlen
      refine ⟨hdone, ?_, ?_, ?_, ?_, ?_, ?_⟩
      · intro g hg
        rcases List.mem_append.1 hg with hg | hg
        · exact hold g hg
        · obtain rfl := List.mem_singleton.1 hg
          refine ⟨m, t, rfl, htne, by omega, ?_, ?_⟩
          · rw [List.pairwise_cons]
            exact ⟨fun k hk => ((hft k).1 hk).1, hsorted⟩
          · intro j hj
            have := (hft j).1 hj
            exact ⟨this.2.1, this.2.2.2⟩
      · intro g hg k hk
        rcases List.mem_append.1 hg with hg | hg
        · exact hP k (h.inP g hg k hk)
        · obtain rfl := List.mem_singleton.1 hg
          rcases List.mem_cons.1 hk with rfl | hk
          · exact hmP
          · have := (hft k).1 hk
            exact (h2 k).2 (Or.inr ⟨(hmem k).2 ⟨this.1, this.2.1⟩, this.2.2.2⟩)
      · rw [List.pairwise_append]
        refine ⟨h.disjoint, List.pairwise_singleton _ _, ?_⟩
        intro g hg g' hg' k hk hk'
        obtain rfl := List.mem_singleton.1 hg'
        have hkP := h.inP g hg k hk
        rcases List.mem_cons.1 hk' with rfl | hk'
        · exact hin hkP
        · exact ((hft k).1 hk').2.2.1 hkP
      · intro k hk hmk
        rcases hahead k hk hmk with ⟨g, hg, hk⟩ | hk
        · exact ⟨g, List.mem_append_left _ hg, hk⟩
        · exact ⟨[m] ++ t, by simp, by simp [hk]⟩
      · intro a b ha hab hb hs
        by_cases e : a = m
        · subst e
          right
          rcases hahead b ((h2 b).2 (Or.inr ⟨(hmem b).2 ⟨hab, hb⟩, hs⟩)) (by omega) with ⟨g, hg, hk⟩ | hk
          · refine ⟨g, List.mem_append_left _ hg, hk, ?_⟩
            obtain ⟨x, t', rfl, -, hx, -⟩ := hold g hg
            intro y hy
            simp only [List.head?_cons, Option.mem_def, Option.some.injEq] at hy
            omega
          · refine ⟨[a] ++ t, by simp, by simp [hk], ?_⟩
            intro y hy
            simp at hy
            omega
        · rcases h.pairs a b (by omega) hab hb hs with ⟨g, hg, h'⟩ | ⟨g, hg, h'⟩
          · exact Or.inl ⟨g, List.mem_append_left _ hg, h'⟩
          · exact Or.inr ⟨g, List.mem_append_left _ hg, h'⟩
      · rw [List.map_append, List.pairwise_append]
        refine ⟨h.heads, by simp, ?_⟩
        intro x hx y hy a ha b hb
        obtain ⟨g, hg, rfl⟩ := List.mem_map.1 hx
        obtain ⟨x, t', rfl, -, hlt, -⟩ := h.group g hg
        simp at hy
        subst hy
        simp at ha hb
        omega
    · rw [if_neg hlen]
      have ht : t = [] := by
        cases t with
        | nil => rfl
        | cons a t => simp at hlen
      subst ht
      refine ⟨hdone, hold, fun g hg k hk => hP k (h.inP g hg k hk), h.disjoint, ?_, ?_, h.heads⟩
      · intro k hk hmk
        rcases hahead k hk hmk with hk | hk
        · exact hk
        · simp at hk
      · intro a b ha hab hb hs
        by_cases e : a = m
        · subst e
          right
          rcases hahead b ((h2 b).2 (Or.inr ⟨(hmem b).2 ⟨hab, hb⟩, hs⟩)) (by omega) with ⟨g, hg, hk⟩ | hk
          · refine ⟨g, hg, hk, ?_⟩
            obtain ⟨x, t', rfl, -, hx, -⟩ := hold g hg
            intro y hy
            simp only [List.head?_cons, Option.mem_def, Option.some.injEq] at hy
            omega
          · simp at hk
        · exact h.pairs a b (by omega) hab hb hs

theorem dupInv_final (sim : Nat → Nat → D) (thr : D) (n : Nat) :
    ∃ P, DupInv sim thr n n (findDuplicates sim thr n) P := by
  have key : ∀ m, m ≤ n → DupInv sim thr n m
      ((List.range m).foldl (dupOuter sim thr n) ([], [])).1
      ((List.range m).foldl (dupOuter sim thr n) ([], [])).2 := by
    intro m
    induction m with
    | zero => exact fun _ => dupInv_init sim thr n
    | succ m ih =>
      intro hm
      rw [List.range_succ, List.foldl_append]
      exact dupInv_step sim thr n m (by omega) _ _ (ih (by omega))
  exact ⟨_, key n le_rfl⟩

end Valori
