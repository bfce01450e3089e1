import Verif.Lemmas.Chunking

/-!
# Lemmas about splitting, semantic chunks, windows and docling chunks
-/

namespace Valori
open Spec

/-! ## split -/

theorem splitGo_ne_nil (sep : Text) (skip : Nat) (acc t : Text) : splitGo sep skip acc t ≠ [] := by
  induction t generalizing skip acc with
  | nil => cases skip <;> simp [splitGo]
  | cons c cs ih =>
    cases skip with
    | zero =>
      unfold splitGo
      split_ifs
      · simp
      · exact ih _ _
    | succ n => unfold splitGo; exact ih _ _

theorem intercalate_cons {α : Type} (sep x : List α) (l : List (List α)) (h : l ≠ []) :
    sep.intercalate (x :: l) = x ++ sep ++ sep.intercalate l := by
  cases l with
  | nil => exact absurd rfl h
  | cons y l => simp [List.intercalate, List.intersperse]

theorem splitGo_join (sep : Text) (hs : sep ≠ []) (skip : Nat) (acc t : Text) :
    sep.intercalate (splitGo sep skip acc t) = acc.reverse ++ t.drop skip := by
  induction t generalizing skip acc with
  | nil => cases skip <;> simp [splitGo, List.intercalate]
  | cons c cs ih =>
    cases skip with
    | zero =>
      unfold splitGo
      split_ifs with h
      · rw [intercalate_cons _ _ _ (splitGo_ne_nil _ _ _ _), ih]
        rw [List.isPrefixOf_iff_prefix] at h
        obtain ⟨r, hr⟩ := h
        obtain ⟨a, l, rfl⟩ := List.exists_cons_of_ne_nil hs
        simp only [List.cons_append, List.cons.injEq] at hr
        obtain ⟨rfl, rfl⟩ := hr
        simp
      · rw [ih]; simp
    | succ n => unfold splitGo; rw [ih]; simp

theorem splitOnText_join (sep t : Text) (hs : sep ≠ []) :
    sep.intercalate (splitOnText sep t) = t := by
  unfold splitOnText; rw [splitGo_join sep hs]; simp

theorem splitGo_free (sep : Text) (hs : sep ≠ []) (skip : Nat) (acc t : Text)
    (hacc : ∀ j, j < acc.length → ¬ sep <+: (acc.reverse.drop j ++ t.drop skip)) :
    ∀ p ∈ splitGo sep skip acc t, ¬ sep <:+: p := by
  have fin : ∀ (a r : Text), (∀ j, j < a.length → ¬ sep <+: (a.drop j ++ r)) → ¬ sep <:+: a := by
    intro a r h hi
    obtain ⟨l, r', hl⟩ := hi
    have hll : l.length < a.length := by
      rw [← hl]
      have := List.length_pos_iff.2 hs
      simp; omega
    apply h l.length hll
    rw [← hl]
    refine ⟨r' ++ r, ?_⟩
    simp
  induction t generalizing skip acc with
  | nil =>
    intro p hp
    have : p = acc.reverse := by cases skip <;> simpa [splitGo] using hp
    subst this
    apply fin acc.reverse []
    intro j hj
    simpa using hacc j (by simpa using hj)
  | cons c cs ih =>
    cases skip with
    | zero =>
      intro p hp
      unfold splitGo at hp
      split_ifs at hp with h
      · rcases List.mem_cons.1 hp with rfl | hp
        · apply fin acc.reverse (c :: cs)
          intro j hj
          simpa using hacc j (by simpa using hj)
        · exact ih _ [] (by simp) p hp
      · refine ih 0 (c :: acc) ?_ p hp
        intro j hj
        simp only [List.length_cons] at hj
        simp only [List.reverse_cons, List.drop_zero]
        by_cases hja : j < acc.length
        · have := hacc j hja
          rw [List.drop_append_of_le_length (by simp; omega), List.append_assoc]
          simpa using this
        · obtain rfl : j = acc.length := by omega
          have e : (acc.reverse ++ [c]).drop acc.length = [c] := by
            rw [List.drop_append_of_le_length (by simp)]
            simp
          rw [e]
          intro hp'
          exact h (List.isPrefixOf_iff_prefix.2 hp')
    | succ n =>
      intro p hp
      unfold splitGo at hp
      exact ih n acc (by simpa using hacc) p hp

/-! ## Infixes and strip -/

/-- First and last character are not white space. -/
def Tight (x : Text) : Prop :=
  (∀ c, x.head? = some c → isSpace c = false) ∧ ∀ c, x.getLast? = some c → isSpace c = false

theorem strip_tight (t : Text) : Tight (strip t) := by
  obtain ⟨a, b, -, -, -, h1, h2⟩ := strip_isTrim t
  exact ⟨h1, h2⟩

theorem infix_dropWhile (x u : Text) (h : x <:+: u)
    (hx : ∀ c, x.head? = some c → isSpace c = false) : x <:+: u.dropWhile isSpace := by
  induction u with
  | nil => simpa using h
  | cons c u ih =>
    by_cases hc : isSpace c = true
    · rw [List.dropWhile_cons_of_pos hc]
      rcases List.infix_cons_iff.1 h with h | h
      · cases x with
        | nil => exact List.nil_infix
        | cons a x =>
          rw [List.cons_prefix_cons] at h
          have := hx a rfl
          rw [h.1, hc] at this
          simp at this
      · exact ih h
    · rw [List.dropWhile_cons_of_neg hc]; exact h

theorem infix_strip (x u : Text) (h : x <:+: u) (hx : Tight x) : x <:+: strip u := by
  unfold strip
  rw [← List.reverse_infix, List.reverse_reverse]
  apply infix_dropWhile
  · rw [List.reverse_infix]
    exact infix_dropWhile x u h hx.1
  · intro c hc
    rw [List.head?_reverse] at hc
    exact hx.2 c hc

theorem strip_length (t : Text) : (strip t).length ≤ t.length := by
  obtain ⟨a, b, h, -⟩ := strip_isTrim t
  have := congrArg List.length h
  simp at this
  omega

theorem strip_infix (t : Text) : strip t <:+: t := by
  obtain ⟨a, b, h, -⟩ := strip_isTrim t
  exact ⟨a, b, h.symm⟩

theorem strip_ne_nil (x u : Text) (h : x <:+: u) (hx : Tight x) (hne : x ≠ []) : strip u ≠ [] := by
  intro hs
  have := infix_strip x u h hx
  rw [hs, List.infix_nil] at this
  exact hne this

/-! ## HeldIn -/

theorem heldIn_append (ps O : List Text) (x : Text) (h : HeldIn ps O) : HeldIn ps (O ++ [x]) := by
  induction h with
  | nil cs => exact HeldIn.nil _
  | here hp _ ih => exact HeldIn.here hp ih
  | skip _ ih => exact HeldIn.skip ih

theorem heldIn_last (D : List Text) (y p : Text) (hp : p <:+: y) : HeldIn [p] (D ++ [y]) := by
  induction D with
  | nil => exact HeldIn.here hp (HeldIn.nil _)
  | cons d D ih => exact HeldIn.skip ih

theorem heldIn_snoc (ps O : List Text) (h : HeldIn ps O) (D : List Text) (y p : Text)
    (hO : O = D ++ [y]) (hp : p <:+: y) : HeldIn (ps ++ [p]) O := by
  induction h generalizing D with
  | nil cs => rw [hO]; exact heldIn_last D y p hp
  | here hp' _ ih => exact HeldIn.here hp' (ih D hO)
  | skip h' ih =>
    rename_i ps c cs
    cases D with
    | nil =>
      simp only [List.nil_append, List.cons.injEq] at hO
      obtain ⟨rfl, rfl⟩ := hO
      cases h' with
      | nil => exact HeldIn.here hp (HeldIn.nil _)
    | cons d D =>
      simp only [List.cons_append, List.cons.injEq] at hO
      exact HeldIn.skip (ih D hO.2)

theorem heldIn_grow (ps : List Text) (D : List Text) (y y' : Text) (O : List Text)
    (hO : O = D ++ [y]) (h : HeldIn ps O) (hy : y <:+: y') : HeldIn ps (D ++ [y']) := by
  induction h generalizing D with
  | nil cs => exact HeldIn.nil _
  | here hp _ ih =>
    rename_i p ps c cs
    cases D with
    | nil =>
      simp only [List.nil_append, List.cons.injEq] at hO
      obtain ⟨rfl, rfl⟩ := hO
      exact HeldIn.here (hp.trans hy) (ih [] rfl)
    | cons d D =>
      simp only [List.cons_append, List.cons.injEq] at hO
      obtain ⟨rfl, rfl⟩ := hO
      exact HeldIn.here hp (ih (_ :: D) rfl)
  | skip h' ih =>
    rename_i ps c cs
    cases D with
    | nil =>
      simp only [List.nil_append, List.cons.injEq] at hO
      obtain ⟨rfl, rfl⟩ := hO
      cases h' with
      | nil => exact HeldIn.nil _
    | cons d D =>
      simp only [List.cons_append, List.cons.injEq] at hO
      exact HeldIn.skip (ih D hO.2)

/-! ## Semantic chunks -/

/-- The non-blank paragraphs, stripped. -/
def paras (l : List Text) : List Text := (l.map strip).filter (· ≠ [])

/-- What the texts would be if the text ended here. -/
def semTexts (st : SemSt) : List Text :=
  st.done.map (fun c => c.text) ++ if st.cur = [] then [] else [strip st.cur]

/-- The loop invariant: everything so far is held, and nothing is blank. -/
structure SemInv (ps : List Text) (st : SemSt) : Prop where
  held : HeldIn ps (semTexts st)
  tight : st.cur ≠ [] → ∃ p, p <:+: st.cur ∧ Tight p ∧ p ≠ []
  ids : st.done.map (fun c => c.id) = List.range st.done.length
  nonblank : ∀ c ∈ st.done, c.text ≠ [] ∧ Tight c.text

theorem paras_snoc (l : List Text) (p : Text) :
    paras (l ++ [p]) = paras l ++ if strip p = [] then [] else [strip p] := by
  unfold paras
  rw [List.map_append, List.filter_append]
  split_ifs with h <;> simp [h]

theorem ids_snoc (done : List Chunk) (t : Text) (s : Int)
    (h : done.map (fun c => c.id) = List.range done.length) :
    (done ++ [semChunk done.length t s]).map (fun c => c.id) =
      List.range (done ++ [semChunk done.length t s]).length := by
  rw [List.map_append, h]
  simp [semChunk, List.range_succ]

theorem semStep_inv (c : ChunkCfg) (l : List Text) (p : Text) (st : SemSt)
    (h : SemInv (paras l) st) : SemInv (paras (l ++ [p])) (semStep c st p) := by
  rw [paras_snoc]
  unfold semStep
  simp only
  by_cases hp : strip p = []
  · rw [if_pos hp, if_pos hp, List.append_nil]; exact h
  rw [if_neg hp, if_neg hp]
  have htp := strip_tight p
  by_cases hcur : st.cur = []
  · have hO : semTexts st = st.done.map (fun c => c.text) := by simp [semTexts, hcur]
    rw [if_neg (by simp [hcur]), if_neg (by simp [hcur])]
    refine ⟨?_, fun _ => ⟨strip p, List.infix_rfl, htp, hp⟩, h.ids, h.nonblank⟩
    have h1 := heldIn_append _ _ (strip (strip p)) (hO ▸ h.held)
    have h2 := heldIn_snoc _ _ h1 _ _ (strip p) rfl (infix_strip _ _ List.infix_rfl htp)
    simpa [semTexts, hp] using h2
  · have hO : semTexts st = st.done.map (fun c => c.text) ++ [strip st.cur] := by
      simp [semTexts, hcur]
    obtain ⟨q, q1, q2, q3⟩ := h.tight hcur
    by_cases hbig : (st.cur.length : Int) + (strip p).length > c.chunkSize
    · rw [if_pos ⟨hcur, hbig⟩]
      set ov := if (st.cur.length : Int) > c.chunkOverlap then sliceFrom st.cur (-c.chunkOverlap)
        else [] with hov
      have hin : strip p <:+: ov ++ strip p := ⟨ov, [], by simp⟩
      refine ⟨?_, fun _ => ⟨strip p, hin, htp, hp⟩, ids_snoc _ _ _ h.ids, ?_⟩
      · have h1 := heldIn_append _ _ (strip (ov ++ strip p)) (hO ▸ h.held)
        have h2 := heldIn_snoc _ _ h1 _ _ (strip p) rfl (infix_strip _ _ hin htp)
        have hne : ov ++ strip p ≠ [] := by simp [hp]
        simpa [semTexts, hp, semChunk] using h2
      · intro ch hch
        rcases List.mem_append.1 hch with hch | hch
        · exact h.nonblank ch hch
        · rw [List.mem_singleton.1 hch]
          exact ⟨strip_ne_nil q _ q1 q2 q3, strip_tight _⟩
    · rw [if_neg (by simp [hbig]), if_pos hcur]
      have hin : strip p <:+: st.cur ++ nl2 ++ strip p := ⟨st.cur ++ nl2, [], by simp⟩
      have hin2 : st.cur <:+: st.cur ++ nl2 ++ strip p := ⟨[], nl2 ++ strip p, by simp⟩
      refine ⟨?_, fun _ => ⟨strip p, hin, htp, hp⟩, h.ids, h.nonblank⟩
      have h1 := heldIn_grow _ _ _ (strip (st.cur ++ nl2 ++ strip p)) _ hO h.held
        (infix_strip _ _ ((strip_infix _).trans hin2) (strip_tight _))
      have h2 := heldIn_snoc _ _ h1 _ _ (strip p) rfl (infix_strip _ _ hin htp)
      simpa [semTexts, hp, nl2] using h2

theorem semFold_inv (c : ChunkCfg) (l pre : List Text) (st : SemSt) (h : SemInv (paras pre) st) :
    SemInv (paras (pre ++ l)) (l.foldl (semStep c) st) := by
  induction l generalizing pre st with
  | nil => simpa using h
  | cons p l ih =>
    have := ih (pre ++ [p]) _ (semStep_inv c pre p st h)
    simpa using this

theorem semantic_spec (c : ChunkCfg) (text : Text) :
    HeldIn (paras (splitOnText nl2 text)) ((semantic c text).map fun ch => ch.text) ∧
    (semantic c text).map (fun ch => ch.id) = List.range (semantic c text).length ∧
    ∀ ch ∈ semantic c text, ch.text ≠ [] ∧ Tight ch.text := by
  have h := semFold_inv c (splitOnText nl2 text) [] ⟨[], [], 0⟩
    ⟨HeldIn.nil _, by simp, rfl, by simp⟩
  rw [List.nil_append] at h
  unfold semantic
  simp only
  set st := (splitOnText nl2 text).foldl (semStep c) ⟨[], [], 0⟩
  by_cases hcur : st.cur = []
  · rw [if_neg (by simp [hcur])]
    refine ⟨?_, h.ids, h.nonblank⟩
    simpa [semTexts, hcur] using h.held
  · rw [if_pos hcur]
    refine ⟨?_, ids_snoc _ _ _ h.ids, ?_⟩
    · simpa [semTexts, hcur, semChunk] using h.held
    · intro ch hch
      obtain ⟨q, q1, q2, q3⟩ := h.tight hcur
      rcases List.mem_append.1 hch with hch | hch
      · exact h.nonblank ch hch
      · rw [List.mem_singleton.1 hch]
        exact ⟨strip_ne_nil q _ q1 q2 q3, strip_tight _⟩

/-- The size of a chunk: within the limit and a separator, or an overlap and one paragraph. -/
def SizeOk (c : ChunkCfg) (ps : List Text) (t : Text) : Prop :=
  (t.length : Int) ≤ c.chunkSize + 2 ∨
    ∃ p ∈ ps, p <:+: t ∧ (t.length : Int) ≤ c.chunkOverlap + p.length

theorem sliceFrom_neg_length (t : Text) (k : Int) (hk : 0 < k) (h : k < t.length) :
    ((sliceFrom t (-k)).length : Int) = k := by
  unfold sliceFrom
  rw [if_neg (by omega), List.length_drop]
  omega

theorem sizeOk_strip (c : ChunkCfg) (ps : List Text) (hps : ∀ p ∈ ps, Tight p) (t : Text)
    (h : SizeOk c ps t) : SizeOk c ps (strip t) := by
  have := strip_length t
  rcases h with h | ⟨p, h1, h2, h3⟩
  · left; omega
  · exact Or.inr ⟨p, h1, infix_strip _ _ h2 (hps p h1), by omega⟩

theorem sizeOk_mono (c : ChunkCfg) (ps qs : List Text) (hs : ps ⊆ qs) (t : Text)
    (h : SizeOk c ps t) : SizeOk c qs t := by
  rcases h with h | ⟨p, h1, h2⟩
  · exact Or.inl h
  · exact Or.inr ⟨p, hs h1, h2⟩

theorem paras_tight (l : List Text) : ∀ p ∈ paras l, Tight p := by
  intro p hp
  obtain ⟨q, -, rfl⟩ := List.mem_map.1 (List.mem_filter.1 hp).1
  exact strip_tight q

theorem semStep_size (c : ChunkCfg) (ho : 0 < c.chunkOverlap) (l : List Text) (p : Text) (st : SemSt)
    (h1 : st.cur ≠ [] → SizeOk c (paras l) st.cur)
    (h2 : ∀ ch ∈ st.done, SizeOk c (paras l) ch.text) :
    ((semStep c st p).cur ≠ [] → SizeOk c (paras (l ++ [p])) (semStep c st p).cur) ∧
    ∀ ch ∈ (semStep c st p).done, SizeOk c (paras (l ++ [p])) ch.text := by
  have hsub : paras l ⊆ paras (l ++ [p]) := by
    rw [paras_snoc]; exact List.subset_append_left _ _
  have h1' : st.cur ≠ [] → SizeOk c (paras (l ++ [p])) st.cur :=
    fun h => sizeOk_mono c _ _ hsub _ (h1 h)
  have h2' : ∀ ch ∈ st.done, SizeOk c (paras (l ++ [p])) ch.text :=
    fun ch h => sizeOk_mono c _ _ hsub _ (h2 ch h)
  unfold semStep
  simp only
  by_cases hp : strip p = []
  · rw [if_pos hp]; exact ⟨h1', h2'⟩
  rw [if_neg hp]
  have hmem : strip p ∈ paras (l ++ [p]) := by rw [paras_snoc, if_neg hp]; simp
  split_ifs with g1 g2 g3
  · refine ⟨fun _ => Or.inr ⟨strip p, hmem, ⟨_, [], by simp; rfl⟩, ?_⟩, ?_⟩
    · have := sliceFrom_neg_length st.cur _ ho g2
      simp only [List.length_append]
      omega
    · intro ch hch
      rcases List.mem_append.1 hch with hch | hch
      · exact h2' ch hch
      · rw [List.mem_singleton.1 hch]
        exact sizeOk_strip c _ (paras_tight _) _ (h1' g1.1)
  · refine ⟨fun _ => Or.inr ⟨strip p, hmem, ⟨_, [], by simp; rfl⟩, ?_⟩, ?_⟩
    · simp; omega
    · intro ch hch
      rcases List.mem_append.1 hch with hch | hch
      · exact h2' ch hch
      · rw [List.mem_singleton.1 hch]
        exact sizeOk_strip c _ (paras_tight _) _ (h1' g1.1)
  · refine ⟨fun _ => Or.inl ?_, h2'⟩
    have : ¬ (st.cur.length : Int) + (strip p).length > c.chunkSize := fun h => g1 ⟨g3, h⟩
    simp only [nl2, List.length_append, List.length_cons, List.length_nil]
    push_cast
    omega
  · exact ⟨fun _ => Or.inr ⟨strip p, hmem, List.infix_rfl, by simp only; omega⟩, h2'⟩

theorem semFold_size (c : ChunkCfg) (ho : 0 < c.chunkOverlap) (l pre : List Text) (st : SemSt)
    (h1 : st.cur ≠ [] → SizeOk c (paras pre) st.cur)
    (h2 : ∀ ch ∈ st.done, SizeOk c (paras pre) ch.text) :
    ((l.foldl (semStep c) st).cur ≠ [] → SizeOk c (paras (pre ++ l)) (l.foldl (semStep c) st).cur) ∧
    ∀ ch ∈ (l.foldl (semStep c) st).done, SizeOk c (paras (pre ++ l)) ch.text := by
  induction l generalizing pre st with
  | nil => simpa using ⟨h1, h2⟩
  | cons p l ih =>
    obtain ⟨g1, g2⟩ := semStep_size c ho pre p st h1 h2
    have := ih (pre ++ [p]) _ g1 g2
    simpa using this

theorem semantic_size (c : ChunkCfg) (ho : 0 < c.chunkOverlap) (text : Text) :
    ∀ ch ∈ semantic c text, SizeOk c (paras (splitOnText nl2 text)) ch.text := by
  obtain ⟨h1, h2⟩ := semFold_size c ho (splitOnText nl2 text) [] ⟨[], [], 0⟩ (by simp) (by simp)
  rw [List.nil_append] at h1 h2
  unfold semantic
  simp only
  intro ch hch
  split_ifs at hch with hcur
  · rcases List.mem_append.1 hch with hch | hch
    · exact h2 ch hch
    · rw [List.mem_singleton.1 hch]
      exact sizeOk_strip c _ (paras_tight _) _ (h1 hcur)
  · exact h2 ch hch

/-! ## Windows -/

theorem mem_rangeStep (n step i : Nat) (hs : 0 < step) :
    i ∈ rangeStep n step ↔ i < n ∧ ∃ m, i = m * step := by
  unfold rangeStep
  simp only [List.mem_map, List.mem_range]
  constructor
  · rintro ⟨m, hm, rfl⟩
    refine ⟨?_, m, rfl⟩
    rw [Nat.lt_div_iff_mul_lt hs] at hm
    omega
  · rintro ⟨h, m, rfl⟩
    refine ⟨m, ?_, rfl⟩
    rw [Nat.lt_div_iff_mul_lt hs]
    omega

theorem rangeStep_sorted (n step : Nat) (hs : 0 < step) :
    (rangeStep n step).Pairwise (· < ·) := by
  unfold rangeStep
  rw [List.pairwise_map]
  exact List.pairwise_lt_range.imp fun h => Nat.mul_lt_mul_of_pos_right h hs

/-- The chunk of the window that starts at `i`. -/
def windowText (c : ChunkCfg) (text : Text) (i : Nat) : Text :=
  strip (sub text i (firstEnd text c.chunkSize i))

theorem windows_spec (c : ChunkCfg) (text : Text) (l : List Nat) (hl : l.Pairwise (· < ·))
    (chunks : List Chunk) (hids : chunks.map (fun c => c.id) = List.range chunks.length)
    (hord : chunks.Pairwise fun p q => p.startPos < q.startPos)
    (hbelow : ∀ p ∈ chunks, ∀ i ∈ l, p.startPos < (i : Int)) :
    let r := l.foldl (windowStep c text) chunks
    r.map (fun c => c.id) = List.range r.length ∧
    r.Pairwise (fun p q => p.startPos < q.startPos) ∧
    ∀ ch : Chunk, ch ∈ r ↔ ch ∈ chunks ∨ ∃ i ∈ l, ch.startPos = i ∧
      ch.endPos = firstEnd text c.chunkSize i ∧ ch.text = windowText c text i ∧ ch.page = none ∧
      c.minChunkSize ≤ (ch.text.length : Int) ∧ ch ∈ r := by
  induction l generalizing chunks with
  | nil => simpa using ⟨hids, hord⟩
  | cons i l ih =>
    rw [List.pairwise_cons] at hl
    simp only [List.foldl_cons]
    by_cases hw : c.minChunkSize ≤ ((windowText c text i).length : Int)
    · have hstep : windowStep c text chunks i =
          chunks ++ [⟨chunks.length, windowText c text i, i, firstEnd text c.chunkSize i, none⟩] := by
        unfold windowStep; exact if_pos hw
      rw [hstep]
      obtain ⟨g1, g2, g3⟩ := ih hl.2
        (chunks ++ [⟨chunks.length, windowText c text i, i, firstEnd text c.chunkSize i, none⟩])
        (by rw [List.map_append, hids]; simp [List.range_succ])
        (by
          rw [List.pairwise_append]
          refine ⟨hord, by simp, ?_⟩
          intro p hp q hq
          rw [List.mem_singleton.1 hq]
          exact hbelow p hp i (by simp))
        (by
          intro p hp j hj
          rcases List.mem_append.1 hp with hp | hp
          · exact hbelow p hp j (by simp [hj])
          · rw [List.mem_singleton.1 hp]
            simp only
            exact_mod_cast hl.1 j hj)
      refine ⟨g1, g2, fun ch => ⟨?_, ?_⟩⟩
      · intro hch
        rcases (g3 ch).1 hch with h | ⟨j, hj, h⟩
        · rcases List.mem_append.1 h with h | h
          · exact Or.inl h
          · right
            refine ⟨i, by simp, ?_⟩
            have e := List.mem_singleton.1 h
            rw [e] at hch ⊢
            exact ⟨rfl, rfl, rfl, rfl, hw, hch⟩
        · exact Or.inr ⟨j, by simp [hj], h⟩
      · rintro (h | ⟨j, -, -, -, -, -, -, h⟩)
        · exact (g3 ch).2 (Or.inl (by simp [h]))
        · exact h
    · have hstep : windowStep c text chunks i = chunks := by
        unfold windowStep; exact if_neg hw
      rw [hstep]
      obtain ⟨g1, g2, g3⟩ := ih hl.2 chunks hids hord
        fun p hp j hj => hbelow p hp j (by simp [hj])
      refine ⟨g1, g2, fun ch => ⟨?_, ?_⟩⟩
      · intro hch
        rcases (g3 ch).1 hch with h | ⟨j, hj, h⟩
        · exact Or.inl h
        · exact Or.inr ⟨j, by simp [hj], h⟩
      · rintro (h | ⟨j, -, -, -, -, -, -, h⟩)
        · exact (g3 ch).2 (Or.inl h)
        · exact h

theorem windows_keep (c : ChunkCfg) (text : Text) (l : List Nat) (chunks : List Chunk) :
    chunks ⊆ l.foldl (windowStep c text) chunks := by
  induction l generalizing chunks with
  | nil => exact fun _ h => h
  | cons i l ih =>
    intro x hx
    refine ih _ ?_
    unfold windowStep
    simp only
    split_ifs
    · exact List.mem_append_left _ hx
    · exact hx

theorem windows_complete (c : ChunkCfg) (text : Text) (l : List Nat) (chunks : List Chunk) (i : Nat)
    (hi : i ∈ l) (hw : c.minChunkSize ≤ ((windowText c text i).length : Int)) :
    ∃ ch ∈ l.foldl (windowStep c text) chunks, ch.startPos = i := by
  induction l generalizing chunks with
  | nil => simp at hi
  | cons j l ih =>
    rcases List.mem_cons.1 hi with rfl | hi
    · have hstep : windowStep c text chunks i =
          chunks ++ [⟨chunks.length, windowText c text i, i, firstEnd text c.chunkSize i, none⟩] := by
        unfold windowStep; exact if_pos hw
      simp only [List.foldl_cons]
      rw [hstep]
      exact ⟨_, windows_keep _ _ _ _ (List.mem_append_right _ (List.mem_singleton_self _)), rfl⟩
    · exact ih _ hi

/-! ## Docling -/

/-- A group of elements as the loop joins them. -/
def gather (g : List Text) : Text := (g.map (· ++ ['\n'])).flatten

/-- The finished groups of elements, and the one still open. -/
def doclingGroups (chunkSize : Int) : Text → List Text → List Text → List (List Text) × List Text
  | _, open_, [] => ([], open_)
  | cur, open_, e :: es =>
    let cur' := cur ++ (e ++ ['\n'])
    if chunkSize ≤ (cur'.length : Int) then
      let r := doclingGroups chunkSize [] [] es
      ((open_ ++ [e]) :: r.1, r.2)
    else doclingGroups chunkSize cur' (open_ ++ [e]) es

theorem gather_snoc (g : List Text) (e : Text) : gather (g ++ [e]) = gather g ++ (e ++ ['\n']) := by
  simp [gather]

theorem doclingGo_groups (chunkSize : Int) (es g : List Text) (i id : Nat) :
    let r := doclingGo chunkSize i id (gather g) es
    let s := doclingGroups chunkSize (gather g) g es
    r.1.map (fun c => c.text) = s.1.map (fun x => strip (gather x)) ∧
    r.1.map (fun c => c.id) = (List.range r.1.length).map (id + ·) ∧
    r.2.1 = id + r.1.length ∧ r.2.2 = gather s.2 ∧
    s.1.flatten ++ s.2 = g ++ es ∧ (∀ x ∈ s.1, x ≠ []) := by
  induction es generalizing g i id with
  | nil => simp [doclingGo, doclingGroups]
  | cons e es ih =>
    simp only
    unfold doclingGo doclingGroups
    simp only
    rw [← gather_snoc]
    split_ifs with h
    · obtain ⟨h1, h2, h3, h4, h5, h6⟩ := ih [] (i + 1) (id + 1)
      have e0 : gather [] = [] := rfl
      rw [e0] at h1 h2 h3 h4 h5 h6
      refine ⟨by simp [h1], ?_, by simp [h3]; omega, h4, by simp [h5], ?_⟩
      · simp only [List.map_cons, List.length_cons, List.range_succ_eq_map, List.map_map, h2]
        simp only [Nat.add_zero, List.cons.injEq, true_and]
        apply List.map_congr_left
        intro a _
        simp only [Function.comp]
        omega
      · intro x hx
        rcases List.mem_cons.1 hx with rfl | hx
        · simp
        · exact h6 x hx
    · have := ih (g ++ [e]) (i + 1) id
      simpa using this

theorem dropWhile_head (x : Text) (hx : ∀ c, x.head? = some c → isSpace c = false) :
    x.dropWhile isSpace = x := by
  cases x with
  | nil => rfl
  | cons a x =>
    have := hx a rfl
    exact List.dropWhile_cons_of_neg (by simp [this])

theorem strip_newline (x : Text) (hx : Tight x) (hne : x ≠ []) : strip (x ++ ['\n']) = x := by
  unfold strip
  rw [dropWhile_head (x ++ ['\n']) (by
    intro c hc
    apply hx.1
    cases x with
    | nil => exact absurd rfl hne
    | cons a x => simpa using hc)]
  rw [List.reverse_append]
  have : isSpace '\n' = true := by decide
  simp only [List.reverse_cons, List.reverse_nil, List.nil_append, List.singleton_append]
  rw [List.dropWhile_cons_of_pos this, dropWhile_head _ (by
    intro c hc
    rw [List.head?_reverse] at hc
    exact hx.2 c hc), List.reverse_reverse]

theorem gather_eq (g : List Text) (hg : g ≠ []) :
    gather g = ['\n'].intercalate g ++ ['\n'] := by
  induction g with
  | nil => exact absurd rfl hg
  | cons e g ih =>
    cases g with
    | nil => simp [gather, List.intercalate]
    | cons e' g =>
      rw [intercalate_cons _ _ _ (by simp)]
      have := ih (by simp)
      unfold gather at this ⊢
      rw [List.map_cons, List.flatten_cons, this]
      simp

theorem head?_append_of_ne {α : Type} (a b : List α) (h : a ≠ []) : (a ++ b).head? = a.head? := by
  cases a with
  | nil => exact absurd rfl h
  | cons x a => rfl

theorem intercalate_tight (sep : Text) (g : List Text) (hg : g ≠ [])
    (h : ∀ e ∈ g, Tight e ∧ e ≠ []) : Tight (sep.intercalate g) ∧ sep.intercalate g ≠ [] := by
  induction g with
  | nil => exact absurd rfl hg
  | cons e g ih =>
    obtain ⟨he, hne⟩ := h e (by simp)
    cases hgn : g with
    | nil => simpa [List.intercalate] using ⟨he, hne⟩
    | cons e' g' =>
      rw [← hgn]
      have hgne : g ≠ [] := by rw [hgn]; simp
      obtain ⟨i1, i2⟩ := ih hgne fun x hx => h x (by simp [hx])
      rw [intercalate_cons _ _ _ hgne]
      refine ⟨⟨?_, ?_⟩, by simp [hne]⟩
      · intro c hc
        rw [List.append_assoc, head?_append_of_ne _ _ hne] at hc
        exact he.1 c hc
      · intro c hc
        rw [List.getLast?_append_of_ne_nil _ i2] at hc
        exact i1.2 c hc

theorem strip_gather (g : List Text) (hg : g ≠ []) (h : ∀ e ∈ g, Tight e ∧ e ≠ []) :
    strip (gather g) = ['\n'].intercalate g := by
  obtain ⟨h1, h2⟩ := intercalate_tight ['\n'] g hg h
  rw [gather_eq g hg, strip_newline _ h1 h2]

theorem intercalate_append (sep : Text) (a b : List Text) (ha : a ≠ []) (hb : b ≠ []) :
    sep.intercalate (a ++ b) = sep.intercalate a ++ sep ++ sep.intercalate b := by
  induction a with
  | nil => exact absurd rfl ha
  | cons x a ih =>
    cases a with
    | nil =>
      rw [List.singleton_append, intercalate_cons _ _ _ hb]
      simp [List.intercalate]
    | cons y a =>
      rw [List.cons_append, intercalate_cons _ _ _ (by simp), ih (by simp),
        intercalate_cons _ x _ (by simp)]
      simp

theorem intercalate_groups (sep : Text) (gs : List (List Text)) (h : ∀ g ∈ gs, g ≠ []) :
    sep.intercalate (gs.map sep.intercalate) = sep.intercalate gs.flatten := by
  induction gs with
  | nil => rfl
  | cons g gs ih =>
    have ih' := ih fun x hx => h x (by simp [hx])
    cases hgs : gs with
    | nil => simp [List.intercalate]
    | cons g' gs' =>
      rw [← hgs]
      have hne : gs.map sep.intercalate ≠ [] := by rw [hgs]; simp
      have hfl : gs.flatten ≠ [] := by
        rw [hgs]
        have := h g' (by simp [hgs])
        simp [this]
      rw [List.map_cons, intercalate_cons _ _ _ hne, ih', List.flatten_cons,
        intercalate_append _ _ _ (h g (by simp)) hfl]

/-- The docling chunks, as groups of elements. -/
theorem doclingChunks_groups (chunkSize : Int) (elements : List Text) :
    ∃ (gs : List (List Text)) (rest : List Text), gs.flatten ++ rest = elements ∧ (∀ g ∈ gs, g ≠ []) ∧
      (strip (gather rest) = [] →
        (doclingChunks chunkSize elements).map (fun c => c.text) =
          gs.map fun g => strip (gather g)) ∧
      (strip (gather rest) ≠ [] →
        (doclingChunks chunkSize elements).map (fun c => c.text) =
          (gs ++ [rest]).map fun g => strip (gather g)) ∧
      (doclingChunks chunkSize elements).map (fun c => c.id) =
        List.range (doclingChunks chunkSize elements).length := by
  obtain ⟨h1, h2, h3, h4, h5, h6⟩ := doclingGo_groups chunkSize elements [] 0 0
  have e0 : gather [] = [] := rfl
  rw [e0] at h1 h2 h3 h4 h5 h6
  refine ⟨_, _, by simpa using h5, h6, ?_, ?_, ?_⟩
  · intro hr
    unfold doclingChunks
    simp only
    rw [if_pos (by rw [h4]; exact hr), h1]
  · intro hr
    unfold doclingChunks
    simp only
    rw [if_neg (by rw [h4]; exact hr), List.map_append, h1, h4]
    simp
  · unfold doclingChunks
    simp only
    split_ifs with hr
    · rw [h2]; simp
    · rw [List.map_append, h2, List.length_append, h3]
      simp [List.range_succ]

/-- Number of the last element of every group, counting from `i`. -/
def groupEnds : Nat → List (List Text) → List Int
  | _, [] => []
  | i, g :: gs => (((i + g.length : Nat) : Int) - 1) :: groupEnds (i + g.length) gs

theorem groupEnds_append (i : Nat) (gs : List (List Text)) (g : List Text) :
    groupEnds i (gs ++ [g]) =
      groupEnds i gs ++ [((i + gs.flatten.length + g.length : Nat) : Int) - 1] := by
  induction gs generalizing i with
  | nil => simp [groupEnds]
  | cons x gs ih =>
    simp only [List.cons_append, groupEnds, ih, List.flatten_cons, List.length_append]
    rw [Nat.add_assoc i x.length]

theorem doclingGo_ends (chunkSize : Int) (es g : List Text) (base id : Nat) :
    (doclingGo chunkSize (base + g.length) id (gather g) es).1.map (fun c => c.endElement) =
      groupEnds base (doclingGroups chunkSize (gather g) g es).1 := by
  induction es generalizing g base id with
  | nil => simp [doclingGo, doclingGroups, groupEnds]
  | cons e es ih =>
    unfold doclingGo doclingGroups
    simp only
    rw [← gather_snoc]
    split_ifs with h
    · have := ih [] (base + g.length + 1) (id + 1)
      have e0 : gather [] = [] := rfl
      rw [e0] at this
      simp only [List.length_nil, Nat.add_zero] at this
      simp only [List.map_cons, groupEnds, List.length_append, List.length_cons, List.length_nil,
        this, Nat.zero_add, ← Nat.add_assoc]
      congr 1
      push_cast
      omega
    · have := ih (g ++ [e]) base id
      simpa [Nat.add_assoc] using this

theorem doclingChunks_ends (chunkSize : Int) (elements : List Text) :
    ∃ (gs : List (List Text)) (rest : List Text), gs.flatten ++ rest = elements ∧ (∀ g ∈ gs, g ≠ []) ∧
      (strip (gather rest) = [] →
        (doclingChunks chunkSize elements).map (fun c => (c.text, c.endElement)) =
          (gs.map fun g => strip (gather g)).zip (groupEnds 0 gs)) ∧
      (strip (gather rest) ≠ [] →
        (doclingChunks chunkSize elements).map (fun c => (c.text, c.endElement)) =
          ((gs ++ [rest]).map fun g => strip (gather g)).zip (groupEnds 0 (gs ++ [rest]))) := by
  obtain ⟨h1, h2, h3, h4, h5, h6⟩ := doclingGo_groups chunkSize elements [] 0 0
  have h7 := doclingGo_ends chunkSize elements [] 0 0
  have e0 : gather [] = [] := rfl
  rw [e0] at h1 h2 h3 h4 h5 h6 h7
  simp only [List.length_nil, Nat.add_zero] at h7
  have hz : ∀ l : List DocChunk, l.map (fun c => (c.text, c.endElement)) =
      (l.map fun c => c.text).zip (l.map fun c => c.endElement) := by
    intro l; rw [List.zip_map']
  have hlen := congrArg List.length h5
  refine ⟨_, _, by simpa using h5, h6, ?_, ?_⟩
  · intro hr
    unfold doclingChunks
    simp only
    rw [if_pos (by rw [h4]; exact hr), hz, h1, h7]
  · intro hr
    unfold doclingChunks
    simp only
    rw [if_neg (by rw [h4]; exact hr), hz, List.map_append, h1, h4, List.map_append, h7,
      groupEnds_append]
    simp only [List.map_cons, List.map_nil, List.map_append]
    simp only [List.length_append, List.nil_append] at hlen
    congr 3
    omega

/-! ## Pages -/

theorem pageScan_mem (pos cur : Nat) (pages : List (Int × Nat)) (n : Int)
    (h : pageScan pos cur pages = some n) : n ∈ pages.map Prod.fst := by
  induction pages generalizing cur with
  | nil => simp [pageScan] at h
  | cons p pages ih =>
    obtain ⟨num, len⟩ := p
    unfold pageScan at h
    split_ifs at h
    · simp_all
    · simp [ih _ h]

theorem pageFor_mem (pages : List (Int × Nat)) (hp : pages ≠ []) (pos : Nat) :
    pageFor pages pos ∈ pages.map Prod.fst := by
  unfold pageFor
  split
  · rename_i n hn; exact pageScan_mem _ _ _ _ hn
  · rw [List.getLast?_eq_some_getLast hp]
    exact List.mem_map_of_mem (List.getLast_mem hp)

/-- Moving on never leads back to an earlier page. -/
theorem pageScan_mono (p q cur : Nat) (hpq : p ≤ q) (pages : List (Int × Nat))
    (hs : (pages.map Prod.fst).Pairwise (· < ·)) :
    (∀ a b, pageScan p cur pages = some a → pageScan q cur pages = some b → a ≤ b) ∧
    (pageScan p cur pages = none → pageScan q cur pages = none) := by
  induction pages generalizing cur with
  | nil => simp [pageScan]
  | cons x pages ih =>
    obtain ⟨num, len⟩ := x
    rw [List.map_cons, List.pairwise_cons] at hs
    obtain ⟨i1, i2⟩ := ih (cur + len) hs.2
    constructor
    · intro a b ha hb
      unfold pageScan at ha hb
      split_ifs at ha hb with h1 h2
      · simp_all
      · obtain rfl := Option.some.inj ha
        exact le_of_lt (hs.1 b (pageScan_mem _ _ _ _ hb))
      · omega
      · exact i1 a b ha hb
    · intro h
      unfold pageScan at h ⊢
      split_ifs at h with h1
      rw [if_neg (by omega)]
      exact i2 h

theorem getLast_max (pages : List (Int × Nat)) (hs : (pages.map Prod.fst).Pairwise (· < ·))
    (l : Int × Nat) (hl : pages.getLast? = some l) : ∀ n ∈ pages.map Prod.fst, n ≤ l.1 := by
  obtain ⟨ys, rfl⟩ := List.getLast?_eq_some_iff.1 hl
  intro n hn
  rw [List.map_append, List.pairwise_append] at hs
  rw [List.map_append, List.mem_append] at hn
  rcases hn with hn | hn
  · exact le_of_lt (hs.2.2 n hn l.1 (by simp))
  · simp at hn; omega

theorem pageFor_mono (pages : List (Int × Nat)) (hs : (pages.map Prod.fst).Pairwise (· < ·))
    (p q : Nat) (hpq : p ≤ q) : pageFor pages p ≤ pageFor pages q := by
  obtain ⟨h1, h2⟩ := pageScan_mono p q 0 hpq pages hs
  unfold pageFor
  cases hp : pageScan p 0 pages with
  | none => rw [h2 hp]
  | some a =>
    cases hq : pageScan q 0 pages with
    | some b => exact h1 a b hp hq
    | none =>
      simp only
      cases hl : pages.getLast? with
      | none =>
        rw [List.getLast?_eq_none_iff.1 hl] at hp
        simp [pageScan] at hp
      | some l => exact getLast_max pages hs l hl a (pageScan_mem _ _ _ _ hp)

/-- Real start of a page in the joined text. -/
def pageOffset (pre : List (Int × Text)) : Nat := (pre.map fun p => p.2.length + 2).sum

theorem pageScan_skip (pos cur : Nat) (pre : List (Int × Text)) (rest : List (Int × Nat))
    (h : cur + pageOffset pre ≤ pos) :
    ∃ cur', cur' ≤ cur + pageOffset pre ∧
      pageScan pos cur (pdfTable pre ++ rest) = pageScan pos cur' rest := by
  induction pre generalizing cur with
  | nil => exact ⟨cur, by omega, rfl⟩
  | cons p pre ih =>
    have e : pageOffset (p :: pre) = p.2.length + 2 + pageOffset pre := by simp [pageOffset]
    obtain ⟨c', h1, h2⟩ := ih (cur + p.2.length) (by omega)
    refine ⟨c', by omega, ?_⟩
    rw [← h2]
    show pageScan pos cur ((p.1, p.2.length) :: (pdfTable pre ++ rest)) = _
    rw [pageScan, if_neg (by omega)]

theorem pdfPages_mem (ex : List (Option Text)) (n : Int) (t : Text) :
    (n, t) ∈ pdfPages ex ↔ ∃ i : Nat, ex[i]? = some (some t) ∧ strip t ≠ [] ∧ n = i + 1 := by
  unfold pdfPages
  rw [List.mem_filterMap]
  constructor
  · rintro ⟨⟨o, i⟩, hm, h⟩
    rw [List.mem_zipIdx_iff_getElem?] at hm
    cases o with
    | none => simp at h
    | some u =>
      simp only at h hm
      split_ifs at h with hb
      simp only [Option.some.injEq, Prod.mk.injEq] at h
      obtain ⟨rfl, rfl⟩ := h
      exact ⟨i, hm, hb, rfl⟩
  · rintro ⟨i, h1, h2, rfl⟩
    exact ⟨(some t, i), by rw [List.mem_zipIdx_iff_getElem?]; exact h1, by simp [h2]⟩

theorem pdfPages_sorted (ex : List (Option Text)) :
    ((pdfTable (pdfPages ex)).map Prod.fst).Pairwise (· < ·) := by
  unfold pdfTable pdfPages
  rw [List.map_map, List.pairwise_map, List.pairwise_filterMap]
  have hz : ex.zipIdx.Pairwise fun a b => a.2 < b.2 := by
    have : (ex.zipIdx.map Prod.snd).Pairwise (· < ·) := by
      rw [List.zipIdx_map_snd]
      exact List.pairwise_lt_range'
    rwa [List.pairwise_map] at this
  refine hz.imp ?_
  rintro ⟨a, i⟩ ⟨b, j⟩ hij x hx y hy
  cases a with
  | none => simp at hx
  | some a =>
    cases b with
    | none => simp at hy
    | some b =>
      simp only at hx hy hij
      split_ifs at hx hy
      obtain rfl := Option.some.inj hx
      obtain rfl := Option.some.inj hy
      simp only [Function.comp_apply]
      omega

/-- The starting points grow and every chunk carries the page of its start, whatever the cut. -/
theorem spanLoop_page (text : Text) (cut : Nat → Int) (overlap : Int) (page : Nat → Option Int)
    (fuel start id : Nat) (cs : List Chunk)
    (h : spanLoop text cut overlap page fuel start id = some cs) :
    cs.Pairwise (fun p q => p.startPos < q.startPos) ∧
    ∀ c ∈ cs, (start : Int) ≤ c.startPos ∧ c.page = page c.startPos.toNat := by
  induction fuel generalizing start id cs with
  | zero =>
    unfold spanLoop at h
    split_ifs at h with hs
    obtain rfl := Option.some.inj h
    simp
  | succ n ih =>
    unfold spanLoop at h
    split_ifs at h with hs
    · obtain rfl := Option.some.inj h
      simp
    · simp only at h
      split_ifs at h with hb
      · obtain ⟨g1, g2⟩ := ih _ _ _ h
        exact ⟨g1, fun c hc => ⟨by have := (g2 c hc).1; omega, (g2 c hc).2⟩⟩
      · cases hr : spanLoop text cut overlap page n
            (max (cut start - overlap) ((start : Int) + 1)).toNat (id + 1) with
        | none => simp [hr] at h
        | some cs' =>
          simp only [hr, Option.some.injEq] at h
          subst h
          obtain ⟨g1, g2⟩ := ih _ _ _ hr
          refine ⟨?_, ?_⟩
          · rw [List.pairwise_cons]
            refine ⟨fun c hc => ?_, g1⟩
            have := (g2 c hc).1
            simp only
            omega
          · intro c hc
            rcases List.mem_cons.1 hc with rfl | hc
            · simp
            · exact ⟨by have := (g2 c hc).1; omega, (g2 c hc).2⟩

/-- The page really sits at its offset in the joined text. -/
theorem pdfText_at (pre : List (Int × Text)) (num : Int) (t : Text) (post : List (Int × Text)) :
    ((pdfText (pre ++ (num, t) :: post)).drop (pageOffset pre)).take t.length = t := by
  induction pre with
  | nil =>
    unfold pdfText pageOffset
    cases post with
    | nil => simp [List.intercalate]
    | cons q post =>
      rw [List.nil_append, List.map_cons, intercalate_cons _ _ _ (by simp)]
      simp
  | cons p pre ih =>
    have e : pageOffset (p :: pre) = (p.2 ++ nl2).length + pageOffset pre := by
      simp [pageOffset, nl2]
    rw [e]
    have : pdfText (p :: pre ++ (num, t) :: post) =
        (p.2 ++ nl2) ++ pdfText (pre ++ (num, t) :: post) := by
      unfold pdfText
      rw [List.cons_append, List.map_cons, intercalate_cons _ _ _ (by simp)]
    rw [this, ← List.drop_drop, List.drop_left' rfl]
    exact ih

theorem pageFor_ge (pre : List (Int × Text)) (num : Int) (t : Text) (post : List (Int × Text))
    (hs : ((pdfTable (pre ++ (num, t) :: post)).map Prod.fst).Pairwise (· < ·)) (pos : Nat)
    (h : pageOffset pre ≤ pos) :
    num ≤ pageFor (pdfTable (pre ++ (num, t) :: post)) pos := by
  have e : pdfTable (pre ++ (num, t) :: post) = pdfTable pre ++ (num, t.length) :: pdfTable post := by
    simp [pdfTable]
  obtain ⟨c', -, h2⟩ := pageScan_skip pos 0 pre ((num, t.length) :: pdfTable post) (by omega)
  have hmem : num ∈ (pdfTable (pre ++ (num, t) :: post)).map Prod.fst := by rw [e]; simp
  have hlast := getLast_max _ hs
  rw [e] at hs hmem hlast ⊢
  unfold pageFor
  rw [h2]
  cases hp : pageScan pos c' ((num, t.length) :: pdfTable post) with
  | some n =>
    simp only
    have := pageScan_mem _ _ _ _ hp
    rw [List.map_append, List.pairwise_append, List.map_cons, List.pairwise_cons] at hs
    rcases List.mem_cons.1 this with rfl | hm
    · exact le_rfl
    · exact le_of_lt (hs.2.1.1 n hm)
  | none =>
    simp only
    cases hl : (pdfTable pre ++ (num, t.length) :: pdfTable post).getLast? with
    | none => simp at hl
    | some l => exact hlast l hl num hmem

/-- Beyond the counted lengths the page is never the real one, unless it is the last. -/
theorem pageScan_past (pos : Nat) (l rest : List (Int × Nat)) (cur : Nat)
    (h : cur + (l.map Prod.snd).sum ≤ pos) :
    pageScan pos cur (l ++ rest) = pageScan pos (cur + (l.map Prod.snd).sum) rest := by
  induction l generalizing cur with
  | nil => simp
  | cons p l ih =>
    obtain ⟨num, len⟩ := p
    simp only [List.map_cons, List.sum_cons] at h
    rw [List.cons_append, pageScan, if_neg (by omega), ih _ (by omega)]
    simp [Nat.add_assoc]

theorem pageFor_gt (pre : List (Int × Text)) (num : Int) (t : Text) (post : List (Int × Text))
    (hpost : post ≠ [])
    (hs : ((pdfTable (pre ++ (num, t) :: post)).map Prod.fst).Pairwise (· < ·)) (pos : Nat)
    (h : ((pdfTable (pre ++ [(num, t)])).map Prod.snd).sum ≤ pos) :
    num < pageFor (pdfTable (pre ++ (num, t) :: post)) pos := by
  have e : pdfTable (pre ++ (num, t) :: post) = pdfTable (pre ++ [(num, t)]) ++ pdfTable post := by
    simp [pdfTable]
  have hp0 : pdfTable post ≠ [] := by simpa [pdfTable] using hpost
  have hlt : ∀ n ∈ (pdfTable post).map Prod.fst, num < n := by
    rw [e, List.map_append, List.pairwise_append] at hs
    exact fun n hn => hs.2.2 num (by simp [pdfTable]) n hn
  rw [e]
  unfold pageFor
  rw [pageScan_past _ _ _ _ (by omega)]
  cases hp : pageScan pos (0 + ((pdfTable (pre ++ [(num, t)])).map Prod.snd).sum) (pdfTable post) with
  | some n => exact hlt n (pageScan_mem _ _ _ _ hp)
  | none =>
    simp only
    rw [List.getLast?_append_of_ne_nil _ hp0, List.getLast?_eq_some_getLast hp0]
    exact hlt _ (List.mem_map_of_mem (List.getLast_mem hp0))

/-- Chunk ends lie at least a text's length after the start. -/
theorem semFold_pos (c : ChunkCfg) (l : List Text) (st : SemSt) (h0 : 0 ≤ st.start)
    (h : ∀ ch ∈ st.done, 0 ≤ ch.startPos ∧ ch.startPos + ch.text.length ≤ ch.endPos) :
    0 ≤ (l.foldl (semStep c) st).start ∧ ∀ ch ∈ (l.foldl (semStep c) st).done,
      0 ≤ ch.startPos ∧ ch.startPos + ch.text.length ≤ ch.endPos := by
  induction l generalizing st with
  | nil => exact ⟨h0, h⟩
  | cons p l ih =>
    rw [List.foldl_cons]
    apply ih
    · unfold semStep
      simp only
      split_ifs <;> first | exact h0 | exact le_max_left _ _
    · unfold semStep
      simp only
      split_ifs
      · exact h
      all_goals
        first
        | exact h
        | intro ch hch
          rcases List.mem_append.1 hch with hch | hch
          · exact h ch hch
          · obtain rfl := List.mem_singleton.1 hch
            have := strip_length st.cur
            simp only [semChunk]
            omega

theorem semantic_pos (c : ChunkCfg) (text : Text) : ∀ ch ∈ semantic c text,
    0 ≤ ch.startPos ∧ ch.startPos + ch.text.length ≤ ch.endPos := by
  obtain ⟨h1, h2⟩ := semFold_pos c (splitOnText nl2 text) ⟨[], [], 0⟩ le_rfl (by simp)
  unfold semantic
  simp only
  split_ifs with h
  · intro ch hch
    rcases List.mem_append.1 hch with hch | hch
    · exact h2 ch hch
    · obtain rfl := List.mem_singleton.1 hch
      have := strip_length ((splitOnText nl2 text).foldl (semStep c) ⟨[], [], 0⟩).cur
      simp only [semChunk]
      omega
  · exact h2

end Valori
