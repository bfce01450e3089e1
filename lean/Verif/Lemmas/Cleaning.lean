import Verif.Model.Cleaning
import Verif.Spec.Cleaning
import Verif.Lemmas.Chunking

/-!
# Lemmas on text cleaning
-/

namespace Valori
open Spec

theorem isSpace_space : isSpace ' ' = true := by decide

/-! ## Words -/

theorem isWords_prepend {sp : Char → Bool} {c : Char} (hc : sp c = true) {t : Text} {ws : List Text}
    (h : IsWords sp t ws) : IsWords sp (c :: t) ws := by
  cases h with
  | blank t h =>
    refine .blank _ fun x hx => ?_
    rcases List.mem_cons.1 hx with rfl | hx
    · exact hc
    · exact h x hx
  | word a w t ws ha hw hcw hb ht =>
    refine .word (c :: a) w t ws (fun x hx => ?_) hw hcw hb ht
    rcases List.mem_cons.1 hx with rfl | hx
    · exact hc
    · exact ha x hx

theorem splitWs_isWords (t acc : Text) (hacc : ∀ c ∈ acc, isSpace c = false) :
    IsWords isSpace (acc.reverse ++ t) (splitWs acc t) := by
  induction t generalizing acc with
  | nil =>
    unfold splitWs
    split_ifs with h
    · subst h
      exact .blank _ (by simp)
    · have := IsWords.word (sp := isSpace) [] acc.reverse [] [] (by simp) (by simpa using h)
        (by simpa using hacc) (by simp) (.blank _ (by simp))
      simpa using this
  | cons c cs ih =>
    unfold splitWs
    split_ifs with h1 h2
    · subst h2
      exact isWords_prepend h1 (ih [] (by simp))
    · have hc : IsWords isSpace (c :: cs) (splitWs [] cs) := isWords_prepend h1 (ih [] (by simp))
      have := IsWords.word (sp := isSpace) [] acc.reverse (c :: cs) (splitWs [] cs) (by simp)
        (by simpa using h2) (by simpa using hacc) (by simpa using h1) hc
      simpa using this
    · have := ih (c :: acc) (fun x hx => by
        rcases List.mem_cons.1 hx with rfl | hx
        · simpa using h1
        · exact hacc x hx)
      simpa using this

theorem splitWs_skip (a t : Text) (ha : ∀ c ∈ a, isSpace c = true) : splitWs [] (a ++ t) = splitWs [] t := by
  induction a with
  | nil => rfl
  | cons c a ih =>
    rw [List.cons_append]
    unfold splitWs
    rw [if_pos (ha c (by simp)), if_pos rfl, ih fun x hx => ha x (by simp [hx])]
    cases t <;> rfl

theorem splitWs_read (w t acc : Text) (hw : ∀ c ∈ w, isSpace c = false) :
    splitWs acc (w ++ t) = splitWs (w.reverse ++ acc) t := by
  induction w generalizing acc with
  | nil => rfl
  | cons c w ih =>
    rw [List.cons_append]
    conv_lhs => unfold splitWs
    rw [if_neg (by rw [hw c (by simp)]; simp), ih _ fun x hx => hw x (by simp [hx])]
    simp

theorem isWords_splitWs {t : Text} {ws : List Text} (h : IsWords isSpace t ws) : splitWs [] t = ws := by
  induction h with
  | blank t h =>
    have := splitWs_skip t [] h
    rw [List.append_nil] at this
    rw [this]
    rfl
  | word a w t ws ha hw hc hb ht ih =>
    rw [List.append_assoc, splitWs_skip a _ ha, splitWs_read w t [] hc, List.append_nil]
    cases t with
    | nil =>
      have : ws = [] := by rw [← ih]; rfl
      subst this
      simp [splitWs, hw]
    | cons c cs =>
      have hsp := hb c rfl
      unfold splitWs at ih ⊢
      rw [if_pos hsp] at ih ⊢
      rw [if_pos rfl] at ih
      rw [if_neg (by simpa using hw), ih, List.reverse_reverse]

theorem isWords_iff (t : Text) (ws : List Text) : IsWords isSpace t ws ↔ splitWs [] t = ws := by
  constructor
  · exact isWords_splitWs
  · rintro rfl
    exact splitWs_isWords t [] (by simp)

theorem splitWs_squeeze (b : Bool) (t acc : Text) (h : b = true → acc = []) :
    splitWs acc (squeezeGo isSpace b t) = splitWs acc t := by
  induction t generalizing b acc with
  | nil => rfl
  | cons c cs ih =>
    unfold squeezeGo
    by_cases hc : isSpace c = true
    · rw [if_pos hc]
      cases b with
      | true =>
        rw [if_pos rfl, h rfl, ih true [] fun _ => rfl]
        conv_rhs => unfold splitWs
        rw [if_pos hc, if_pos rfl]
      | false =>
        rw [if_neg (by simp)]
        unfold splitWs
        rw [if_pos isSpace_space, if_pos hc, ih true [] fun _ => rfl]
    · rw [if_neg hc]
      unfold splitWs
      rw [if_neg hc, if_neg hc, ih false _ (by simp)]

theorem splitWs_trim (s b : Text) (hb : ∀ c ∈ b, isSpace c = true) (acc : Text) :
    splitWs acc (s ++ b) = splitWs acc s := by
  induction s generalizing acc with
  | nil =>
    cases b with
    | nil => rfl
    | cons c b =>
      rw [List.nil_append]
      have h1 : splitWs [] b = [] := by
        have := splitWs_skip b [] fun x hx => hb x (by simp [hx])
        rw [List.append_nil] at this
        rw [this]; rfl
      unfold splitWs
      rw [if_pos (hb c (by simp)), h1]
  | cons c s ih =>
    rw [List.cons_append]
    unfold splitWs
    rw [ih, ih]

theorem splitWs_strip (t : Text) : splitWs [] (strip t) = splitWs [] t := by
  obtain ⟨a, b, h, ha, hb, -⟩ := strip_isTrim t
  conv_rhs => rw [h, List.append_assoc, splitWs_skip a _ ha, splitWs_trim _ b hb]

/-! ## White space runs -/

/-- No two neighbours in `p`, and every character in `p` is a space. -/
structure Single (p : Char → Bool) (t : Text) : Prop where
  only : ∀ c ∈ t, p c = true → c = ' '
  single : ∀ (i : Nat) c d, t[i]? = some c → t[i + 1]? = some d → ¬ (p c = true ∧ p d = true)

theorem squeeze_single (p : Char → Bool) (b : Bool) (t : Text) :
    Single p (squeezeGo p b t) ∧ (b = true → ∀ c, (squeezeGo p b t).head? = some c → p c = false) := by
  induction t generalizing b with
  | nil => exact ⟨⟨by simp [squeezeGo], by simp [squeezeGo]⟩, by simp [squeezeGo]⟩
  | cons c cs ih =>
    unfold squeezeGo
    by_cases hc : p c = true
    · rw [if_pos hc]
      cases b with
      | true =>
        rw [if_pos rfl]
        exact ih true
      | false =>
        rw [if_neg (by simp)]
        obtain ⟨⟨h1, h2⟩, h3⟩ := ih true
        refine ⟨⟨?_, ?_⟩, by simp⟩
        · intro x hx hp
          rcases List.mem_cons.1 hx with rfl | hx
          · rfl
          · exact h1 x hx hp
        · intro i x y hx hy
          cases i with
          | zero =>
            simp only [Nat.zero_add, List.getElem?_cons_succ] at hy
            rw [← List.head?_eq_getElem?] at hy
            rintro ⟨-, hp⟩
            rw [h3 rfl y hy] at hp
            cases hp
          | succ i =>
            simp only [List.getElem?_cons_succ] at hx hy
            exact h2 i x y hx hy
    · rw [if_neg hc]
      obtain ⟨⟨h1, h2⟩, -⟩ := ih false
      refine ⟨⟨?_, ?_⟩, ?_⟩
      · intro x hx hp
        rcases List.mem_cons.1 hx with rfl | hx
        · exact absurd hp hc
        · exact h1 x hx hp
      · intro i x y hx hy
        cases i with
        | zero =>
          simp only [List.getElem?_cons_zero, Option.some.injEq] at hx
          subst hx
          exact fun h => hc h.1
        | succ i =>
          simp only [List.getElem?_cons_succ] at hx hy
          exact h2 i x y hx hy
      · intro _ x hx
        simp only [List.head?_cons, Option.some.injEq] at hx
        subst hx
        simpa using hc

theorem squeeze_fix (p : Char → Bool) (b : Bool) (t : Text) (h : Single p t)
    (hb : b = true → ∀ c, t.head? = some c → p c = false) : squeezeGo p b t = t := by
  induction t generalizing b with
  | nil => rfl
  | cons c cs ih =>
    have htail : Single p cs :=
      ⟨fun x hx => h.only x (by simp [hx]), fun i x y hx hy => h.single (i + 1) x y (by simpa using hx)
        (by simpa using hy)⟩
    unfold squeezeGo
    by_cases hc : p c = true
    · have : b = false := by
        cases b with
        | false => rfl
        | true => exact absurd hc (by rw [hb rfl c rfl]; simp)
      subst this
      rw [if_pos hc, if_neg (by simp), h.only c (by simp) hc]
      congr 1
      refine ih true htail fun _ x hx => ?_
      cases hx' : p x with
      | false => rfl
      | true => exact absurd ⟨hc, hx'⟩ (h.single 0 c x rfl (by
          rw [Nat.zero_add, List.getElem?_cons_succ, ← List.head?_eq_getElem?, hx]))
    · rw [if_neg hc, ih false htail (by simp)]

theorem single_infix {p : Char → Bool} {a s b : Text} (h : Single p (a ++ s ++ b)) : Single p s := by
  refine ⟨fun c hc => h.only c (by simp [hc]), fun i c d hc hd => ?_⟩
  refine h.single (a.length + i) c d ?_ ?_
  · rw [List.append_assoc, List.getElem?_append_right (by omega), Nat.add_sub_cancel_left,
      List.getElem?_append_left]
    · exact hc
    · exact (List.getElem?_eq_some_iff.1 hc).1
  · rw [List.append_assoc, List.getElem?_append_right (by omega)]
    have : a.length + i + 1 - a.length = i + 1 := by omega
    rw [this, List.getElem?_append_left]
    · exact hd
    · exact (List.getElem?_eq_some_iff.1 hd).1

theorem dropWhile_fix {α : Type} (p : α → Bool) (l : List α) (h : ∀ c, l.head? = some c → p c = false) :
    l.dropWhile p = l := by
  cases l with
  | nil => rfl
  | cons c l => rw [List.dropWhile_cons_of_neg (by rw [h c rfl]; simp)]

theorem strip_fix (t : Text) (h1 : ∀ c, t.head? = some c → isSpace c = false)
    (h2 : ∀ c, t.getLast? = some c → isSpace c = false) : strip t = t := by
  unfold strip
  rw [dropWhile_fix _ t h1, dropWhile_fix, List.reverse_reverse]
  intro c hc
  rw [List.head?_reverse] at hc
  exact h2 c hc

/-! ## Tags -/

theorem afterGt_some {t r : Text} (h : afterGt t = some r) : ∃ m, t = m ++ '>' :: r ∧ '>' ∉ m := by
  induction t with
  | nil => cases h
  | cons c cs ih =>
    unfold afterGt at h
    split_ifs at h with hc
    · obtain rfl := Option.some.inj h
      exact ⟨[], by rw [hc]; rfl, by simp⟩
    · obtain ⟨m, hm, hg⟩ := ih h
      exact ⟨c :: m, by rw [hm]; rfl, by
        rw [List.mem_cons, not_or]; exact ⟨fun e => hc e.symm, hg⟩⟩

theorem afterGt_none {t : Text} (h : afterGt t = none) : '>' ∉ t := by
  induction t with
  | nil => simp
  | cons c cs ih =>
    unfold afterGt at h
    split_ifs at h with hc
    rw [List.mem_cons, not_or]
    exact ⟨fun e => hc e.symm, ih h⟩

theorem tagRest_some {t r : Text} (h : tagRest t = some r) :
    ∃ m, t = m ++ '>' :: r ∧ m ≠ [] ∧ '>' ∉ m := by
  cases t with
  | nil => cases h
  | cons c cs =>
    simp only [tagRest] at h
    split_ifs at h with hc
    obtain ⟨m, hm, hg⟩ := afterGt_some h
    exact ⟨c :: m, by rw [hm]; rfl, by simp, by
      rw [List.mem_cons, not_or]; exact ⟨fun e => hc e.symm, hg⟩⟩

theorem tagRest_none {t : Text} (h : tagRest t = none) : (∃ r, t = '>' :: r) ∨ '>' ∉ t := by
  cases t with
  | nil => exact Or.inr (by simp)
  | cons c cs =>
    simp only [tagRest] at h
    split_ifs at h with hc
    · exact Or.inl ⟨cs, by rw [hc]⟩
    · right
      rw [List.mem_cons, not_or]
      exact ⟨fun e => hc e.symm, afterGt_none h⟩

theorem stripTagsGo_spec (n : Nat) (t : Text) (hn : t.length ≤ n) :
    TagsOut t (stripTagsGo n t) ∧ ¬ HasTag (stripTagsGo n t) ∧ ∀ c ∈ stripTagsGo n t, c ∈ t := by
  induction n generalizing t with
  | zero =>
    have : t = [] := List.length_eq_zero_iff.1 (by omega)
    subst this
    refine ⟨.nil, ?_, by simp [stripTagsGo]⟩
    rintro ⟨pre, mid, post, h, -⟩
    simp [stripTagsGo] at h
  | succ n ih =>
    cases t with
    | nil =>
      refine ⟨.nil, ?_, by simp [stripTagsGo]⟩
      rintro ⟨pre, mid, post, h, -⟩
      simp [stripTagsGo] at h
    | cons c cs =>
      simp only [List.length_cons, Nat.add_le_add_iff_right] at hn
      obtain ⟨k1, k2, k3⟩ := ih cs hn
      unfold stripTagsGo
      by_cases hc : c = '<'
      · rw [if_pos hc]
        cases hr : tagRest cs with
        | some rest =>
          obtain ⟨m, hm, hne, hg⟩ := tagRest_some hr
          obtain ⟨j1, j2, j3⟩ := ih rest (by rw [hm] at hn; simp at hn; omega)
          simp only
          refine ⟨?_, j2, ?_⟩
          · rw [hc, hm]
            exact .cut m hne hg j1
          · intro x hx
            rw [hm]
            simp [j3 x hx]
        | none =>
          simp only
          refine ⟨.keep c k1, ?_, ?_⟩
          · rintro ⟨pre, mid, post, h, hne, hg⟩
            cases pre with
            | cons x pre =>
              simp only [List.cons_append, List.cons.injEq] at h
              exact k2 ⟨pre, mid, post, h.2, hne, hg⟩
            | nil =>
              simp only [List.nil_append, List.cons.injEq] at h
              rcases tagRest_none hr with ⟨r, hr⟩ | hno
              · subst hr
                have h2 := h.2
                cases n with
                | zero => simp at hn
                | succ n =>
                  unfold stripTagsGo at h2
                  rw [if_neg (by decide)] at h2
                  cases mid with
                  | nil => exact hne rfl
                  | cons y mid =>
                    simp only [List.cons_append, List.cons.injEq] at h2
                    exact hg (by rw [← h2.1]; simp)
              · exact hno (k3 '>' (by rw [h.2]; simp))
          · intro x hx
            rcases List.mem_cons.1 hx with rfl | hx
            · simp
            · simp [k3 x hx]
      · rw [if_neg hc]
        refine ⟨.keep c k1, ?_, ?_⟩
        · rintro ⟨pre, mid, post, h, hne, hg⟩
          cases pre with
          | cons x pre =>
            simp only [List.cons_append, List.cons.injEq] at h
            exact k2 ⟨pre, mid, post, h.2, hne, hg⟩
          | nil =>
            simp only [List.nil_append, List.cons.injEq] at h
            exact hc h.1
        · intro x hx
          rcases List.mem_cons.1 hx with rfl | hx
          · simp
          · simp [k3 x hx]

theorem tagsOut_fix {t r : Text} (h : TagsOut t r) (hno : ¬ HasTag t) : r = t := by
  induction h with
  | nil => rfl
  | keep c h ih =>
    rw [ih]
    rintro ⟨pre, mid, post, he, hne, hg⟩
    exact hno ⟨c :: pre, mid, post, by rw [he]; rfl, hne, hg⟩
  | cut mid hm hg h ih =>
    exact absurd ⟨[], mid, _, rfl, hm, hg⟩ hno

theorem hasTag_cons {c : Char} {t : Text} (h : HasTag t) : HasTag (c :: t) := by
  obtain ⟨pre, mid, post, he, hne, hg⟩ := h
  exact ⟨c :: pre, mid, post, by rw [he]; rfl, hne, hg⟩

theorem squeezeGo_mem (p : Char → Bool) (b : Bool) (t : Text) (x : Char) (hx : x ≠ ' ')
    (h : x ∈ squeezeGo p b t) : x ∈ t := by
  induction t generalizing b with
  | nil => simp [squeezeGo] at h
  | cons c cs ih =>
    unfold squeezeGo at h
    split_ifs at h
    · simp [ih _ h]
    · rcases List.mem_cons.1 h with h | h
      · exact absurd h hx
      · simp [ih _ h]
    · rcases List.mem_cons.1 h with h | h
      · simp [h]
      · simp [ih _ h]

theorem hasTag_squeeze (p : Char → Bool) (hp2 : p '>' = false) (b : Bool) (t : Text)
    (h : HasTag (squeezeGo p b t)) : HasTag t := by
  induction t generalizing b with
  | nil =>
    obtain ⟨pre, mid, post, he, -⟩ := h
    simp [squeezeGo] at he
  | cons c cs ih =>
    unfold squeezeGo at h
    split_ifs at h with h1 h2
    · exact hasTag_cons (ih _ h)
    · obtain ⟨pre, mid, post, he, hne, hg⟩ := h
      cases pre with
      | nil =>
        simp only [List.nil_append, List.cons.injEq] at he
        exact absurd he.1 (by decide)
      | cons x pre =>
        simp only [List.cons_append, List.cons.injEq] at he
        exact hasTag_cons (ih _ ⟨pre, mid, post, he.2, hne, hg⟩)
    · obtain ⟨pre, mid, post, he, hne, hg⟩ := h
      cases pre with
      | cons x pre =>
        simp only [List.cons_append, List.cons.injEq] at he
        exact hasTag_cons (ih _ ⟨pre, mid, post, he.2, hne, hg⟩)
      | nil =>
        simp only [List.nil_append, List.cons.injEq] at he
        obtain ⟨rfl, he⟩ := he
        have hmem : '>' ∈ cs := squeezeGo_mem p false cs '>' (by decide) (by rw [he]; simp)
        obtain ⟨m, q, hm, hq⟩ := List.eq_append_cons_of_mem hmem
        refine ⟨[], m, q, by rw [hm]; rfl, ?_, hq⟩
        rintro rfl
        rw [hm] at he
        unfold squeezeGo at he
        rw [List.nil_append] at he
        simp only [hp2, Bool.false_eq_true, if_false] at he
        cases mid with
        | nil => exact hne rfl
        | cons y mid =>
          simp only [List.cons_append, List.cons.injEq] at he
          exact hg (by rw [← he.1]; simp)

theorem hasTag_infix {a s b : Text} (h : HasTag s) : HasTag (a ++ s ++ b) := by
  obtain ⟨pre, mid, post, he, hne, hg⟩ := h
  exact ⟨a ++ pre, mid, post ++ b, by rw [he]; simp, hne, hg⟩

/-! ## Joining words -/

theorem splitWs_join (ws : List Text) (h : ∀ w ∈ ws, w ≠ [] ∧ ∀ c ∈ w, isSpace c = false) :
    splitWs [] (joinSp ws) = ws := by
  induction ws with
  | nil => rfl
  | cons w ws ih =>
    obtain ⟨hne, hc⟩ := h w (by simp)
    cases ws with
    | nil =>
      have := splitWs_read w [] [] hc
      rw [List.append_nil, List.append_nil] at this
      unfold joinSp
      rw [this]
      simp [splitWs, hne]
    | cons v ws =>
      have := ih fun x hx => h x (by simp [hx])
      unfold joinSp
      rw [splitWs_read w _ [] hc, List.append_nil]
      conv_lhs => unfold splitWs
      rw [if_pos isSpace_space, if_neg (by simpa using hne), this, List.reverse_reverse]

theorem splitWs_words (t acc : Text) (hacc : ∀ c ∈ acc, isSpace c = false) :
    ∀ w ∈ splitWs acc t, w ≠ [] ∧ ∀ c ∈ w, isSpace c = false := by
  induction t generalizing acc with
  | nil =>
    intro w hw
    unfold splitWs at hw
    split_ifs at hw with h
    · cases hw
    · rw [List.mem_singleton] at hw
      subst hw
      exact ⟨by simpa using h, by simpa using hacc⟩
  | cons c cs ih =>
    intro w hw
    unfold splitWs at hw
    split_ifs at hw with h1 h2
    · exact ih [] (by simp) w hw
    · rcases List.mem_cons.1 hw with rfl | hw
      · exact ⟨by simpa using h2, by simpa using hacc⟩
      · exact ih [] (by simp) w hw
    · refine ih (c :: acc) (fun x hx => ?_) w hw
      rcases List.mem_cons.1 hx with rfl | hx
      · simpa using h1
      · exact hacc x hx

theorem joinSp_ne {ws : List Text} (hne : ws ≠ []) (h : ∀ w ∈ ws, w ≠ [] ∧ ∀ c ∈ w, isSpace c = false) :
    ∃ c t, joinSp ws = c :: t ∧ isSpace c = false := by
  cases ws with
  | nil => exact absurd rfl hne
  | cons w ws =>
    obtain ⟨h1, h2⟩ := h w (by simp)
    cases w with
    | nil => exact absurd rfl h1
    | cons c w =>
      cases ws with
      | nil => exact ⟨c, w, rfl, h2 c (by simp)⟩
      | cons v ws => exact ⟨c, w ++ ' ' :: joinSp (v :: ws), rfl, h2 c (by simp)⟩

theorem word_single {w : Text} (h : ∀ c ∈ w, isSpace c = false) (r : Text)
    (hr : Single isSpace r) : Single isSpace (w ++ r) := by
  induction w with
  | nil => exact hr
  | cons c w ih =>
    obtain ⟨k1, k2⟩ := ih fun x hx => h x (by simp [hx])
    refine ⟨fun x hx hp => ?_, fun i x y hx hy => ?_⟩
    · rw [List.cons_append] at hx
      rcases List.mem_cons.1 hx with rfl | hx
      · rw [h x (by simp)] at hp; cases hp
      · exact k1 x hx hp
    · rw [List.cons_append] at hx hy
      cases i with
      | zero =>
        simp only [List.getElem?_cons_zero, Option.some.injEq] at hx
        subst hx
        rw [h c (by simp)]
        simp
      | succ i =>
        simp only [List.getElem?_cons_succ] at hx hy
        exact k2 i x y hx hy

theorem joinSp_single (ws : List Text) (h : ∀ w ∈ ws, w ≠ [] ∧ ∀ c ∈ w, isSpace c = false) :
    Single isSpace (joinSp ws) := by
  induction ws with
  | nil => exact ⟨by simp [joinSp], by simp [joinSp]⟩
  | cons w ws ih =>
    obtain ⟨-, hw⟩ := h w (by simp)
    have hrest : ∀ v ∈ ws, v ≠ [] ∧ ∀ c ∈ v, isSpace c = false := fun v hv => h v (by simp [hv])
    cases ws with
    | nil =>
      have := word_single hw [] ⟨by simp, by simp⟩
      rwa [List.append_nil] at this
    | cons v ws =>
      obtain ⟨c, t, he, hc⟩ := joinSp_ne (by simp) hrest
      obtain ⟨k1, k2⟩ := ih hrest
      refine word_single hw (' ' :: joinSp (v :: ws)) ⟨fun x hx hp => ?_, fun i x y hx hy => ?_⟩
      · rcases List.mem_cons.1 hx with rfl | hx
        · rfl
        · exact k1 x hx hp
      · cases i with
        | zero =>
          simp only [Nat.zero_add, List.getElem?_cons_succ] at hy
          rw [he] at hy
          simp only [List.getElem?_cons_zero, Option.some.injEq] at hy
          subst hy
          rw [hc]
          simp
        | succ i =>
          simp only [List.getElem?_cons_succ] at hx hy
          exact k2 i x y hx hy

theorem joinSp_last (ws : List Text) (h : ∀ w ∈ ws, w ≠ [] ∧ ∀ c ∈ w, isSpace c = false) (c : Char)
    (hl : (joinSp ws).getLast? = some c) : isSpace c = false := by
  induction ws with
  | nil => simp [joinSp] at hl
  | cons w ws ih =>
    obtain ⟨-, hw⟩ := h w (by simp)
    have hrest : ∀ v ∈ ws, v ≠ [] ∧ ∀ c ∈ v, isSpace c = false := fun v hv => h v (by simp [hv])
    cases ws with
    | nil => exact hw c (List.mem_of_getLast? hl)
    | cons v ws =>
      obtain ⟨d, t, he, -⟩ := joinSp_ne (by simp) hrest
      have : joinSp (w :: v :: ws) = (w ++ [' ']) ++ joinSp (v :: ws) := by
        simp [joinSp]
      rw [this, List.getLast?_append_of_ne_nil _ (by rw [he]; simp)] at hl
      exact ih hrest hl

theorem joinSp_tidy (ws : List Text) (h : ∀ w ∈ ws, w ≠ [] ∧ ∀ c ∈ w, isSpace c = false) :
    Tidy isSpace (joinSp ws) := by
  have hs := joinSp_single ws h
  refine ⟨fun c hc => ?_, joinSp_last ws h, hs.only, hs.single⟩
  by_cases hne : ws = []
  · subst hne
    simp [joinSp] at hc
  · obtain ⟨d, t, he, hd⟩ := joinSp_ne hne h
    rw [he] at hc
    obtain rfl := Option.some.inj hc
    exact hd

end Valori
