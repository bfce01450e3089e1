import Verif.Model.VectorsFile
import Verif.Lemmas.Dict

/-!
# Properties of saving and loading vectors (C121)
-/

namespace Valori.Props
open Valori

variable {K M : Type}

/-- The suffix `load_vectors_from_file` wants for a format. -/
def suffixOf : String → List Char
  | "npz" => ".npz".toList
  | "pickle" => ".pkl".toList
  | "json" => ".json".toList
  | _ => []

/-- The array survives nested lists: there is a row, and all rows have the width. -/
def Stacked (a : VArr K) : Prop := a.rows ≠ [] ∧ ∀ r ∈ a.rows, r.length = a.width

theorem vf_suffix (p : FPath) (h : fileSuffix p ≠ []) : fileSuffix p <:+ p := by
  have h1 : fileName p <:+ p := by
    unfold fileName
    have := List.takeWhile_prefix (p := fun c => decide (c ≠ '/')) (l := p.reverse)
    have := List.reverse_suffix.2 this
    rwa [List.reverse_reverse] at this
  refine List.IsSuffix.trans ?_ h1
  unfold fileSuffix at h ⊢
  generalize hr : (fileName p).reverse = r at h ⊢
  have hname : fileName p = r.reverse := by rw [← hr, List.reverse_reverse]
  rw [hname]
  have hsplit := List.takeWhile_append_dropWhile (p := fun c => decide (c ≠ '.')) (l := r)
  simp only at h ⊢
  cases hd : r.dropWhile fun c => decide (c ≠ '.') with
  | nil => rw [hd] at h; exact absurd rfl h
  | cons x xs =>
    cases xs with
    | nil => rw [hd] at h; exact absurd rfl h
    | cons y ys =>
      rw [hd] at h
      simp only at h ⊢
      split_ifs at h ⊢ with he
      · exact absurd rfl h
      · have hx : x = '.' := by
          have := List.head?_dropWhile_not (fun c => decide (c ≠ '.')) r
          rw [hd] at this
          simpa using this
        rw [hd, hx] at hsplit
        refine ⟨(y :: ys).reverse, ?_⟩
        conv_rhs => rw [← hsplit]
        simp

theorem vf_mapM (f : M → Option M) (l : List M) (h : ∀ m ∈ l, f m = some m) : l.mapM f = some l := by
  induction l with
  | nil => rfl
  | cons m l ih =>
    rw [List.mapM_cons, h m (by simp), ih fun x hx => h x (by simp [hx])]
    rfl

/-- **C121 (partial).** If the suffix of the path is the one belonging to the format, what was saved is
what is loaded, and no other file is touched; for JSON, if there is at least one row and JSON keeps the
metadata entries. Missing: other suffixes and arrays without rows, see the refutations. -/
theorem C121_round_partial (toJson : M → Option M) (fs : Dict FPath (VFile K M)) (a : VArr K) (ms : List M)
    (p : FPath) (format : String) (hf : format ∈ ["npz", "pickle", "json"])
    (hs : fileSuffix p = suffixOf format)
    (hj : format = "json" → Stacked a ∧ ∀ m ∈ ms, toJson m = some m) :
    ∃ fs', saveVectors toJson fs a ms p format = (.ok (), fs') ∧ loadVectors fs' p = .ok (a, ms) ∧
      ∀ q, q ≠ p → fs'.get? q = fs.get? q := by
  have hother : ∀ (c : VFile K M) q, q ≠ p → (fs.set p c).get? q = fs.get? q := by
    intro c q hq
    rw [Dict.get?_set, if_neg hq]
  simp only [List.mem_cons, List.not_mem_nil, or_false] at hf
  rcases hf with rfl | rfl | rfl
  · have hs' : fileSuffix p = ".npz".toList := hs
    have hp : savezName p = p := by
      unfold savezName
      rw [if_pos]
      rw [← hs']
      exact vf_suffix p (by rw [hs']; decide)
    refine ⟨fs.set p (.npz a ms), ?_, ?_, hother _⟩
    · simp [saveVectors, hp]
    · simp [loadVectors, hs']
  · have hs' : fileSuffix p = ".pkl".toList := hs
    refine ⟨fs.set p (.pickle a ms), ?_, ?_, hother _⟩
    · simp [saveVectors]
    · simp [loadVectors, hs']
  · have hs' : fileSuffix p = ".json".toList := hs
    obtain ⟨⟨hne, hw⟩, hm⟩ := hj rfl
    refine ⟨fs.set p (.json a.rows ms), ?_, ?_, hother _⟩
    · simp [saveVectors, vf_mapM toJson ms hm]
    · have ha : arrOf a.rows = a := by
        unfold arrOf
        obtain ⟨w, rows⟩ := a
        cases rows with
        | nil => exact absurd rfl hne
        | cons r rows =>
          simp only [List.head?_cons, Option.getD_some]
          rw [hw r (by simp)]
      simp [loadVectors, hs', ha]

/-- **C121 (refuted).** Saving in the default format under a name without the suffix ".npz", where no
file was before, cannot be loaded under that name. -/
theorem C121_npz_refuted (toJson : M → Option M) (fs fs' : Dict FPath (VFile K M)) (a : VArr K) (ms : List M)
    (p : FPath) (hnew : fs.get? p = none) (hs : fileSuffix p ≠ ".npz".toList)
    (h : saveVectors toJson fs a ms p "npz" = (.ok (), fs')) : ∃ e, loadVectors fs' p = .error e := by
  simp only [saveVectors, if_true, Prod.mk.injEq, true_and] at h
  subst h
  unfold loadVectors
  rw [if_neg hs]
  by_cases hp : savezName p = p
  · rw [hp]
    simp only [Dict.get?_set_self]
    split_ifs <;> exact ⟨_, rfl⟩
  · have : (fs.set (savezName p) (.npz a ms)).get? p = none := by
      rw [Dict.get?_set, if_neg fun e => hp e.symm, hnew]
    rw [this]
    simp only
    split_ifs <;> exact ⟨_, rfl⟩

theorem fileSuffix_npz (p : FPath) (h : fileName p ≠ []) :
    fileSuffix (p ++ ".npz".toList) = ".npz".toList := by
  have hn : (fileName (p ++ ".npz".toList)).reverse = "zpn.".toList ++ (fileName p).reverse := by
    simp [fileName, List.takeWhile_cons]
  unfold fileSuffix
  rw [hn]
  obtain ⟨c, r, hr⟩ := List.exists_cons_of_ne_nil (show (fileName p).reverse ≠ [] by simpa using h)
  rw [hr]
  simp [List.takeWhile_cons, List.dropWhile_cons]

/-- **C121** The data is not lost: it is loaded under the name with ".npz" appended. -/
theorem C121_npz_appended (toJson : M → Option M) (fs fs' : Dict FPath (VFile K M)) (a : VArr K)
    (ms : List M) (p : FPath) (hn : fileName p ≠ []) (hs : ¬ ".npz".toList <:+ p)
    (h : saveVectors toJson fs a ms p "npz" = (.ok (), fs')) :
    loadVectors fs' (p ++ ".npz".toList) = .ok (a, ms) ∧
      ∀ q, q ≠ p ++ ".npz".toList → fs'.get? q = fs.get? q := by
  simp only [saveVectors, if_true, Prod.mk.injEq, true_and, savezName, if_neg hs] at h
  subst h
  refine ⟨?_, fun q hq => by rw [Dict.get?_set, if_neg hq]⟩
  unfold loadVectors
  rw [if_pos (fileSuffix_npz p hn), Dict.get?_set_self]

example : fileName "data/v1.2".toList ≠ [] ∧ ¬ ".npz".toList <:+ "data/v1.2".toList := by decide

/-- **C121 (refuted).** Saving as pickle or JSON under a name with another suffix cannot be loaded. -/
theorem C121_suffix_refuted (toJson : M → Option M) (fs fs' : Dict FPath (VFile K M)) (a : VArr K)
    (ms : List M) (p : FPath) (format : String) (hf : format = "pickle" ∨ format = "json")
    (hs : fileSuffix p ≠ suffixOf format)
    (h : saveVectors toJson fs a ms p format = (.ok (), fs')) : ∃ e, loadVectors fs' p = .error e := by
  rcases hf with rfl | rfl
  · have hs' : fileSuffix p ≠ ".pkl".toList := hs
    simp [saveVectors] at h
    subst h
    unfold loadVectors
    rw [if_neg hs']
    simp only [Dict.get?_set_self]
    split_ifs <;> exact ⟨_, rfl⟩
  · have hs' : fileSuffix p ≠ ".json".toList := hs
    cases hm : ms.mapM toJson with
    | none => simp [saveVectors, hm] at h
    | some ms' =>
      simp [saveVectors, hm] at h
      subst h
      unfold loadVectors
      rw [if_neg hs']
      simp only [Dict.get?_set_self]
      split_ifs <;> exact ⟨_, rfl⟩

/-- **C121** Other formats and other suffixes are refused with `ValidationError`, and an unknown format
writes nothing.  Metadata that JSON cannot express raises `TypeError` and leaves a file that cannot be
loaded, also where a good one was before. -/
theorem C121_refuses (toJson : M → Option M) (fs : Dict FPath (VFile K M)) (a : VArr K) (ms : List M)
    (p : FPath) (format : String) :
    (format ∉ ["npz", "pickle", "json"] → saveVectors toJson fs a ms p format = (.error .validation, fs)) ∧
    ((∀ f ∈ ["npz", "pickle", "json"], fileSuffix p ≠ suffixOf f) →
      loadVectors fs p = .error .validation) ∧
    ((∃ m ∈ ms, toJson m = none) → ∃ fs', saveVectors toJson fs a ms p "json" = (.error .typeE, fs') ∧
      (∃ e, loadVectors fs' p = .error e) ∧ ∀ q, q ≠ p → fs'.get? q = fs.get? q) := by
  refine ⟨fun h => ?_, fun h => ?_, fun h => ?_⟩
  · simp only [List.mem_cons, List.not_mem_nil, or_false, not_or] at h
    simp [saveVectors, h.1, h.2.1, h.2.2]
  · have h1 : fileSuffix p ≠ ".npz".toList := h "npz" (by simp)
    have h2 : fileSuffix p ≠ ".pkl".toList := h "pickle" (by simp)
    have h3 : fileSuffix p ≠ ".json".toList := h "json" (by simp)
    unfold loadVectors
    rw [if_neg h1, if_neg h2, if_neg h3]
  · have hm : ms.mapM toJson = none := by
      obtain ⟨m, hm, he⟩ := h
      induction ms with
      | nil => cases hm
      | cons x xs ih =>
        rw [List.mapM_cons]
        rcases List.mem_cons.1 hm with rfl | hm
        · simp [he]
        · cases toJson x <;> simp [ih hm]
    refine ⟨fs.set p .junk, by simp [saveVectors, hm], ?_, fun q hq => by
      rw [Dict.get?_set, if_neg hq]⟩
    unfold loadVectors
    simp only [Dict.get?_set_self]
    split_ifs <;> exact ⟨_, rfl⟩

/-- **C121 (refuted).** Through JSON an array without rows loses its width. -/
theorem C121_empty_refuted (toJson : M → Option M) (fs fs' : Dict FPath (VFile K M)) (w : Nat) (p : FPath)
    (hs : fileSuffix p = ".json".toList)
    (h : saveVectors toJson fs ⟨w, []⟩ [] p "json" = (.ok (), fs')) :
    loadVectors fs' p = .ok (⟨0, []⟩, []) := by
  simp [saveVectors] at h
  subst h
  simp [loadVectors, hs, arrOf]

example : fileSuffix "data/v1.0/out.npz".toList = ".npz".toList ∧ fileSuffix "a/.npz".toList = [] ∧
    fileSuffix "v1.0/out".toList = [] ∧ fileSuffix "out.".toList = [] := by decide +kernel

example : ∃ fs', saveVectors (some : Nat → Option Nat) ([] : Dict FPath (VFile Int Nat)) ⟨2, [[1, 2], [3, 4]]⟩ [7, 8]
      "a/b.json".toList "json" = (.ok (), fs') ∧
    loadVectors fs' "a/b.json".toList = .ok (⟨2, [[1, 2], [3, 4]]⟩, [7, 8]) :=
  ⟨_, rfl, by decide +kernel⟩

example : ∃ fs', saveVectors (some : Nat → Option Nat) ([] : Dict FPath (VFile Int Nat)) ⟨2, [[1, 2]]⟩ [7]
      "vectors".toList "npz" = (.ok (), fs') ∧ loadVectors fs' "vectors".toList = .error .validation ∧
    loadVectors fs' "vectors.npz".toList = .ok (⟨2, [[1, 2]]⟩, [7]) :=
  ⟨_, rfl, by decide +kernel, by decide +kernel⟩

end Valori.Props
