import Verif.Props.IncrNames

/-!
# C249: when the calls of the incremental persistence manager fail, and what a failed save leaves
-/

namespace Valori.Props
open Valori Valori.Spec Valori.Incr

variable {S V I A : Type}

/-- **C249** On an open manager a save answers True if the data can be encoded (for vectors: as an array, and the ids also as
JSON) and raises PersistenceError otherwise; a load raises nothing but PersistenceError. -/
theorem C249_replies (env : IpEnv S I A) (f : Incr S V A) (hi : f.inited = true) (s : S) (v : V) (ids : I) (p : String) :
    ((saveState env s p f).1 = .ok true ↔ env.picklable s = true) ∧
    ((saveIndex env s p f).1 = .ok true ↔ env.picklable s = true) ∧
    ((saveVecs env v ids p f).1 = .ok true ↔ (∃ a, env.idsArr ids = some a) ∧ env.jsonOk ids = true) ∧
    (∀ r ∈ [(saveState env s p f).1, (saveIndex env s p f).1, (saveVecs env v ids p f).1],
      r = .ok true ∨ r = .error .persistence) ∧
    (∀ e, loadState env p f = .error e → e = .persistence) ∧
    (∀ e, loadIndex p f = .error e → e = .persistence) ∧
    (∀ e, Incr.loadVecs env p f = .error e → e = .persistence) := by
  refine ⟨?_, ?_, ?_, ?_, ?_, ?_, ?_⟩
  · cases h : env.picklable s <;> simp [saveState, hi, h]
  · cases h : env.picklable s <;> simp [saveIndex, hi, h]
  · cases h : env.idsArr ids with
    | none => simp [saveVecs, hi, h]
    | some a => cases h' : env.jsonOk ids <;> simp [saveVecs, hi, h, h']
  · intro r hr
    simp only [List.mem_cons, List.not_mem_nil, or_false] at hr
    rcases hr with rfl | rfl | rfl
    · cases h : env.picklable s <;> simp [saveState, hi, h]
    · cases h : env.picklable s <;> simp [saveIndex, hi, h]
    · cases h : env.idsArr ids with
      | none => simp [saveVecs, hi, h]
      | some a => cases h' : env.jsonOk ids <;> simp [saveVecs, hi, h, h']
  · intro e he
    simp only [loadState] at he
    repeat' split at he
    all_goals first | (cases he; rfl) | cases he
  · intro e he
    simp only [loadIndex] at he
    repeat' split at he
    all_goals first | (cases he; rfl) | cases he
  · intro e he
    simp only [Incr.loadVecs] at he
    repeat' split at he
    all_goals first | (cases he; rfl) | cases he

theorem mapM_numbers (parse : String → Option Int) (l : List String) :
    (∀ l', l.mapM (fun n => (ckptNo parse n).map fun i => (i, n)) = some l' →
      (∀ x ∈ l, (ckptNo parse x).isSome) ∧ ∀ i x, (i, x) ∈ l' ↔ x ∈ l ∧ ckptNo parse x = some i) ∧
    (l.mapM (fun n => (ckptNo parse n).map fun i => (i, n)) = none → ∃ x ∈ l, ckptNo parse x = none) := by
  induction l with
  | nil =>
    refine ⟨?_, ?_⟩
    · intro l' h
      have : l' = [] := by simpa using h.symm
      subst this; simp
    · intro h; simp at h
  | cons a l ih =>
    rw [List.mapM_cons]
    cases ha : ckptNo parse a with
    | none => exact ⟨fun l' h => by simp at h, fun _ => ⟨a, List.mem_cons_self, ha⟩⟩
    | some j =>
      cases hl : l.mapM (fun n => (ckptNo parse n).map fun i => (i, n)) with
      | none =>
        obtain ⟨x, hx, hn⟩ := ih.2 hl
        exact ⟨fun l' h => by simp at h, fun _ => ⟨x, List.mem_cons_of_mem _ hx, hn⟩⟩
      | some l1 =>
        obtain ⟨h1, h2⟩ := ih.1 l1 hl
        refine ⟨?_, fun h => by simp at h⟩
        intro l' h
        have : l' = (j, a) :: l1 := by simpa using h.symm
        subst this
        refine ⟨?_, ?_⟩
        · intro x hx
          rcases List.mem_cons.1 hx with rfl | hx
          · rw [ha]; rfl
          · exact h1 x hx
        · intro i x
          simp only [List.mem_cons, Prod.mk.injEq, h2]
          constructor
          · rintro (⟨rfl, rfl⟩ | ⟨hx, hn⟩)
            · exact ⟨.inl rfl, ha⟩
            · exact ⟨.inr hx, hn⟩
          · rintro ⟨rfl | hx, hn⟩
            · rw [ha] at hn; cases hn; exact .inl ⟨rfl, rfl⟩
            · exact .inr ⟨hx, hn⟩

/-- **C249** What `load_state` gives, for every directory in which no two files like `checkpoint_*.pkl` have the same number: nothing
exactly if there is no such file; a state exactly if each has a number and the one with the highest holds that state;
an exception otherwise. -/
theorem C249_load_state (env : IpEnv S I A) (f : Incr S V A) (hi : f.inited = true) (q : String)
    (hd : ∀ x ∈ f.disk.files.keys, ∀ y ∈ f.disk.files.keys, globMatch x = true → globMatch y = true →
      ∀ i, ckptNo env.parse x = some i → ckptNo env.parse y = some i → x = y) :
    (loadState env q f = .ok none ↔ ∀ x ∈ f.disk.files.keys, globMatch x = false) ∧
    (∀ s, loadState env q f = .ok (some s) ↔
      (∀ x ∈ f.disk.files.keys, globMatch x = true → ckptNo env.parse x ≠ none) ∧
      ∃ x ∈ f.disk.files.keys, globMatch x = true ∧ f.disk.files.get? x = some (.pickle s) ∧
        ∀ y ∈ f.disk.files.keys, globMatch y = true → ∀ i j, ckptNo env.parse x = some i →
          ckptNo env.parse y = some j → j ≤ i) := by
  have hmem : ∀ x, x ∈ f.disk.files.keys.filter globMatch ↔ x ∈ f.disk.files.keys ∧ globMatch x = true := by
    intro x; simp
  by_cases hne : f.disk.files.keys.filter globMatch = []
  · have hall : ∀ x ∈ f.disk.files.keys, globMatch x = false := by
      intro x hx
      by_contra h
      have := (hmem x).2 ⟨hx, by simpa using h⟩
      rw [hne] at this; cases this
    rw [load_none hi hall q]
    refine ⟨⟨fun _ => hall, fun _ => rfl⟩, ?_⟩
    intro s
    refine ⟨fun h => (by cases h), ?_⟩
    rintro ⟨-, x, hx, hg, -⟩
    rw [hall x hx] at hg; cases hg
  · have hnn : ¬ ∀ x ∈ f.disk.files.keys, globMatch x = false := by
      intro h
      apply hne
      rw [List.filter_eq_nil_iff]
      intro x hx; simp [h x hx]
    have hM := mapM_numbers env.parse (f.disk.files.keys.filter globMatch)
    simp only [loadState]
    rw [if_neg (by simp [hi]), if_neg (by simpa using hne)]
    cases hm : (f.disk.files.keys.filter globMatch).mapM
        (fun n => (ckptNo env.parse n).map fun i => (i, n)) with
    | none =>
      obtain ⟨x, hx, hn⟩ := hM.2 hm
      refine ⟨⟨fun h => (by cases h), fun h => absurd h hnn⟩, ?_⟩
      intro s
      refine ⟨fun h => (by cases h), ?_⟩
      rintro ⟨h, -⟩
      exact absurd hn (h x ((hmem x).1 hx).1 ((hmem x).1 hx).2)
    | some l =>
      obtain ⟨hsome, hl⟩ := hM.1 l hm
      dsimp only
      have hsort := pySortBy_sorted (fun x : Int × String => x.1) l
      cases hlast : (pySortBy (fun x : Int × String => x.1) l).getLast? with
      | none =>
        exfalso
        rw [List.getLast?_eq_none_iff] at hlast
        obtain ⟨x, hx⟩ := List.exists_mem_of_ne_nil _ hne
        obtain ⟨i, hxi⟩ := Option.isSome_iff_exists.1 (hsome x hx)
        have := (pySortBy_perm (fun x : Int × String => x.1) l).mem_iff.2 ((hl i x).2 ⟨hx, hxi⟩)
        rw [hlast] at this; cases this
      | some z =>
        obtain ⟨i, y⟩ := z
        obtain ⟨ini, hini⟩ := List.getLast?_eq_some_iff.1 hlast
        have hy : (i, y) ∈ l := (pySortBy_perm _ _).mem_iff.1 (by rw [hini]; simp)
        obtain ⟨hy1, hyi⟩ := (hl _ _).1 hy
        have hy2 := (hmem y).1 hy1
        have htop : ∀ x ∈ f.disk.files.keys, globMatch x = true → ∀ j, ckptNo env.parse x = some j → j ≤ i := by
          intro x hx hg j hj
          have hin : (j, x) ∈ pySortBy (fun x : Int × String => x.1) l :=
            (pySortBy_perm _ _).mem_iff.2 ((hl j x).2 ⟨(hmem x).2 ⟨hx, hg⟩, hj⟩)
          rw [hini] at hin hsort
          rcases List.mem_append.1 hin with hin | hin
          · exact (List.pairwise_append.1 hsort).2.2 _ hin (i, y) (by simp)
          · simp only [List.mem_singleton, Prod.mk.injEq] at hin; exact le_of_eq hin.1
        refine ⟨⟨?_, fun h => absurd h hnn⟩, ?_⟩
        · intro h
          dsimp only at h
          split at h <;> cases h
        · intro s
          constructor
          · intro h
            dsimp only at h
            split at h
            · next hg =>
              cases h
              refine ⟨fun x hx hgx hn => ?_, y, hy2.1, hy2.2, hg, ?_⟩
              · have := hsome x ((hmem x).2 ⟨hx, hgx⟩)
                rw [hn] at this; cases this
              · intro x hx hgx i' j hi' hj
                rw [hyi] at hi'; cases hi'
                exact htop x hx hgx j hj
            · cases h
          · rintro ⟨-, x, hx, hgx, hs, hx2⟩
            obtain ⟨j, hj⟩ := Option.isSome_iff_exists.1 (hsome x ((hmem x).2 ⟨hx, hgx⟩))
            have h1 := htop x hx hgx j hj
            have h2 := hx2 y hy2.1 hy2.2 j i hj hyi
            have : i = j := le_antisymm h2 h1
            subst this
            have := hd x hx y hy2.1 hgx hy2.2 i hj hyi
            subst this
            dsimp only
            rw [hs]

/-- **C249**, a failed save: counters, log and counter file are as before, and so is every file but the one the
save is about.  Missing: that one file, see `C249_raised_but_saved_refuted`. -/
theorem C249_failed_save_partial (env : IpEnv S I A) (f : Incr S V A) (s : S) (v : V) (ids : I) (p : String) :
    ((saveState env s p f).1 ≠ .ok true → ∃ fs, (saveState env s p f).2 = { f with disk := { f.disk with files := fs } } ∧
      ∀ x, x ≠ ckptName f.count → fs.get? x = f.disk.files.get? x) ∧
    ((saveIndex env s p f).1 ≠ .ok true → ∃ fs, (saveIndex env s p f).2 = { f with disk := { f.disk with files := fs } } ∧
      ∀ x, x ≠ p → fs.get? x = f.disk.files.get? x) ∧
    ((saveVecs env v ids p f).1 ≠ .ok true → ∃ fs, (saveVecs env v ids p f).2 = { f with disk := { f.disk with files := fs } } ∧
      ∀ x, x ≠ npzName p → fs.get? x = f.disk.files.get? x) := by
  have hput : ∀ name c, ∃ fs, put name c f = { f with disk := { f.disk with files := fs } } ∧
      ∀ x, x ≠ name → fs.get? x = f.disk.files.get? x := by
    intro name c
    refine ⟨f.disk.files.set name c, rfl, fun x hx => ?_⟩
    have := put_get x name c f
    rw [if_neg hx] at this
    exact this
  have hid : ∀ name : String, ∃ fs, f = { f with disk := { f.disk with files := fs } } ∧
      ∀ x, x ≠ name → fs.get? x = f.disk.files.get? x := fun _ => ⟨f.disk.files, rfl, fun _ _ => rfl⟩
  refine ⟨?_, ?_, ?_⟩
  · simp only [saveState]
    split
    · exact fun _ => hid _
    split
    · exact fun _ => hput _ _
    · exact fun h => absurd rfl h
  · simp only [saveIndex]
    split
    · exact fun _ => hid _
    split
    · exact fun _ => hput _ _
    · exact fun h => absurd rfl h
  · simp only [saveVecs]
    split
    · exact fun _ => hid _
    cases env.idsArr ids with
    | none => exact fun _ => hid _
    | some a =>
      dsimp only
      split
      · exact fun _ => hput _ _
      · exact fun h => absurd rfl h

/-- **C249 (refuted)** On every open manager: a `save_vectors` whose ids make an array but no JSON (ids from a numpy array, say) raises,
and the vectors are saved none the less, over what was there; the log does not tell. -/
theorem C249_raised_but_saved_refuted (env : IpEnv S I A) (f : Incr S V A) (hi : f.inited = true) (v : V) (ids ids' : I) (a : A)
    (ha : env.idsArr ids = some a) (hl : env.idsList a = some ids') (hj : env.jsonOk ids = false) (p : String) :
    (saveVecs env v ids p f).1 = .error .persistence ∧
    Incr.loadVecs env (npzName p) (saveVecs env v ids p f).2 = .ok (some (v, ids')) ∧
    (saveVecs env v ids p f).2.disk.log = f.disk.log := by
  have e : saveVecs env v ids p f = (.error .persistence, put (npzName p) (.npz v a) f) := by
    simp [saveVecs, hi, ha, hj]
  rw [e]
  refine ⟨rfl, ?_, rfl⟩
  simp only [Incr.loadVecs, put_get, if_true, hl]
  rw [if_neg (by simp [Incr.put, hi])]

/-- `exIp` with ids that make no JSON. -/
def exIpBad : IpEnv String (List Nat) (List Nat) := { exIp 3 with jsonOk := fun l => l.length < 2 }

example : let f : Incr String Nat (List Nat) := (ipRun exIpBad [.saveVecs 1 [2] "v", .saveState "a" "p", .reopen]).2
    f.inited = true ∧ exIpBad.idsArr [2, 3] = some [2, 3] ∧ exIpBad.idsList [2, 3] = some [2, 3] ∧
    exIpBad.jsonOk [2, 3] = false ∧ Incr.loadVecs exIpBad "v.npz" f = .ok (some (1, [2])) ∧
    Incr.loadVecs exIpBad "v.npz" (saveVecs exIpBad 7 [2, 3] "v" f).2 = .ok (some (7, [2, 3])) ∧
    (saveState exIpBad "" "p" f).1 ≠ .ok true := by decide +kernel

-- a directory with two checkpoints of different numbers
example : let f : Incr String Nat (List Nat) := (ipRun (exIp 3) [.saveState "b" "p", .saveState "a" "p", .reopen]).2
    f.inited = true ∧ f.disk.files.keys.filter globMatch = ["checkpoint_0.pkl", "checkpoint_1.pkl"] ∧
    (∀ x ∈ f.disk.files.keys, ∀ y ∈ f.disk.files.keys, ckptNo (exIp 3).parse x = ckptNo (exIp 3).parse y → x = y) ∧
    loadState (exIp 3) "p" f = .ok (some "b") := by decide +kernel

end Valori.Props
