import Verif.Props.FlatConc

/-!
# C213: a call nobody interrupts, on a flat index
-/

namespace Valori.Props

open Valori Spec

variable {V M D : Type}

/-- The fields of the index, as a single caller sees them. -/
def flatOf (s : FConc V M D) : Flat V := ⟨s.ids, s.cache, s.count, true⟩

/-- What a call gives, and the index and storage after it, by the sequential model of C01-C06. -/
def flatCall (env : FlatEnv V D) (f : Flat V) (st : Dict Id (V × Option M)) :
    FOp V M → FRes M D × Flat V × Dict Id (V × Option M)
  | .insert rows =>
    match Flat.insert (plainStore V M) 2 (rows.map fun r => (r.id, r.v)) (some (rows.map FRow.m)) f st with
    | (.ok l, t) => (.ids l, t)
    | (.error _, t) => (.raised, t)
  | .search q k =>
    match Flat.search env (plainStore V M) 1 q k f st with
    | (.ok l, t) => (.hits l, t)
    | (.error _, t) => (.raised, t)
  | .update id v m =>
    match Flat.update (plainStore V M) id v m f st with
    | (.ok b, t) => (.flag b, t)
    | (.error _, t) => (.raised, t)
  | .delete dels =>
    match Flat.delete (plainStore V M) dels f st with
    | (.ok b, t) => (.flag b, t)
    | (.error _, t) => (.raised, t)

/-- The state with thread `t` at `a`. -/
def flatAt (f : Flat V) (st : Dict Id (V × Option M)) (thr : Nat → FAt V M D) (t : Nat) (a : FAt V M D) :
    FConc V M D := ⟨st, f.ids, f.cache, f.count, Function.update thr t a⟩

/-- Some steps of thread `t` lead from `s` to `s'`. -/
def FLeads (env : FlatEnv V D) (ops : Nat → FOp V M) (t : Nat) (s s' : FConc V M D) : Prop :=
  ∃ n, s.run env ops (List.replicate n t) = s'

theorem FLeads.rfl' {env : FlatEnv V D} {ops : Nat → FOp V M} {t : Nat} {s : FConc V M D} :
    FLeads env ops t s s := ⟨0, rfl⟩

theorem FLeads.trans {env : FlatEnv V D} {ops : Nat → FOp V M} {t : Nat} {a b c : FConc V M D}
    (h1 : FLeads env ops t a b) (h2 : FLeads env ops t b c) : FLeads env ops t a c := by
  obtain ⟨n, rfl⟩ := h1
  obtain ⟨m, rfl⟩ := h2
  exact ⟨n + m, by simp [FConc.run, ← List.replicate_append_replicate, List.foldl_append]⟩

theorem FLeads.next {env : FlatEnv V D} {ops : Nat → FOp V M} {t : Nat} {a b c : FConc V M D}
    (h1 : a.step env ops t = b) (h2 : FLeads env ops t b c) : FLeads env ops t a c :=
  FLeads.trans ⟨1, h1⟩ h2

section
variable {env : FlatEnv V D} {ops : Nat → FOp V M} {t : Nat} {thr : Nat → FAt V M D}

theorem rowMeta_all (rows : List (FRow V M)) {j : Nat} {r : FRow V M} (h : rows[j]? = some r) :
    rowMeta (some (rows.map FRow.m)) j = r.m := by
  unfold rowMeta
  cases rows with
  | nil => simp at h
  | cons a l => simp only [List.map_cons, List.isEmpty_cons]; simp [← List.map_cons, List.getElem?_map, h]

theorem lone_insert {rows : List (FRow V M)} (ho : ops t = .insert rows) (rest : List (FRow V M)) :
    ∀ (j : Nat), rows.drop j = rest → ∀ (f : Flat V) (st : Dict Id (V × Option M)),
    ∃ f' st', Flat.insertLoop (plainStore V M) (some (rows.map FRow.m)) j (rest.map fun r => (r.id, r.v)) f st
        = (.ok (rest.map FRow.id), f', st') ∧
      FLeads env ops t (flatAt f st thr t (.row j)) (flatAt f' st' thr t (.len (.ids (rows.map FRow.id)))) := by
  induction rest with
  | nil =>
    intro j hj f st
    have hl : rows.length ≤ j := List.drop_eq_nil_iff.1 hj
    refine ⟨f, st, rfl, .next ?_ .rfl'⟩
    simp [FConc.step, ho, FConc.stepInsert, flatAt, List.getElem?_eq_none hl]
  | cons r rest ih =>
    intro j hj f st
    have hr : rows[j]? = some r := by rw [← List.head?_drop, hj]; rfl
    have hn : rows.drop (j + 1) = rest := by rw [← List.tail_drop, hj]; rfl
    obtain ⟨f', st', h1, h2⟩ := ih (j + 1) hn ⟨f.ids ++ [r.id], f.cache.set r.id r.v, f.count, f.inited⟩
      (st.set r.id (r.v, r.m))
    refine ⟨f', st', ?_, ?_⟩
    · simp only [List.map_cons, Flat.insertLoop, plainStore, rowMeta_all rows hr]
      simp only [plainStore] at h1
      simp only [h1]
    · refine .next (b := flatAt f (st.set r.id (r.v, r.m)) thr t (.append j)) ?_ <| .next
        (b := flatAt ⟨f.ids ++ [r.id], f.cache, f.count, f.inited⟩ (st.set r.id (r.v, r.m)) thr t (.cache j))
        ?_ <| .next ?_ h2
      all_goals simp [FConc.step, ho, FConc.stepInsert, flatAt, hr]

/-- What `loadVecs` and the loop of the threads do. -/
theorem lone_load {q : V} {k₀ k : Int} (ho : ops t = .search q k₀) (rest : List Id) :
    ∀ (j : Nat) (f : Flat V), f.ids.drop j = rest → ∀ (st : Dict Id (V × Option M)) (got : List (Id × V)),
    ∃ vs c, loadVecs (plainStore V M) rest f.cache st = (.ok vs, c, st) ∧
      FLeads env ops t (flatAt f st thr t (.scan k j got))
        (flatAt ⟨f.ids, c, f.count, f.inited⟩ st thr t (FConc.rank env q k (got ++ vs))) := by
  induction rest with
  | nil =>
    intro j f hj st got
    refine ⟨[], f.cache, rfl, .next ?_ .rfl'⟩
    simp [FConc.step, ho, FConc.stepSearch, flatAt, List.getElem?_eq_none (List.drop_eq_nil_iff.1 hj)]
  | cons id rest ih =>
    intro j f hj st got
    have hr : f.ids[j]? = some id := by rw [← List.head?_drop, hj]; rfl
    have hn : f.ids.drop (j + 1) = rest := by rw [← List.tail_drop, hj]; rfl
    rw [loadVecs]
    cases hc : f.cache.get? id with
    | some v =>
      obtain ⟨vs, c, h1, h2⟩ := ih (j + 1) f hn st (got ++ [(id, v)])
      have hm : f.cache.mem id = true := by simp [Dict.mem, hc]
      refine ⟨(id, v) :: vs, c, by simp only [h1], ?_⟩
      simp only [List.append_assoc, List.cons_append, List.nil_append] at h2
      refine .next (b := flatAt f st thr t (.read k j got id)) ?_ <| .next ?_ h2
      all_goals simp [FConc.step, ho, FConc.stepSearch, flatAt, hr, hm, hc]
    | none =>
      have hm : f.cache.mem id = false := by simp [Dict.mem, hc]
      cases hs : st.get? id with
      | none =>
        obtain ⟨vs, c, h1, h2⟩ := ih (j + 1) f hn st got
        refine ⟨vs, c, by simpa only [plainStore, hs] using h1, ?_⟩
        refine .next (b := flatAt f st thr t (.fetch k j got id)) ?_ <| .next ?_ h2
        all_goals simp [FConc.step, ho, FConc.stepSearch, flatAt, hr, hm, hs]
      | some x =>
        obtain ⟨v, m⟩ := x
        obtain ⟨vs, c, h1, h2⟩ := ih (j + 1) ⟨f.ids, f.cache.set id v, f.count, f.inited⟩ hn st
          (got ++ [(id, v)])
        simp only [plainStore] at h1
        refine ⟨(id, v) :: vs, c, by simp only [plainStore, hs, h1], ?_⟩
        simp only [List.append_assoc, List.cons_append, List.nil_append] at h2
        refine .next (b := flatAt f st thr t (.fetch k j got id)) ?_ <|
          .next (b := flatAt f st thr t (.put k j got id v)) ?_ <| .next ?_ h2
        all_goals simp [FConc.step, ho, FConc.stepSearch, flatAt, hr, hm, hs]

theorem lone_info {q : V} {k₀ : Int} (ho : ops t = .search q k₀) (f : Flat V) (st : Dict Id (V × Option M))
    (todo : List (Id × D)) : ∀ acc : List (Hit D M),
    FLeads env ops t (flatAt f st thr t (.info todo acc))
      (flatAt f st thr t (.done (match (fetchMeta (plainStore V M) todo st).1 with
        | .ok l => .hits (acc ++ l) | .error _ => .raised))) ∧
      (fetchMeta (plainStore V M) todo st).2 = st := by
  induction todo with
  | nil =>
    intro acc
    refine ⟨.next ?_ .rfl', rfl⟩
    simp [FConc.step, ho, FConc.stepSearch, flatAt, fetchMeta]
  | cons p todo ih =>
    intro acc
    obtain ⟨id, d⟩ := p
    rw [fetchMeta]
    cases hs : st.get? id with
    | none =>
      simp only [plainStore, hs]
      refine ⟨.next ?_ .rfl', trivial⟩
      simp [FConc.step, ho, FConc.stepSearch, flatAt, hs]
    | some x =>
      obtain ⟨v, m⟩ := x
      obtain ⟨h1, h2⟩ := ih (acc ++ [⟨id, d, m⟩])
      generalize hr : fetchMeta (plainStore V M) todo st = r at h1 h2
      obtain ⟨r, st'⟩ := r
      simp only [plainStore] at hr
      simp only [plainStore, hs, hr]
      dsimp only at h2
      subst h2
      refine ⟨.next (b := flatAt f st' thr t (.info todo (acc ++ [⟨id, d, m⟩]))) ?_ (h1.trans ?_), ?_⟩
      · simp [FConc.step, ho, FConc.stepSearch, flatAt, hs]
      · cases r <;> simp [FLeads.rfl']
      · cases r <;> rfl

theorem lone_delete {dels : List Id} (ho : ops t = .delete dels) (rest : List Id) :
    ∀ (j : Nat), dels.drop j = rest → ∀ (ok : Bool) (f : Flat V) (st : Dict Id (V × Option M)),
    ∃ b f' st', Flat.deleteLoop (plainStore V M) rest ok f st = (.ok b, f', st') ∧
      FLeads env ops t (flatAt f st thr t (.del j ok)) (flatAt f' st' thr t (.len (.flag b))) := by
  induction rest with
  | nil =>
    intro j hj ok f st
    refine ⟨ok, f, st, rfl, .next ?_ .rfl'⟩
    simp [FConc.step, ho, FConc.stepDelete, flatAt, List.getElem?_eq_none (List.drop_eq_nil_iff.1 hj)]
  | cons id rest ih =>
    intro j hj ok f st
    have hr : dels[j]? = some id := by rw [← List.head?_drop, hj]; rfl
    have hn : dels.drop (j + 1) = rest := by rw [← List.tail_drop, hj]; rfl
    obtain ⟨b, f', st', h1, h2⟩ := ih (j + 1) hn (ok && st.mem id)
      ⟨if id ∈ f.ids then removeFirst f.ids id else f.ids, f.cache.pop id, f.count, f.inited⟩ (st.pop id)
    refine ⟨b, f', st', ?_, ?_⟩
    · rw [Flat.deleteLoop]
      simp only [plainStore]
      simp only [plainStore] at h1
      rw [← h1]
      cases st.mem id <;> simp
    · refine .next (b := flatAt f (st.pop id) thr t (.delTest j (ok && st.mem id))) ?_ ?_
      · simp [FConc.step, ho, FConc.stepDelete, flatAt, hr]
      by_cases hi : id ∈ f.ids
      · rw [if_pos hi] at h2
        refine .next (b := flatAt f (st.pop id) thr t (.delRemove j (ok && st.mem id))) ?_ <|
          .next (b := flatAt ⟨removeFirst f.ids id, f.cache, f.count, f.inited⟩ (st.pop id) thr t
            (.delPop j (ok && st.mem id))) ?_ <| .next ?_ h2
        all_goals simp [FConc.step, ho, FConc.stepDelete, flatAt, hr, hi]
      · rw [if_neg hi] at h2
        refine .next (b := flatAt f (st.pop id) thr t (.delPop j (ok && st.mem id))) ?_ <| .next ?_ h2
        all_goals simp [FConc.step, ho, FConc.stepDelete, flatAt, hr, hi]

theorem lone_flat (env : FlatEnv V D) (ops : Nat → FOp V M) (t : Nat) (thr : Nat → FAt V M D) (f : Flat V)
    (hf : f.inited = true) (st : Dict Id (V × Option M)) :
    let r := flatCall env f st (ops t)
    FLeads env ops t (flatAt f st thr t .start) (flatAt r.2.1 r.2.2 thr t (.done r.1)) := by
  intro r
  obtain ⟨ids, cache, count, inited⟩ := f
  dsimp only at hf
  subst hf
  cases ho : ops t with
  | insert rows =>
    obtain ⟨f', st', h1, h2⟩ := lone_insert (env := env) (thr := thr) ho rows 0 rfl ⟨ids, cache, count, true⟩ st
    have hr : r = (.ids (rows.map FRow.id), { f' with count := f'.ids.length }, st') := by
      simp only [r, ho, flatCall, Flat.insert, h1]
      rfl
    rw [hr]
    refine .next (b := flatAt ⟨ids, cache, count, true⟩ st thr t (.row 0)) ?_ (h2.trans ?_)
    · simp [FConc.step, ho, FConc.stepInsert, flatAt]
    · refine .next (b := flatAt f' st' thr t (.count f'.ids.length (.ids (rows.map FRow.id)))) ?_ <| .next ?_ .rfl'
      all_goals simp [FConc.step, ho, FConc.stepInsert, flatAt]
  | search q k =>
    by_cases he : ids.isEmpty
    · have hr : r = (.hits [], ⟨ids, cache, count, true⟩, st) := by
        simp [r, ho, flatCall, Flat.search, he]
      rw [hr]
      refine .next ?_ .rfl'
      simp [FConc.step, ho, FConc.stepSearch, flatAt, he]
    · obtain ⟨vs, c, h1, h2⟩ := lone_load (env := env) (thr := thr) (k := min k (ids.length : Int)) ho ids 0
        ⟨ids, cache, count, true⟩ rfl st []
      simp only [List.nil_append] at h2
      refine .next (b := flatAt ⟨ids, cache, count, true⟩ st thr t .limit) ?_ <|
        .next (b := flatAt ⟨ids, cache, count, true⟩ st thr t (.scan (min k (ids.length : Int)) 0 [])) ?_ <|
        h2.trans ?_
      · simp [FConc.step, ho, FConc.stepSearch, flatAt, he]
      · simp [FConc.step, ho, FConc.stepSearch, flatAt]
      · by_cases hv : vs.isEmpty
        · have hr : r = (.hits [], ⟨ids, c, count, true⟩, st) := by
            simp only [r, ho, flatCall, Flat.search, he, h1, hv]
            rfl
          rw [hr, FConc.rank, if_pos hv]
          exact .rfl'
        · by_cases hk : Flat.checkOk env q (vs.map Prod.snd)
          · obtain ⟨h3, h4⟩ := lone_info (env := env) (thr := thr) ho ⟨ids, c, count, true⟩ st
              (Flat.ranked env q (min k (ids.length : Int)) vs) []
            rw [FConc.rank, if_neg hv]
            simp only [hk, Bool.not_true, Bool.false_eq_true, if_false]
            refine h3.trans ?_
            have hr : r = ((match (fetchMeta (plainStore V M) (Flat.ranked env q (min k (ids.length : Int)) vs) st).1 with
                | .ok l => .hits ([] ++ l) | .error _ => .raised), ⟨ids, c, count, true⟩, st) := by
              simp only [r, ho, flatCall, Flat.search, he, h1, hv, hk]
              generalize hg : fetchMeta (plainStore V M) (Flat.ranked env q (min k (ids.length : Int)) vs) st = g at h4
              obtain ⟨g, st'⟩ := g
              dsimp only at h4
              subst h4
              cases g <;> simp [hg]
            rw [hr]
            exact .rfl'
          · have hr : r = (.raised, ⟨ids, c, count, true⟩, st) := by
              simp only [r, ho, flatCall, Flat.search, he, h1, hv, hk]
              rfl
            rw [hr, FConc.rank, if_neg hv]
            simp only [hk, Bool.not_false, if_true]
            exact .rfl'
  | update id v m =>
    by_cases hm : st.mem id
    · have hr : r = (.flag true, ⟨ids, cache.set id v, count, true⟩, st.set id (v, m)) := by
        simp [r, ho, flatCall, Flat.update, plainStore, hm]
      rw [hr]
      refine .next (b := flatAt ⟨ids, cache, count, true⟩ (st.set id (v, m)) thr t .updCache) ?_ <| .next ?_ .rfl'
      all_goals simp [FConc.step, ho, FConc.stepUpdate, flatAt, hm]
    · have hr : r = (.flag false, ⟨ids, cache, count, true⟩, st) := by
        simp [r, ho, flatCall, Flat.update, plainStore, hm]
      rw [hr]
      refine .next ?_ .rfl'
      simp [FConc.step, ho, FConc.stepUpdate, flatAt, hm]
  | delete dels =>
    obtain ⟨b, f', st', h1, h2⟩ := lone_delete (env := env) (thr := thr) ho dels 0 rfl true
      ⟨ids, cache, count, true⟩ st
    have hr : r = (.flag b, { f' with count := f'.ids.length }, st') := by
      simp only [r, ho, flatCall, Flat.delete, h1]
      rfl
    rw [hr]
    refine .next (b := flatAt ⟨ids, cache, count, true⟩ st thr t (.del 0 true)) ?_ (h2.trans ?_)
    · simp [FConc.step, ho, FConc.stepDelete, flatAt]
    · refine .next (b := flatAt f' st' thr t (.count f'.ids.length (.flag b))) ?_ <| .next ?_ .rfl'
      all_goals simp [FConc.step, ho, FConc.stepDelete, flatAt]
end

/-- **C213**, flat index.  Whatever the state of the index, a call nobody interrupts comes to its end, with
the reply and the index and storage a single caller would get; the other threads stay where they are. -/
theorem C213_flat (env : FlatEnv V D) (ops : Nat → FOp V M) (s : FConc V M D) (t : Nat)
    (hs : s.thr t = .start) :
    ∃ n, let e := s.run env ops (List.replicate n t)
      let r := flatCall env (flatOf s) s.store (ops t)
      e.thr t = .done r.1 ∧ e.ids = r.2.1.ids ∧ e.cache = r.2.1.cache ∧ e.count = r.2.1.count ∧
      e.store = r.2.2 ∧ ∀ t', t' ≠ t → e.thr t' = s.thr t' := by
  obtain ⟨n, hn⟩ := lone_flat env ops t s.thr (flatOf s) rfl s.store
  have h0 : flatAt (flatOf s) s.store s.thr t .start = s := by
    obtain ⟨st, ids, cache, count, thr⟩ := s
    dsimp only at hs
    simp only [flatAt, flatOf, ← hs, Function.update_eq_self]
  rw [h0] at hn
  refine ⟨n, ?_⟩
  dsimp only
  rw [hn]
  refine ⟨by simp [flatAt], rfl, rfl, rfl, rfl, fun t' h => ?_⟩
  simp [flatAt, h]

/-- The hypothesis holds; an example: deleting an unknown and a known id gives `False`, with the known one
gone. -/
example : conc3.thr 0 = .start ∧
    (flatCall exFlat (flatOf conc3) conc3.store (.delete ["x", "b"])).1 = .flag false ∧
    (flatCall exFlat (flatOf conc3) conc3.store (.delete ["x", "b"])).2.1.ids = ["a", "c"] ∧
    (conc3.run exFlat (fun _ => .delete ["x", "b"]) (List.replicate 11 0)).thr 0 = .done (.flag false) := by
  decide

end Valori.Props
