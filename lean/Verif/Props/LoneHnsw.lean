import Verif.Props.LoneFlat
import Verif.Props.HnswPar

/-!
# C213: a call nobody interrupts, on an HNSW index
-/

namespace Valori.Props

open Valori Spec

variable {V M D : Type}

/-- The sequential configuration with the random choices of thread `t`. -/
def hnswEnvOf (env : HParEnv V D) (t : Nat) : HnswEnv V D := ⟨env.efSearch, env.dist, env.rnd t⟩

/-- The state with thread `t` at `a`. -/
def hnswAt (st : Dict Id (V × Option M)) (f : Hnsw V) (thr : Nat → HAt M D) (t : Nat) (a : HAt M D) :
    HPar V M D := ⟨st, f.vectors, f.count, f.levels, f.maxLevel, Function.update thr t a⟩

variable [LinearOrder D]

/-- What a call gives, and the index and storage after it, by the sequential model of C01-C06. -/
def hnswCall (env : HnswEnv V D) (f : Hnsw V) (st : Dict Id (V × Option M)) :
    HOp V M → FRes M D × Hnsw V × Dict Id (V × Option M)
  | .insert rows =>
    match Hnsw.insert env (plainStore V M) 2 (rows.map fun r => (r.id, r.v)) (some (rows.map FRow.m)) f st with
    | (.ok l, t) => (.ids l, t)
    | (.error _, t) => (.raised, t)
  | .search q k =>
    match Hnsw.search env (plainStore V M) 1 q k f st with
    | (.ok l, t) => (.hits l, t)
    | (.error _, t) => (.raised, t)

/-- Some steps of thread `t` lead from `s` to `s'`. -/
def HLeads (env : HParEnv V D) (ops : Nat → HOp V M) (t : Nat) (s s' : HPar V M D) : Prop :=
  ∃ n, s.run env ops (List.replicate n t) = s'

section
variable {env : HParEnv V D} {ops : Nat → HOp V M} {t : Nat} {thr : Nat → HAt M D}

theorem HLeads.rfl' {s : HPar V M D} : HLeads env ops t s s := ⟨0, rfl⟩

theorem HLeads.trans {a b c : HPar V M D} (h1 : HLeads env ops t a b) (h2 : HLeads env ops t b c) :
    HLeads env ops t a c := by
  obtain ⟨n, rfl⟩ := h1
  obtain ⟨m, rfl⟩ := h2
  exact ⟨n + m, by simp [HPar.run, ← List.replicate_append_replicate, List.foldl_append]⟩

theorem HLeads.next {a b c : HPar V M D} (h1 : a.step env ops t = b) (h2 : HLeads env ops t b c) :
    HLeads env ops t a c := HLeads.trans ⟨1, h1⟩ h2

/-! ## Searching -/

section
variable {q : V} {k₀ : Int} (ho : ops t = .search q k₀) (st : Dict Id (V × Option M)) (f : Hnsw V)
include ho

theorem lone_sr {p : HSr M D} {a : HAt M D} (h : HPar.stepSr env q k₀ (hnswAt st f thr t (.srch p)) p = a) :
    (hnswAt st f thr t (.srch p)).step env ops t = hnswAt st f thr t a := by
  simp only [HPar.step, ho, hnswAt, Function.update_self, Function.update_idem]
  simp only [hnswAt] at h
  rw [h]

theorem lone_nbr {k : Int} {cl : Nat} {cands todo : List (Id × D)} {n : Id} {d : Level} {ns : List Id}
    (hd : f.levels[cl]? = some d) (hn : d.get? n = some ns) (rest : List Id) :
    ∀ (j : Nat), ns.drop j = rest → ∀ found : List (Id × D),
    HLeads env ops t (hnswAt st f thr t (.srch (.nbr k cl cands todo found n j)))
      (hnswAt st f thr t (match Hnsw.scanNbrs (env.dist q) f.vectors rest with
        | .ok l => .srch (.walk k cl cands todo (found ++ l))
        | .error _ => .done .raised)) := by
  have hnode : ∀ a, HPar.nodeOf (hnswAt st f thr t a) cl n = some ns := by
    intro a; simp [HPar.nodeOf, hnswAt, hd, hn]
  induction rest with
  | nil =>
    intro j hj found
    refine .next (lone_sr ho st f ?_) .rfl'
    simp [HPar.stepSr, hnode, List.getElem?_eq_none (List.drop_eq_nil_iff.1 hj), Hnsw.scanNbrs]
  | cons nb rest ih =>
    intro j hj found
    have hr : ns[j]? = some nb := by rw [← List.head?_drop, hj]; rfl
    have hn : ns.drop (j + 1) = rest := by rw [← List.tail_drop, hj]; rfl
    rw [Hnsw.scanNbrs]
    cases hv : f.vectors.get? nb with
    | none =>
      refine .next (lone_sr ho st f ?_) (ih (j + 1) hn found)
      simp only [HPar.stepSr, hnode, hr]
      simp [hnswAt, hv]
    | some v =>
      cases hdist : env.dist q v with
      | error e =>
        refine .next (lone_sr ho st f ?_) .rfl'
        simp only [HPar.stepSr, hnode, hr]
        simp [hnswAt, hv, hdist]
      | ok x =>
        have h := ih (j + 1) hn (found ++ [(nb, x)])
        refine .next (lone_sr ho st f (a := .srch (.nbr k cl cands todo (found ++ [(nb, x)]) n (j + 1))) ?_) ?_
        · simp only [HPar.stepSr, hnode, hr]
          simp [hnswAt, hv, hdist]
        · refine h.trans ?_
          simp only [hdist]
          cases Hnsw.scanNbrs (env.dist q) f.vectors rest with
          | error e => exact .rfl'
          | ok l => simp only [List.append_assoc, List.cons_append, List.nil_append]; exact .rfl'

theorem lone_walk {k : Int} {cl : Nat} {cands : List (Id × D)} {d : Level}
    (hd : f.levels[cl]? = some d) (todo : List (Id × D)) : ∀ found : List (Id × D),
    HLeads env ops t (hnswAt st f thr t (.srch (.walk k cl cands todo found)))
      (hnswAt st f thr t (match Hnsw.expand (env.dist q) f.vectors d todo with
        | .ok l => .srch (HPar.roundEnd env k cl cands (found ++ l))
        | .error _ => .done .raised)) := by
  induction todo with
  | nil =>
    intro found
    refine .next (lone_sr ho st f ?_) .rfl'
    simp [HPar.stepSr, Hnsw.expand]
  | cons p todo ih =>
    intro found
    obtain ⟨n, x⟩ := p
    rw [Hnsw.expand]
    cases hn : d.get? n with
    | none =>
      have h0 : Hnsw.scanNbrs (env.dist q) f.vectors (Hnsw.nbrs d n) = .ok [] := by
        simp [Hnsw.nbrs, hn, Hnsw.scanNbrs]
      simp only [h0]
      refine .next (lone_sr ho st f (a := .srch (.walk k cl cands todo found)) ?_) ((ih found).trans ?_)
      · simp only [HPar.stepSr]
        simp [hnswAt, hd, Dict.mem, hn]
      · cases Hnsw.expand (env.dist q) f.vectors d todo <;> exact .rfl'
    | some ns =>
      have h0 : Hnsw.nbrs d n = ns := by simp [Hnsw.nbrs, hn]
      rw [h0]
      refine .next (lone_sr ho st f (a := .srch (.nbr k cl cands todo found n 0)) ?_)
        ((lone_nbr ho st f hd hn ns 0 rfl found).trans ?_)
      · simp only [HPar.stepSr]
        simp [hnswAt, hd, Dict.mem, hn]
      · cases Hnsw.scanNbrs (env.dist q) f.vectors ns with
        | error e => exact .rfl'
        | ok l =>
          refine (ih (found ++ l)).trans ?_
          cases Hnsw.expand (env.dist q) f.vectors d todo with
          | error e => exact .rfl'
          | ok l' => simp only [List.append_assoc]; exact .rfl'

/-- The last round: what is left when level 0 is reached with the candidates `c`. -/
def lastRound (env : HParEnv V D) (q : V) (f : Hnsw V) (k : Int) (c : List (Id × D)) : HAt M D :=
  match Hnsw.expand (env.dist q) f.vectors ((f.levels[0]?).getD []) c with
  | .ok fin => .srch (.info (sliceTo (pySortBy Prod.snd (c ++ fin)) k) [])
  | .error _ => .done .raised

theorem lone_descend {k : Int} (cl : Nat) (hcl : cl < f.levels.length) : ∀ c : List (Id × D),
    HLeads env ops t (hnswAt st f thr t (.srch (.walk k cl c c [])))
      (hnswAt st f thr t (match Hnsw.descend (hnswEnvOf env t) q f cl c with
        | .ok c' => lastRound env q f k c'
        | .error _ => .done .raised)) := by
  induction cl with
  | zero =>
    intro c
    have hd : f.levels[0]? = some f.levels[0] := List.getElem?_eq_getElem hcl
    refine (lone_walk ho st f hd c []).trans ?_
    simp only [Hnsw.descend, lastRound, hd, Option.getD_some]
    cases Hnsw.expand (env.dist q) f.vectors f.levels[0] c with
    | error e => exact .rfl'
    | ok l => exact .rfl'
  | succ cl ih =>
    intro c
    have hd : f.levels[cl + 1]? = some f.levels[cl + 1] := List.getElem?_eq_getElem hcl
    refine (lone_walk ho st f hd c []).trans ?_
    simp only [Hnsw.descend, hd, Option.getD_some, hnswEnvOf]
    cases Hnsw.expand (env.dist q) f.vectors f.levels[cl + 1] c with
    | error e => exact .rfl'
    | ok l => exact ih (by omega) _

theorem lone_hinfo (todo : List (Id × D)) : ∀ acc : List (Hit D M),
    HLeads env ops t (hnswAt st f thr t (.srch (.info todo acc)))
      (hnswAt st f thr t (.done (match (fetchMeta (plainStore V M) todo st).1 with
        | .ok l => .hits (acc ++ l) | .error _ => .raised))) ∧
      (fetchMeta (plainStore V M) todo st).2 = st := by
  induction todo with
  | nil =>
    intro acc
    refine ⟨.next (lone_sr ho st f ?_) .rfl', rfl⟩
    simp [HPar.stepSr, fetchMeta]
  | cons p todo ih =>
    intro acc
    obtain ⟨id, d⟩ := p
    rw [fetchMeta]
    cases hs : st.get? id with
    | none =>
      simp only [plainStore, hs]
      refine ⟨.next (lone_sr ho st f ?_) .rfl', trivial⟩
      simp only [HPar.stepSr]
      simp [hnswAt, hs]
    | some x =>
      obtain ⟨v, m⟩ := x
      obtain ⟨h1, h2⟩ := ih (acc ++ [⟨id, d, m⟩])
      generalize hr : fetchMeta (plainStore V M) todo st = r at h1 h2
      obtain ⟨r, st'⟩ := r
      simp only [plainStore] at hr
      simp only [plainStore, hs, hr]
      dsimp only at h2
      subst h2
      refine ⟨.next (lone_sr ho _ f (a := .srch (.info todo (acc ++ [⟨id, d, m⟩]))) ?_) (h1.trans ?_), ?_⟩
      · simp only [HPar.stepSr]
        simp [hnswAt, hs]
      · cases r <;> simp [HLeads.rfl']
      · cases r <;> rfl

theorem lone_search (hf : f.inited = true) (hl : f.levels ≠ []) :
    HLeads env ops t (hnswAt st f thr t .start)
      (hnswAt st f thr t (.done (match (Hnsw.search (hnswEnvOf env t) (plainStore V M) 1 q k₀ f st).1 with
        | .ok l => .hits l | .error _ => .raised))) ∧
      (Hnsw.search (hnswEnvOf env t) (plainStore V M) 1 q k₀ f st).2 = (f, st) := by
  have hlen : 0 < f.levels.length := List.length_pos_iff.2 hl
  by_cases he : f.vectors.isEmpty
  · simp only [Hnsw.search, hf, he]
    refine ⟨.next ?_ .rfl', rfl⟩
    simp [HPar.step, ho, hnswAt, he]
  · let k := min k₀ (f.vectors.length : Int)
    let cl := min f.maxLevel (f.levels.length - 1)
    have hcl : cl < f.levels.length := by simp only [cl]; omega
    have hd : f.levels[cl]? = some f.levels[cl] := List.getElem?_eq_getElem hcl
    have h1 : HLeads env ops t (hnswAt st f thr t .start) (hnswAt st f thr t (.srch (.top k cl))) := by
      refine .next (b := hnswAt st f thr t (.srch .limit)) ?_ <|
        .next (lone_sr ho st f (a := .srch (.topMax k)) ?_) <|
        .next (lone_sr ho st f (a := .srch (.topLen k f.maxLevel)) ?_) <| .next (lone_sr ho st f ?_) .rfl'
      · simp [HPar.step, ho, hnswAt, he]
      all_goals simp only [HPar.stepSr, hnswAt, k, cl]
    have h2 : HLeads env ops t (hnswAt st f thr t (.srch (.top k cl)))
        (hnswAt st f thr t (match Hnsw.entry (hnswEnvOf env t) q f f.levels[cl] with
          | .ok c0 => .srch (.walk k cl c0 c0 [])
          | .error _ => .done .raised)) := by
      generalize htop : f.levels[cl] = d at hd
      cases d with
      | nil =>
        refine .next (lone_sr ho st f ?_) .rfl'
        simp only [HPar.stepSr, hnswAt, hd, Hnsw.entry]
        rfl
      | cons e d =>
        obtain ⟨n, ns⟩ := e
        refine .next (lone_sr ho st f (a := .srch (.iter k cl)) (by simp [HPar.stepSr, hnswAt, hd])) <|
          .next (lone_sr ho st f (a := .srch (.next k cl (d.length + 1))) (by simp [HPar.stepSr, hnswAt, hd])) <|
          .next (lone_sr ho st f (a := .srch (.entry k cl n)) (by simp [HPar.stepSr, hnswAt, hd])) <|
          .next (lone_sr ho st f ?_) .rfl'
        simp only [HPar.stepSr, hnswAt, Hnsw.entry, hnswEnvOf]
        cases f.vectors.get? n with
        | none => rfl
        | some v =>
          simp only
          cases env.dist q v <;> rfl
    have h3 := h1.trans h2
    simp only [Hnsw.search, hf, he, Hnsw.candidates]
    rw [show min f.maxLevel (f.levels.length - 1) = cl from rfl, hd, Option.getD_some]
    cases hent : Hnsw.entry (hnswEnvOf env t) q f f.levels[cl] with
    | error e => rw [hent] at h3; exact ⟨h3, rfl⟩
    | ok c0 =>
      rw [hent] at h3
      replace h3 := h3.trans (lone_descend ho st f cl hcl c0)
      simp only
      cases hdes : Hnsw.descend (hnswEnvOf env t) q f cl c0 with
      | error e => rw [hdes] at h3; exact ⟨h3, rfl⟩
      | ok c =>
        rw [hdes] at h3
        simp only [lastRound] at h3
        simp only
        have hfin : ∀ cs, HLeads env ops t (hnswAt st f thr t .start)
              (hnswAt st f thr t (.srch (.info (sliceTo (pySortBy Prod.snd cs) k) []))) →
            HLeads env ops t (hnswAt st f thr t .start)
              (hnswAt st f thr t (.done (match (fetchMeta (plainStore V M)
                (sliceTo (pySortBy Prod.snd cs) (min k₀ (f.vectors.length : Int))) st).1 with
                | .ok l => .hits l | .error _ => .raised))) ∧
            (fetchMeta (plainStore V M) (sliceTo (pySortBy Prod.snd cs) (min k₀ (f.vectors.length : Int))) st).2
              = st := by
          intro cs h
          obtain ⟨h4, h5⟩ := lone_hinfo (thr := thr) (env := env) ho st f
            (sliceTo (pySortBy Prod.snd cs) k) []
          exact ⟨h.trans h4, h5⟩
        by_cases hc : c.isEmpty
        · have hcn : c = [] := List.isEmpty_iff.1 hc
          subst hcn
          simp only [Hnsw.expand, List.append_nil] at h3
          obtain ⟨h4, h5⟩ := hfin [] h3
          simp only [hc, if_true]
          generalize fetchMeta (plainStore V M)
            (sliceTo (pySortBy Prod.snd ([] : List (Id × D))) (min k₀ (f.vectors.length : Int))) st = x at h4 h5
          obtain ⟨x, st'⟩ := x
          dsimp only at h5
          subst h5
          cases x <;> exact ⟨h4, rfl⟩
        · simp only [hc]
          cases hex : Hnsw.expand (env.dist q) f.vectors ((f.levels[0]?).getD []) c with
          | error e =>
            rw [hex] at h3
            refine ⟨?_, ?_⟩ <;> simp [hnswEnvOf, hex]
            exact h3
          | ok fin =>
            rw [hex] at h3
            obtain ⟨h4, h5⟩ := hfin (c ++ fin) h3
            simp only [hnswEnvOf, hex, Bool.false_eq_true, if_false]
            generalize fetchMeta (plainStore V M)
              (sliceTo (pySortBy Prod.snd (c ++ fin)) (min k₀ (f.vectors.length : Int))) st = x at h4 h5
            obtain ⟨x, st'⟩ := x
            dsimp only at h5
            subst h5
            cases x <;> exact ⟨h4, rfl⟩
end

/-! ## Inserting -/

/-- Apply `g i` to the levels `i < m`. -/
def firstLevels (g : Nat → Level → Level) (m : Nat) (L : List Level) : List Level :=
  L.mapIdx fun i d => if i < m then g i d else d

theorem firstLevels_zero (g : Nat → Level → Level) (L : List Level) : firstLevels g 0 L = L := by
  apply List.ext_getElem?
  intro i
  simp [firstLevels]

theorem firstLevels_get (g : Nat → Level → Level) (m : Nat) (L : List Level) (i : Nat) :
    (firstLevels g m L)[i]? = (L[i]?).map fun d => if i < m then g i d else d := by
  simp [firstLevels]

theorem firstLevels_succ (g : Nat → Level → Level) (m : Nat) (L : List Level) {d : Level} (h : L[m]? = some d) :
    (firstLevels g m L).set m (g m d) = firstLevels g (m + 1) L := by
  apply List.ext_getElem?
  intro i
  rw [List.getElem?_set, firstLevels_get, firstLevels_get]
  by_cases hi : m = i
  · subst hi
    obtain ⟨hl, rfl⟩ := List.getElem?_eq_some_iff.1 h
    simp [firstLevels, hl]
  · rw [if_neg hi]
    have : (i < m + 1) ↔ i < m := by omega
    simp only [this]

theorem onLevels_eq (g : Nat → Level → Level) (level : Nat) (L : List Level) :
    Hnsw.onLevels g level 0 L = firstLevels g (level + 1) L := by
  have : ∀ (o : Nat), Hnsw.onLevels g level o L = L.mapIdx fun i d => if o + i ≤ level then g (o + i) d else d := by
    induction L with
    | nil => intro o; rfl
    | cons d L ih =>
      intro o
      simp only [Hnsw.onLevels, List.mapIdx_cons, ih, Nat.add_zero]
      congr 1
      apply List.ext_getElem?
      intro i
      simp only [List.getElem?_mapIdx]
      have e : o + 1 + i = o + (i + 1) := by omega
      rw [e]
  rw [this]
  apply List.ext_getElem?
  intro i
  simp only [firstLevels, List.getElem?_mapIdx, Nat.zero_add, Nat.lt_succ_iff]

theorem set_same {L : List Level} {l : Nat} {d : Level} (h : L[l]? = some d) : L.set l d = L := by
  apply List.ext_getElem?
  intro i
  rw [List.getElem?_set]
  split
  · rename_i e
    subst e
    obtain ⟨hl, rfl⟩ := List.getElem?_eq_some_iff.1 h
    simp [hl]
  · rfl

theorem keys_set_self {d : Level} {a : Id} (ns : List Id) (h : a ∈ d.keys) : (d.set a ns).keys = d.keys := by
  rw [Dict.keys_set, if_pos h]

theorem keys_addLink {d : Level} {a : Id} (b : Id) (h : a ∈ d.keys) : (Hnsw.addLink d a b).keys = d.keys := by
  unfold Hnsw.addLink
  split
  · rfl
  · exact keys_set_self _ h

section
variable {rows : List (FRow V M)} (ho : ops t = .insert rows) (st : Dict Id (V × Option M))
include ho

theorem lone_in {f : Hnsw V} {i : Nat} {p : HIns} {b : HPar V M D}
    (h : HPar.stepIns env rows (hnswAt st f thr t (.ins i p)) t i p = b) :
    (hnswAt st f thr t (.ins i p)).step env ops t = b := by
  rw [← h]
  simp only [HPar.step, ho]
  simp [hnswAt]

omit ho in
theorem setNode_eq {L : List Level} {l : Nat} {d : Level} (h : L[l]? = some d) (a : Id) (ns : List Id) :
    HPar.setNode L l a ns = L.set l (d.set a ns) := by
  unfold HPar.setNode
  apply List.ext_getElem?
  intro i
  rw [List.getElem?_modify, List.getElem?_set]
  by_cases hi : l = i
  · subst hi
    obtain ⟨hl, rfl⟩ := List.getElem?_eq_some_iff.1 h
    simp [hl]
  · simp [hi]

theorem lone_connect {i l : Nat} {r : FRow V M} (hr : rows[i]? = some r) (todo : List Id) :
    ∀ (f : Hnsw V) (d : Level), f.levels[l]? = some d → r.id ∈ d.keys → (∀ nb ∈ todo, nb ∈ d.keys) →
    HLeads env ops t (hnswAt st f thr t (.ins i (.has l todo)))
      (hnswAt st { f with levels := f.levels.set l (Hnsw.connect r.id todo d) } thr t
        (.ins i (.sample (l + 1)))) := by
  induction todo with
  | nil =>
    intro f d hd hid hsub
    refine .next (lone_in ho st ?_) .rfl'
    simp [HPar.stepIns, hr, Hnsw.connect, hnswAt, set_same hd]
  | cons nb todo ih =>
    intro f d hd hid hsub
    have hl : l < f.levels.length := (List.getElem?_eq_some_iff.1 hd).1
    by_cases hnb : nb = r.id
    · refine .next (lone_in ho st (b := hnswAt st f thr t (.ins i (.has l todo))) ?_) ?_
      · simp [HPar.stepIns, hr, hnb, hnswAt]
      · simpa [Hnsw.connect, hnb] using ih f d hd hid (fun x hx => hsub x (by simp [hx]))
    · have hnk : nb ∈ d.keys := hsub nb (by simp)
      have hget : ∀ {e : Level} {a : Id}, a ∈ e.keys → e.get? a = some (Hnsw.nbrs e a) := by
        intro e a h
        obtain ⟨x, hx⟩ := Option.isSome_iff_exists.1 ((Dict.mem_keys e a).1 h)
        simp [Hnsw.nbrs, hx]
      have hk1 := keys_addLink (d := d) r.id hnk
      have hk2 : (Hnsw.addLink (Hnsw.addLink d nb r.id) r.id nb).keys = d.keys :=
        (keys_addLink (d := Hnsw.addLink d nb r.id) nb (by rw [hk1]; exact hid)).trans hk1
      let f1 : Hnsw V := { f with levels := f.levels.set l (Hnsw.addLink d nb r.id) }
      let f2 : Hnsw V := { f with levels := f.levels.set l (Hnsw.addLink (Hnsw.addLink d nb r.id) r.id nb) }
      have h1 : HLeads env ops t (hnswAt st f thr t (.ins i (.has l (nb :: todo))))
          (hnswAt st f1 thr t (.ins i (.backHas l nb todo))) := by
        have hn : ∀ a, HPar.nodeOf (hnswAt st f thr t a) l nb = some (Hnsw.nbrs d nb) := by
          intro a; simp [HPar.nodeOf, hnswAt, hd, hget hnk]
        by_cases hm : r.id ∈ Hnsw.nbrs d nb
        · have e : f1 = f := by simp only [f1, Hnsw.addLink, if_pos hm, set_same hd]
          rw [e]
          refine .next (lone_in ho st ?_) .rfl'
          simp only [HPar.stepIns, hr, hnb, hn, hm]
          simp [hnswAt]
        · refine .next (lone_in ho st (b := hnswAt st f thr t (.ins i (.push l nb todo))) ?_) <|
            .next (lone_in ho st ?_) .rfl'
          · simp only [HPar.stepIns, hr, hnb, hn, hm]
            simp [hnswAt]
          · simp only [HPar.stepIns, hr, hn]
            simp [hnswAt, f1, Hnsw.addLink, hm, setNode_eq hd]
      have h2 : HLeads env ops t (hnswAt st f1 thr t (.ins i (.backHas l nb todo)))
          (hnswAt st f2 thr t (.ins i (.has l todo))) := by
        have hd1 : f1.levels[l]? = some (Hnsw.addLink d nb r.id) := by
          simp only [f1]; rw [List.getElem?_set_self hl]
        have hn : ∀ a, HPar.nodeOf (hnswAt st f1 thr t a) l r.id =
            some (Hnsw.nbrs (Hnsw.addLink d nb r.id) r.id) := by
          intro a
          simp only [HPar.nodeOf, hnswAt, hd1, Option.bind_some]
          exact hget (by rw [hk1]; exact hid)
        by_cases hm : nb ∈ Hnsw.nbrs (Hnsw.addLink d nb r.id) r.id
        · have e : f2 = f1 := by
            have : Hnsw.addLink (Hnsw.addLink d nb r.id) r.id nb = Hnsw.addLink d nb r.id := by
              rw [Hnsw.addLink, if_pos hm]
            simp only [f2, f1, this]
          rw [e]
          refine .next (lone_in ho st ?_) .rfl'
          simp only [HPar.stepIns, hr, hn, hm]
          simp [hnswAt]
        · refine .next (lone_in ho st (b := hnswAt st f1 thr t (.ins i (.backPush l nb todo))) ?_) <|
            .next (lone_in ho st ?_) .rfl'
          · simp only [HPar.stepIns, hr, hn, hm]
            simp [hnswAt]
          · have e : f2.levels = f1.levels.set l ((Hnsw.addLink d nb r.id).set r.id
                (Hnsw.nbrs (Hnsw.addLink d nb r.id) r.id ++ [nb])) := by
              have : Hnsw.addLink (Hnsw.addLink d nb r.id) r.id nb = (Hnsw.addLink d nb r.id).set r.id
                (Hnsw.nbrs (Hnsw.addLink d nb r.id) r.id ++ [nb]) := by
                rw [Hnsw.addLink, if_neg hm]
              simp only [f2, f1, this, List.set_set]
            simp only [HPar.stepIns, hr, hn]
            simp only [hnswAt, Function.update_idem, e, setNode_eq hd1]
            rfl
      have h3 := ih f2 _ (by simp only [f2]; rw [List.getElem?_set_self hl]) (by rw [hk2]; exact hid)
        (fun x hx => by rw [hk2]; exact hsub x (by simp [hx]))
      have h4 := h1.trans (h2.trans h3)
      simpa [f2, Hnsw.connect, hnb] using h4

/-- The level with the new node, and the sampled neighbours. -/
theorem insertLevel_eq (id : Id) (pick : List Id → List Id) (d : Level) :
    Hnsw.insertLevel id pick d =
      Hnsw.connect id ((pick (Hnsw.addNode d id).keys).filter (· ∈ (Hnsw.addNode d id).keys)) (Hnsw.addNode d id) :=
  rfl

theorem lone_grow {i : Nat} {r : FRow V M} (hr : rows[i]? = some r) (n : Nat) :
    ∀ f : Hnsw V, env.level t i + 1 - f.levels.length = n →
    HLeads env ops t (hnswAt st f thr t (.ins i .test))
      (hnswAt st { f with levels := Hnsw.pad f.levels (env.level t i) } thr t (.ins i (.node 0))) := by
  induction n with
  | zero =>
    intro f hn
    have hlt : ¬ f.levels.length ≤ env.level t i := by omega
    refine .next (lone_in ho st ?_) .rfl'
    simp only [HPar.stepIns, hr]
    simp [hnswAt, hlt, Hnsw.pad, hn]
  | succ n ih =>
    intro f hn
    have hle : f.levels.length ≤ env.level t i := by omega
    have h := ih { f with levels := f.levels ++ [[]] } (by simp; omega)
    refine .next (lone_in ho st (b := hnswAt st f thr t (.ins i .grow)) ?_) <|
      .next (lone_in ho st (b := hnswAt st { f with levels := f.levels ++ [[]] } thr t (.ins i .test)) ?_) <|
      h.trans ?_
    · simp only [HPar.stepIns, hr]
      simp [hnswAt, hle]
    · simp only [HPar.stepIns, hr]
      simp [hnswAt]
    · have e : Hnsw.pad (f.levels ++ [[]]) (env.level t i) = Hnsw.pad f.levels (env.level t i) := by
        unfold Hnsw.pad
        rw [hn, List.length_append, List.length_singleton, List.append_assoc]
        have : env.level t i + 1 - (f.levels.length + 1) = n := by omega
        rw [this, List.replicate_succ]
        rfl
      simp only [e]
      exact .rfl'

theorem lone_nodes {i : Nat} {r : FRow V M} (hr : rows[i]? = some r) (L : List Level)
    (hL : env.level t i < L.length) (n : Nat) :
    ∀ (m : Nat) (f : Hnsw V), env.level t i + 1 - m = n → m ≤ env.level t i + 1 →
    f.levels = firstLevels (fun _ d => Hnsw.addNode d r.id) m L →
    HLeads env ops t (hnswAt st f thr t (.ins i (.node m)))
      (hnswAt st { f with levels := firstLevels (fun _ d => Hnsw.addNode d r.id) (env.level t i + 1) L } thr t
        (.ins i .readMax)) := by
  induction n with
  | zero =>
    intro m f hn hm hf
    obtain rfl : m = env.level t i + 1 := by omega
    rw [← hf]
    refine .next (lone_in ho st ?_) .rfl'
    simp only [HPar.stepIns, hr]
    simp [hnswAt]
  | succ n ih =>
    intro m f hn hm hf
    have hml : m < L.length := by omega
    have hd : L[m]? = some L[m] := List.getElem?_eq_getElem hml
    have hfd : f.levels[m]? = some L[m] := by rw [hf, firstLevels_get, hd]; simp
    have h := ih (m + 1) { f with levels := f.levels.set m (Hnsw.addNode L[m] r.id) } (by omega) (by omega)
      (by simp only [hf]; exact firstLevels_succ (fun _ d => Hnsw.addNode d r.id) m L hd)
    refine .next (lone_in ho st ?_) h
    have hlt : ¬ env.level t i < m := by omega
    simp only [HPar.stepIns, hr, hlt]
    simp [hnswAt, hfd]

theorem lone_sample {i : Nat} {r : FRow V M} (hr : rows[i]? = some r) (L : List Level)
    (hL : env.level t i < L.length) (hin : ∀ l d, l ≤ env.level t i → L[l]? = some d → r.id ∈ d.keys) (n : Nat) :
    ∀ (m : Nat) (f : Hnsw V), env.level t i + 1 - m = n → m ≤ env.level t i + 1 →
    f.levels = firstLevels (fun l d => Hnsw.connect r.id
      (((env.rnd t i).pick l d.keys).filter (· ∈ d.keys)) d) m L →
    HLeads env ops t (hnswAt st f thr t (.ins i (.sample m)))
      (hnswAt st { f with levels := firstLevels (fun l d => Hnsw.connect r.id
        (((env.rnd t i).pick l d.keys).filter (· ∈ d.keys)) d) (env.level t i + 1) L } thr t
        (.ins (i + 1) .store)) := by
  induction n with
  | zero =>
    intro m f hn hm hf
    obtain rfl : m = env.level t i + 1 := by omega
    rw [← hf]
    refine .next (lone_in ho st ?_) .rfl'
    simp only [HPar.stepIns, hr]
    simp [hnswAt]
  | succ n ih =>
    intro m f hn hm hf
    have hml : m < L.length := by omega
    have hd : L[m]? = some L[m] := List.getElem?_eq_getElem hml
    have hfd : f.levels[m]? = some L[m] := by rw [hf, firstLevels_get, hd]; simp
    have hlt : ¬ env.level t i < m := by omega
    have h1 := lone_connect (env := env) (thr := thr) ho st hr
      (((env.rnd t i).pick m L[m].keys).filter (· ∈ L[m].keys)) f L[m] hfd
      (hin m _ (by omega) hd) (fun nb h => by simpa using (List.mem_filter.1 h).2)
    have h := ih (m + 1) { f with levels := f.levels.set m (Hnsw.connect r.id
      (((env.rnd t i).pick m L[m].keys).filter (· ∈ L[m].keys)) L[m]) } (by omega) (by omega)
      (by simp only [hf]; exact firstLevels_succ (fun l d => Hnsw.connect r.id
        (((env.rnd t i).pick l d.keys).filter (· ∈ d.keys)) d) m L hd)
    refine .next (lone_in ho st ?_) (h1.trans h)
    simp only [HPar.stepIns, hr, hlt]
    simp [hnswAt, hfd]

theorem lone_row {i : Nat} {r : FRow V M} (hr : rows[i]? = some r) (f : Hnsw V) (hi : f.draws = i) :
    HLeads env ops t (hnswAt st f thr t (.ins i .store))
      (hnswAt (st.set r.id (r.v, r.m)) (Hnsw.insertInternal (hnswEnvOf env t) r.id r.v f) thr t
        (.ins (i + 1) .store)) := by
  let st1 := st.set r.id (r.v, r.m)
  let f1 : Hnsw V := { f with vectors := f.vectors.set r.id r.v, count := (f.vectors.set r.id r.v).length }
  let L := Hnsw.pad f.levels (env.level t i)
  have hL : env.level t i < L.length := by simp only [L, Hnsw.pad, List.length_append, List.length_replicate]; omega
  let addN : Nat → Level → Level := fun _ d => Hnsw.addNode d r.id
  let conn : Nat → Level → Level := fun l d =>
    Hnsw.connect r.id (((env.rnd t i).pick l d.keys).filter (· ∈ d.keys)) d
  let L1 := firstLevels addN (env.level t i + 1) L
  let f2 : Hnsw V := { f1 with levels := L1 }
  let f3 : Hnsw V := { f2 with maxLevel := max f.maxLevel (env.level t i) }
  have h1 : HLeads env ops t (hnswAt st f thr t (.ins i .store)) (hnswAt st1 f1 thr t (.ins i .test)) := by
    refine .next (lone_in ho st (b := hnswAt st1 f thr t (.ins i .vec)) ?_) <|
      .next (lone_in ho st1 (b := hnswAt st1 { f with vectors := f.vectors.set r.id r.v } thr t (.ins i .len)) ?_) <|
      .next (lone_in ho st1 (b := hnswAt st1 { f with vectors := f.vectors.set r.id r.v } thr t
        (.ins i (.count (f.vectors.set r.id r.v).length))) ?_) <|
      .next (lone_in ho st1 ?_) .rfl'
    all_goals simp only [HPar.stepIns, hr]
    all_goals simp [hnswAt, st1, f1]
  have h2 := lone_grow (env := env) (thr := thr) ho st1 hr _ f1 rfl
  have h3 := lone_nodes (env := env) (thr := thr) ho st1 hr L hL _ 0 { f1 with levels := L } rfl (Nat.zero_le _)
    (firstLevels_zero _ _).symm
  have h4 : HLeads env ops t (hnswAt st1 f2 thr t (.ins i .readMax)) (hnswAt st1 f3 thr t (.ins i (.sample 0))) := by
    refine .next (lone_in ho st1 (b := hnswAt st1 f2 thr t (.ins i (.setMax (max f.maxLevel (env.level t i))))) ?_) <|
      .next (lone_in ho st1 ?_) .rfl'
    all_goals simp only [HPar.stepIns, hr]
    all_goals simp [hnswAt, f1, f2, f3]
  have hin : ∀ l d, l ≤ env.level t i → L1[l]? = some d → r.id ∈ d.keys := by
    intro l d hl hd
    rw [firstLevels_get] at hd
    obtain ⟨d0, -, rfl⟩ := Option.map_eq_some_iff.1 hd
    rw [if_pos (by omega)]
    simp only [addN, Hnsw.addNode]
    split
    · rename_i h; exact (Dict.mem_keys _ _).2 h
    · rw [Dict.mem_keys]; simp
  have h5 := lone_sample (env := env) (thr := thr) ho st1 hr L1 (by simpa [L1, firstLevels] using hL) hin _ 0 f3 rfl
    (Nat.zero_le _) (firstLevels_zero _ _).symm
  have hend : firstLevels conn (env.level t i + 1) L1 =
      Hnsw.onLevels (fun l => Hnsw.insertLevel r.id ((env.rnd t i).pick l)) (env.level t i) 0 L := by
    rw [onLevels_eq]
    apply List.ext_getElem?
    intro l
    simp only [L1, firstLevels_get, Option.map_map]
    congr 1
    funext d
    simp only [Function.comp_apply]
    split
    · rfl
    · rfl
  have h6 := h1.trans (h2.trans (h3.trans (h4.trans h5)))
  have e : hnswAt st1 { f3 with levels := firstLevels conn (env.level t i + 1) L1 } thr t (.ins (i + 1) .store) =
      hnswAt (st.set r.id (r.v, r.m)) (Hnsw.insertInternal (hnswEnvOf env t) r.id r.v f) thr t
        (.ins (i + 1) .store) := by
    simp only [hend, Hnsw.insertInternal, hnswEnvOf, hi]
    rfl
  rw [← e]
  exact h6

theorem lone_rows (rest : List (FRow V M)) :
    ∀ (j : Nat), rows.drop j = rest → ∀ (f : Hnsw V) (st : Dict Id (V × Option M)), f.draws = j →
    ∃ f' st', Hnsw.insertLoop (hnswEnvOf env t) (plainStore V M) (some (rows.map FRow.m)) j
        (rest.map fun r => (r.id, r.v)) f st = (.ok (rest.map FRow.id), f', st') ∧
      HLeads env ops t (hnswAt st f thr t (.ins j .store))
        (hnswAt st' f' thr t (.done (.ids (rows.map FRow.id)))) := by
  induction rest with
  | nil =>
    intro j hj f st _
    refine ⟨f, st, rfl, .next (lone_in ho st ?_) .rfl'⟩
    simp only [HPar.stepIns, List.getElem?_eq_none (List.drop_eq_nil_iff.1 hj)]
    simp [hnswAt]
  | cons r rest ih =>
    intro j hj f st hdr
    have hr : rows[j]? = some r := by rw [← List.head?_drop, hj]; rfl
    have hn : rows.drop (j + 1) = rest := by rw [← List.tail_drop, hj]; rfl
    obtain ⟨f', st', h1, h2⟩ := ih (j + 1) hn (Hnsw.insertInternal (hnswEnvOf env t) r.id r.v f)
      (st.set r.id (r.v, r.m)) (by simp [Hnsw.insertInternal, hdr])
    refine ⟨f', st', ?_, (lone_row ho st hr f hdr).trans h2⟩
    simp only [List.map_cons, Hnsw.insertLoop, plainStore, rowMeta_all rows hr]
    simp only [plainStore] at h1
    simp only [h1]
end
end

/-- **C213**, HNSW index.  Whatever the state of the index (as long as it has a level, as it has from
`initialize` on), a call nobody interrupts comes to its end, with the reply and the index and storage a single
caller would get who makes the same random choices; the other threads stay where they are. -/
theorem C213_hnsw (env : HParEnv V D) (ops : Nat → HOp V M) (s : HPar V M D) (t : Nat)
    (hs : s.thr t = .start) (hl : s.levels ≠ []) :
    ∃ n, let e := s.run env ops (List.replicate n t)
      let r := hnswCall (hnswEnvOf env t) (hnswLeft s) s.store (ops t)
      e.thr t = .done r.1 ∧ e.levels = r.2.1.levels ∧ e.vectors = r.2.1.vectors ∧
      e.maxLevel = r.2.1.maxLevel ∧ e.count = r.2.1.count ∧ e.store = r.2.2 ∧
      ∀ t', t' ≠ t → e.thr t' = s.thr t' := by
  have h0 : hnswAt s.store (hnswLeft s) s.thr t .start = s := by
    obtain ⟨st, vs, co, lv, mx, thr⟩ := s
    dsimp only at hs
    simp only [hnswAt, hnswLeft, ← hs, Function.update_eq_self]
  have key : ∃ n, s.run env ops (List.replicate n t) =
      hnswAt (hnswCall (hnswEnvOf env t) (hnswLeft s) s.store (ops t)).2.2
        (hnswCall (hnswEnvOf env t) (hnswLeft s) s.store (ops t)).2.1 s.thr t
        (.done (hnswCall (hnswEnvOf env t) (hnswLeft s) s.store (ops t)).1) := by
    cases ho : ops t with
    | insert rows =>
      obtain ⟨f', st', h1, h2⟩ := lone_rows (env := env) (thr := s.thr) ho rows 0 rfl (hnswLeft s) s.store rfl
      have h3 : HLeads env ops t (hnswAt s.store (hnswLeft s) s.thr t .start)
          (hnswAt st' f' s.thr t (.done (.ids (rows.map FRow.id)))) := by
        refine .next ?_ h2
        simp [HPar.step, ho, hnswAt]
      rw [h0] at h3
      have hc : hnswCall (hnswEnvOf env t) (hnswLeft s) s.store (.insert rows) =
          (.ids (rows.map FRow.id), f', st') := by
        simp only [hnswCall, Hnsw.insert, h1]
        rfl
      rw [hc]
      exact h3
    | search q k =>
      obtain ⟨h1, h2⟩ := lone_search (env := env) (thr := s.thr) ho s.store (hnswLeft s) rfl hl
      rw [h0] at h1
      simp only [hnswCall]
      generalize Hnsw.search (hnswEnvOf env t) (plainStore V M) 1 q k (hnswLeft s) s.store = x at h1 h2
      obtain ⟨x, f', st'⟩ := x
      obtain ⟨rfl, rfl⟩ := Prod.mk.inj h2
      cases x <;> exact h1
  obtain ⟨n, hn⟩ := key
  refine ⟨n, ?_⟩
  dsimp only
  rw [hn]
  refine ⟨by simp [hnswAt], rfl, rfl, rfl, rfl, rfl, fun t' h => ?_⟩
  simp [hnswAt, h]

/-- The hypotheses hold, and the call of the sequential model is no trivial one: three rows on three levels,
then a search. -/
example :
    let c := hnswCall (hnswEnvOf (exHPar [[1, 2, 0]] 2) 0) (hnswLeft emptyHnsw) emptyHnsw.store (threeAndSearch 0)
    emptyHnsw.thr 0 = .start ∧ emptyHnsw.levels ≠ [] ∧ c.1 = .ids ["a", "b", "c"] ∧
    c.2.1.levels.map List.length = [3, 2, 1] ∧ c.2.1.maxLevel = 2 ∧
    (hnswCall (hnswEnvOf (exHPar [[0, 0, 0]] 2) 1) { c.2.1 with maxLevel := 0 } c.2.2 (threeAndSearch 1)).1 =
      .hits [⟨"c", 2, none⟩, ⟨"b", 8, some 7⟩] := by
  decide +kernel

end Valori.Props
