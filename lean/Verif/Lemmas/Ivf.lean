import Verif.Model.Ivf
import Verif.Lemmas.Flat

/-! Invariants of the IVF index and their preservation. -/

namespace Valori
open Spec (Item Hit IxCall IxReply IsTopK put)
open Spec

variable {σ V M D : Type} {B : Backend σ V M} {okId : Id → Prop} {okM : M → Prop}

theorem pySortBy_perm {α : Type} [LinearOrder D] (key : α → D) (l : List α) :
    (pySortBy key l).Perm l := List.perm_insertionSort _ _

theorem pySortBy_sorted {α : Type} [LinearOrder D] (key : α → D) (l : List α) :
    (pySortBy key l).Pairwise (fun a b => key a ≤ key b) :=
  @List.pairwise_insertionSort _ (fun a b : α => key a ≤ key b) _
    ⟨fun _ _ => le_total _ _⟩ ⟨fun _ _ _ => le_trans⟩ l

/-- Stability. -/
theorem pySortBy_stable {α : Type} [LinearOrder D] (key : α → D) {l : List α} {a b : α}
    (h : key a ≤ key b) (hs : [a, b].Sublist l) : [a, b].Sublist (pySortBy key l) :=
  List.pair_sublist_insertionSort h hs

namespace Ivf

/-- All cluster members. -/
def members (cl : Dict Nat (List Id)) : List Id := (cl.map Prod.snd).flatten

theorem members_add (cl : Dict Nat (List Id)) (c : Nat) (id : Id) :
    (members (cl.set c ((cl.get? c).getD [] ++ [id]))).Perm (id :: members cl) := by
  induction cl with
  | nil => simp [members, Dict.set, Dict.get?]
  | cons e cl ih =>
    obtain ⟨k, l⟩ := e
    simp only [Dict.set, Dict.get?]
    split
    · simp only [members, List.map_cons, List.flatten_cons, Option.getD_some, List.append_assoc,
        List.singleton_append]
      exact List.perm_middle
    · simp only [members, List.map_cons, List.flatten_cons] at ih ⊢
      exact (List.Perm.append_left _ ih).trans List.perm_middle

theorem keys_set_sub (cl : Dict Nat (List Id)) (c : Nat) (l : List Id) :
    ∀ k ∈ (cl.set c l).map Prod.fst, k ∈ cl.map Prod.fst ∨ k = c := by
  induction cl with
  | nil => simp [Dict.set]
  | cons e cl ih =>
    obtain ⟨k, l'⟩ := e
    simp only [Dict.set]
    split
    · intro k' hk'; left; simpa using hk'
    · intro k' hk'
      simp only [List.map_cons, List.mem_cons] at hk' ⊢
      rcases hk' with rfl | hk'
      · exact .inl (.inl rfl)
      · rcases ih k' hk' with h | h
        · exact .inl (.inr h)
        · exact .inr h

theorem keys_set_nodup {cl : Dict Nat (List Id)} (h : (cl.map Prod.fst).Nodup) (c : Nat)
    (l : List Id) : ((cl.set c l).map Prod.fst).Nodup := by
  induction cl with
  | nil => simp [Dict.set]
  | cons e cl ih =>
    obtain ⟨k, l'⟩ := e
    simp only [List.map_cons, List.nodup_cons] at h
    simp only [Dict.set]
    split
    · simpa using h
    · rename_i hne
      simp only [List.map_cons, List.nodup_cons]
      refine ⟨?_, ih h.2⟩
      intro hk
      rcases keys_set_sub cl c l k hk with h' | h'
      · exact h.1 h'
      · exact hne h'

theorem dropAll_keys (id : Id) (cl : Dict Nat (List Id)) :
    (dropAll id cl).map Prod.fst = cl.map Prod.fst := by
  simp [dropAll, List.map_map, Function.comp_def]

theorem dropFirst_keys (id : Id) (cl : Dict Nat (List Id)) :
    (dropFirst id cl).map Prod.fst = cl.map Prod.fst := by
  induction cl with
  | nil => rfl
  | cons e cl ih =>
    obtain ⟨k, l⟩ := e
    simp only [dropFirst]
    split <;> simp [ih]

theorem members_dropAll (id : Id) {cl : Dict Nat (List Id)} (h : (members cl).Nodup) :
    members (dropAll id cl) = (members cl).filter (fun x => x ≠ id) := by
  induction cl with
  | nil => rfl
  | cons e cl ih =>
    obtain ⟨k, l⟩ := e
    simp only [members, List.map_cons, List.flatten_cons, dropAll] at h ih ⊢
    rw [List.nodup_append] at h
    rw [ih h.2.1, List.filter_append]
    congr 1
    split
    · rw [removeFirst, h.1.erase_eq_filter]
      congr 1; funext x; by_cases e : x = id <;> simp [e]
    · rename_i hn
      rw [List.filter_eq_self.2]
      intro x hx; simp only [decide_eq_true_eq, ne_eq]; rintro rfl; exact hn hx

theorem members_dropFirst (id : Id) (cl : Dict Nat (List Id)) :
    members (dropFirst id cl) = (members cl).erase id := by
  induction cl with
  | nil => rfl
  | cons e cl ih =>
    obtain ⟨k, l⟩ := e
    simp only [members, dropFirst, List.map_cons, List.flatten_cons] at ih ⊢
    split
    · rename_i h
      rw [List.erase_append_left _ h]; simp [removeFirst]
    · rename_i h
      rw [List.erase_append_right _ h, ← ih]; simp

theorem get?_mem {cl : Dict Nat (List Id)} {c : Nat} {l : List Id} (h : cl.get? c = some l) :
    (c, l) ∈ cl := by
  induction cl with
  | nil => simp [Dict.get?] at h
  | cons e cl ih =>
    obtain ⟨k, l'⟩ := e
    simp only [Dict.get?] at h
    split at h
    · rename_i hk; simp at h; subst hk h; simp
    · exact List.mem_cons_of_mem _ (ih h)

theorem get?_of_mem {cl : Dict Nat (List Id)} (hn : (cl.map Prod.fst).Nodup) {c : Nat}
    {l : List Id} (h : (c, l) ∈ cl) : cl.get? c = some l := by
  induction cl with
  | nil => simp at h
  | cons e cl ih =>
    obtain ⟨k, l'⟩ := e
    simp only [List.map_cons, List.nodup_cons] at hn
    simp only [Dict.get?]
    rcases List.mem_cons.1 h with h | h
    · injection h with h1 h2; subst h1 h2; simp
    · have : k ≠ c := fun e => hn.1 (e ▸ List.mem_map.2 ⟨_, h, rfl⟩)
      rw [if_neg this]; exact ih hn.2 h

/-- Members of one cluster. -/
def clu (cl : Dict Nat (List Id)) (c : Nat) : List Id := (cl.get? c).getD []

theorem mem_members {cl : Dict Nat (List Id)} (hn : (cl.map Prod.fst).Nodup) {id : Id} :
    id ∈ members cl ↔ ∃ c, id ∈ clu cl c := by
  constructor
  · intro h
    simp only [members, List.mem_flatten, List.mem_map] at h
    obtain ⟨l, ⟨⟨c, l'⟩, hm, rfl⟩, hid⟩ := h
    exact ⟨c, by simp only [clu]; rw [get?_of_mem hn hm]; exact hid⟩
  · rintro ⟨c, h⟩
    simp only [clu] at h
    cases hg : cl.get? c with
    | none => rw [hg] at h; simp at h
    | some l =>
      rw [hg] at h
      simp only [members, List.mem_flatten, List.mem_map]
      exact ⟨l, ⟨_, get?_mem hg, rfl⟩, h⟩

theorem clu_set (cl : Dict Nat (List Id)) (c c' : Nat) (l : List Id) :
    clu (cl.set c l) c' = if c' = c then l else clu cl c' := by
  simp only [clu, Dict.get?_set]; split <;> simp

theorem clu_key {cl : Dict Nat (List Id)} {c : Nat} {id : Id} (h : id ∈ clu cl c) :
    c ∈ cl.map Prod.fst := by
  simp only [clu] at h
  cases hg : cl.get? c with
  | none => rw [hg] at h; simp at h
  | some l => exact List.mem_map.2 ⟨_, get?_mem hg, rfl⟩

/-- Different clusters share no member, and no member is listed twice. -/
theorem clu_disjoint {cl : Dict Nat (List Id)} (hm : (members cl).Nodup) {c c' : Nat} {id : Id}
    (h : id ∈ clu cl c) (h' : id ∈ clu cl c') : c = c' := by
  induction cl with
  | nil => simp [clu, Dict.get?] at h
  | cons e cl ih =>
    obtain ⟨k, l⟩ := e
    simp only [members, List.map_cons, List.flatten_cons] at hm
    rw [List.nodup_append] at hm
    have hmem : ∀ {x : Nat}, id ∈ clu cl x → id ∈ (cl.map Prod.snd).flatten := by
      intro x hx
      simp only [clu] at hx
      cases hg : Dict.get? cl x with
      | none => rw [hg] at hx; simp at hx
      | some l' =>
        rw [hg] at hx
        simp only [List.mem_flatten, List.mem_map]
        exact ⟨l', ⟨_, get?_mem hg, rfl⟩, hx⟩
    simp only [clu, Dict.get?] at h h'
    by_cases e1 : k = c <;> by_cases e2 : k = c'
    · omega
    · simp only [e1, e2, if_true, if_false] at h h'
      rw [← e1, if_neg e2] at h'
      exact absurd rfl (hm.2.2 id h id (hmem h'))
    · simp only [e1, e2, if_true, if_false] at h h'
      rw [← e2, if_neg e1] at h
      exact absurd rfl (hm.2.2 id h' id (hmem h))
    · simp only [e1, e2, if_false] at h h'
      exact ih hm.2.1 h h'

theorem clu_nodup {cl : Dict Nat (List Id)} (hm : (members cl).Nodup) (c : Nat) :
    (clu cl c).Nodup := by
  induction cl with
  | nil => simp [clu, Dict.get?]
  | cons e cl ih =>
    obtain ⟨k, l⟩ := e
    simp only [members, List.map_cons, List.flatten_cons] at hm
    rw [List.nodup_append] at hm
    simp only [clu, Dict.get?]
    split
    · exact hm.1
    · exact ih hm.2.1

theorem clu_dropAll (id : Id) (cl : Dict Nat (List Id)) (c : Nat) :
    clu (dropAll id cl) c = if id ∈ clu cl c then removeFirst (clu cl c) id else clu cl c := by
  induction cl with
  | nil => simp [clu, dropAll, Dict.get?]
  | cons e cl ih =>
    obtain ⟨k, l⟩ := e
    simp only [clu, dropAll, List.map_cons, Dict.get?] at ih ⊢
    by_cases e : k = c
    · simp [e]
    · simp only [e, if_false]; exact ih

theorem mem_clu_dropFirst_of_ne {id x : Id} (hne : x ≠ id) {cl : Dict Nat (List Id)} {c : Nat}
    (h : x ∈ clu cl c) : x ∈ clu (dropFirst id cl) c := by
  induction cl with
  | nil => simp [clu, Dict.get?] at h
  | cons e cl ih =>
    obtain ⟨k, l⟩ := e
    simp only [clu, Dict.get?] at h ih ⊢
    simp only [dropFirst]
    split <;> simp only [Dict.get?] <;> by_cases e : k = c
    · simp only [e, if_true, Option.getD_some] at h ⊢
      simp only [removeFirst]
      exact (List.mem_erase_of_ne hne).2 h
    · simp only [e, if_false] at h ⊢; exact h
    · simp only [e, if_true, Option.getD_some] at h ⊢; exact h
    · simp only [e, if_false] at h ⊢; exact ih h

/-! ## Invariants -/

/-- The part of the index it shares with the flat index. -/
def toFlat (f : Ivf V) : Flat V := ⟨f.ids, f.cache, f.count, f.inited⟩

/-- Clusters hold live ids, each at most once; a trained index has centroids. -/
structure ClOk (live : List (Item V M)) (f : Ivf V) : Prop where
  keys : (f.clusters.map Prod.fst).Nodup
  nd : (members f.clusters).Nodup
  sub : ∀ id ∈ members f.clusters, id ∈ Live.idsOf live
  tr : f.trained = true → ∃ cs, f.cents = some cs ∧ cs ≠ [] ∧
    ∀ k ∈ f.clusters.map Prod.fst, k < cs.length

/-- Index and storage represent the live list. -/
structure Inv (L : Lawful B okId okM) (live : List (Item V M)) (t : Ivf V × σ) : Prop where
  core : Flat.Core L live (toFlat t.1, t.2)
  cl : ClOk live t.1
  cnt : t.1.count = live.length

/-- While trained, every live id is in a cluster. -/
def Full (live : List (Item V M)) (f : Ivf V) : Prop :=
  f.trained = true → ∀ id ∈ Live.idsOf live, id ∈ members f.clusters

/-- What is assumed of k-means: one label per vector, each naming a centroid. -/
def KMeansOk (env : IvfEnv V D) : Prop :=
  ∀ vs cs ls, env.kmeans vs = .ok (cs, ls) → ls.length = vs.length ∧ ∀ l ∈ ls, l < cs.length

variable {L : Lawful B okId okM} {live : List (Item V M)}

/-! ## Training -/

theorem buildClusters_spec (ps : List (Id × Nat)) (cl : Dict Nat (List Id)) :
    (members (buildClusters ps cl)).Perm (ps.map Prod.fst ++ members cl) ∧
    ((cl.map Prod.fst).Nodup → ((buildClusters ps cl).map Prod.fst).Nodup) ∧
    ∀ k ∈ (buildClusters ps cl).map Prod.fst, k ∈ cl.map Prod.fst ∨ k ∈ ps.map Prod.snd := by
  induction ps generalizing cl with
  | nil => exact ⟨List.Perm.refl _, fun h => h, fun k hk => .inl hk⟩
  | cons p ps ih =>
    obtain ⟨id, c⟩ := p
    obtain ⟨h1, h2, h3⟩ := ih (cl.set c ((cl.get? c).getD [] ++ [id]))
    refine ⟨?_, fun h => h2 (keys_set_nodup h _ _), ?_⟩
    · refine h1.trans (((members_add cl c id).append_left _).trans ?_)
      simp only [List.map_cons, List.cons_append]
      exact List.perm_middle
    · intro k hk
      rcases h3 k hk with h | h
      · rcases keys_set_sub _ _ _ k h with h | h
        · exact .inl h
        · exact .inr (by simp [h])
      · exact .inr (by simp [h])

theorem Inv.train_inv [LinearOrder D] {env : IvfEnv V D} (hk : KMeansOk env) {f : Ivf V} {s : σ}
    (h : Inv L live (f, s)) : Inv L live (Ivf.train env B f s).2 ∧
      (Full live f → Full live (Ivf.train env B f s).2.1) := by
  simp only [Ivf.train]
  split
  · exact ⟨h, fun hf => hf⟩
  · obtain ⟨c', s1, e1, hc, i1, c1⟩ := loadVecs_spec L h.core.nd live (fun x hx => hx)
      h.core.cache h.core.st h.core.cont
    have hids : f.ids = Live.idsOf live := h.core.ids
    simp only [toFlat] at e1
    rw [← hids] at e1
    have hcore : Flat.Core L live (toFlat { f with cache := c' }, s1) :=
      ⟨h.core.inited, h.core.ids, h.core.nd, hc, i1, by simp only; rw [c1]; exact h.core.cont⟩
    have hold : Inv L live ({ f with cache := c' }, s1) ∧
        (Full live f → Full live { f with cache := c' }) :=
      ⟨⟨hcore, ⟨h.cl.keys, h.cl.nd, h.cl.sub, h.cl.tr⟩, h.cnt⟩, fun hf => hf⟩
    rw [e1]
    simp only
    split
    · exact hold
    · rename_i hne
      split
      · exact hold
      · rename_i cs ls hkm
        obtain ⟨hlen, hlt⟩ := hk _ _ _ hkm
        simp only [List.length_map] at hlen
        have hmapfst : ((live.map fun x => (x.id, x.vec)).map Prod.fst) = Live.idsOf live := by
          simp [List.map_map, Function.comp_def]
        rw [hmapfst]
        obtain ⟨h1, h2, h3⟩ := buildClusters_spec ((Live.idsOf live).zip ls) []
        have hz : ((Live.idsOf live).zip ls).map Prod.fst = Live.idsOf live :=
          List.map_fst_zip (by simp [Live.idsOf, hlen])
        have hz2 : ((Live.idsOf live).zip ls).map Prod.snd = ls :=
          List.map_snd_zip (by simp [Live.idsOf, hlen])
        rw [hz] at h1
        simp only [members, List.map_nil, List.flatten_nil, List.append_nil] at h1
        refine ⟨⟨⟨hcore.inited, hcore.ids, hcore.nd, hcore.cache, hcore.st, hcore.cont⟩,
          ⟨h2 (by simp), ?_, ?_, ?_⟩, h.cnt⟩, ?_⟩
        · exact h1.nodup_iff.2 h.core.nd
        · intro id hid; exact h1.mem_iff.1 hid
        · intro _
          refine ⟨cs, rfl, ?_, ?_⟩
          · rintro rfl
            cases ls with
            | nil =>
              have : live = [] := by simpa using hlen.symm
              subst this; simp at hne
            | cons a ls => exact absurd (hlt a (by simp)) (by simp)
          · intro k hk'
            rcases h3 k hk' with h | h
            · simp at h
            · rw [hz2] at h; exact hlt k h
        · intro _ _ id hid; exact h1.mem_iff.2 hid

theorem Inv.train [LinearOrder D] {env : IvfEnv V D} (hk : KMeansOk env) {f : Ivf V} {s : σ}
    (h : Inv L live (f, s)) (hf : Full live f) :
    Inv L live (Ivf.train env B f s).2 ∧ Full live (Ivf.train env B f s).2.1 :=
  ⟨(h.train_inv hk).1, (h.train_inv hk).2 hf⟩

/-! ## Nearest centroid -/

/-- `c` is the first position of a smallest distance. -/
def FirstNearest [LinearOrder D] (dist : V → Except Err D) (cs : List V) (c : Nat) : Prop :=
  ∃ v d, cs[c]? = some v ∧ dist v = .ok d ∧
    ∀ (j : Nat) w d', cs[j]? = some w → dist w = .ok d' → d ≤ d' ∧ (j < c → d < d')

theorem closest_some [LinearOrder D] (dist : V → Except Err D) (cs : List V) :
    ∀ (i c : Nat) (b : D × Nat), closest dist i cs (some b) = .ok c →
    (c = b.2 ∧ ∀ (j : Nat) w d', cs[j]? = some w → dist w = .ok d' → b.1 ≤ d') ∨
    ∃ k v d, c = i + k ∧ cs[k]? = some v ∧ dist v = .ok d ∧ d < b.1 ∧
      ∀ (j : Nat) w d', cs[j]? = some w → dist w = .ok d' → d ≤ d' ∧ (j < k → d < d') := by
  induction cs with
  | nil =>
    intro i c b h
    simp only [closest, Except.ok.injEq] at h
    exact .inl ⟨h.symm, by intro j w d' hj; simp at hj⟩
  | cons a cs ih =>
    intro i c b h
    simp only [closest] at h
    cases hd : dist a with
    | error e => rw [hd] at h; simp at h
    | ok da =>
      rw [hd] at h
      simp only at h
      by_cases hlt : da < b.1
      · rw [if_pos hlt] at h
        right
        rcases ih _ _ _ h with ⟨h1, h2⟩ | ⟨k, v, d, h1, h2, h3, h4, h5⟩
        · refine ⟨0, a, da, h1, rfl, hd, hlt, ?_⟩
          intro j w d' hj hw
          cases j with
          | zero => simp at hj; subst hj; rw [hd] at hw; cases hw; simp
          | succ j => exact ⟨h2 j w d' (by simpa using hj) hw, by omega⟩
        · refine ⟨k + 1, v, d, by omega, by simpa using h2, h3, lt_trans h4 hlt, ?_⟩
          intro j w d' hj hw
          cases j with
          | zero => simp at hj; subst hj; rw [hd] at hw; cases hw; exact ⟨le_of_lt h4, fun _ => h4⟩
          | succ j =>
            obtain ⟨g1, g2⟩ := h5 j w d' (by simpa using hj) hw
            exact ⟨g1, fun hlt => g2 (by omega)⟩
      · rw [if_neg hlt] at h
        rcases ih _ _ _ h with ⟨h1, h2⟩ | ⟨k, v, d, h1, h2, h3, h4, h5⟩
        · refine .inl ⟨h1, ?_⟩
          intro j w d' hj hw
          cases j with
          | zero => simp at hj; subst hj; rw [hd] at hw; cases hw; exact not_lt.1 hlt
          | succ j => exact h2 j w d' (by simpa using hj) hw
        · refine .inr ⟨k + 1, v, d, by omega, by simpa using h2, h3, h4, ?_⟩
          intro j w d' hj hw
          cases j with
          | zero =>
            simp at hj; subst hj; rw [hd] at hw; cases hw
            have := lt_of_lt_of_le h4 (not_lt.1 hlt)
            exact ⟨le_of_lt this, fun _ => this⟩
          | succ j =>
            obtain ⟨g1, g2⟩ := h5 j w d' (by simpa using hj) hw
            exact ⟨g1, fun hlt => g2 (by omega)⟩

theorem closest_none [LinearOrder D] {dist : V → Except Err D} {cs : List V} (hne : cs ≠ [])
    {c : Nat} (h : closest dist 0 cs none = .ok c) : FirstNearest dist cs c := by
  cases cs with
  | nil => exact absurd rfl hne
  | cons a cs =>
    simp only [closest] at h
    cases hd : dist a with
    | error e => rw [hd] at h; simp at h
    | ok da =>
      rw [hd] at h
      simp only at h
      rcases closest_some _ _ _ _ _ h with ⟨h1, h2⟩ | ⟨k, v, d, h1, h2, h3, h4, h5⟩
      · subst h1
        refine ⟨a, da, rfl, hd, ?_⟩
        intro j w d' hj hw
        cases j with
        | zero => simp at hj; subst hj; rw [hd] at hw; cases hw; simp
        | succ j => exact ⟨h2 j w d' (by simpa using hj) hw, by simp⟩
      · subst h1
        refine ⟨v, d, by rw [Nat.zero_add, Nat.add_comm]; simpa using h2, h3, ?_⟩
        intro j w d' hj hw
        cases j with
        | zero => simp at hj; subst hj; rw [hd] at hw; cases hw; exact ⟨le_of_lt h4, fun _ => h4⟩
        | succ j =>
          obtain ⟨g1, g2⟩ := h5 j w d' (by simpa using hj) hw
          exact ⟨g1, fun hlt => g2 (by omega)⟩

theorem FirstNearest.lt [LinearOrder D] {dist : V → Except Err D} {cs : List V} {c : Nat}
    (h : FirstNearest dist cs c) : c < cs.length := by
  obtain ⟨v, d, h1, -⟩ := h
  exact (List.getElem?_eq_some_iff.1 h1).1

/-- `_add_to_cluster` on a trained index: only the clusters change, and by one member. -/
theorem addToCluster_spec [LinearOrder D] {env : IvfEnv V D} {id : Id} {v : V} {f f' : Ivf V}
    {cs : List V} (ht : f.trained = true) (hc : f.cents = some cs) (hne : cs ≠ [])
    (h : addToCluster env id v f = .ok f') :
    ∃ c, FirstNearest (env.dist v) cs c ∧
      f' = { f with clusters := f.clusters.set c (clu f.clusters c ++ [id]) } := by
  simp only [addToCluster, ht, hc] at h
  split at h
  · cases h
  · rename_i c hcl
    refine ⟨c, closest_none hne hcl, (Except.ok.inj h).symm.trans ?_⟩
    simp [ht, hc, clu]

/-! ## Insert -/

theorem addLoop_spec [LinearOrder D] {env : IvfEnv V D} {s : σ} {cs : List V} (hne : cs ≠ [])
    (l : List Id) : ∀ f : Ivf V, Inv L live (f, s) → f.trained = true → f.cents = some cs →
    l.Nodup → (∀ id ∈ l, id ∈ Live.idsOf live ∧ id ∉ members f.clusters) →
    Inv L live ((addLoop env l f).2, s) ∧
    (addLoop env l f).2.cents = some cs ∧ (addLoop env l f).2.trained = true ∧
    (addLoop env l f).2.cache = f.cache ∧
    (∀ x c, x ∈ clu f.clusters c → x ∈ clu (addLoop env l f).2.clusters c) ∧
    ((addLoop env l f).1 = .ok () → ∀ id ∈ l, ∃ v c, f.cache.get? id = some v ∧
      FirstNearest (env.dist v) cs c ∧ id ∈ clu (addLoop env l f).2.clusters c) := by
  induction l with
  | nil =>
    intro f h ht hc _ _
    exact ⟨h, hc, ht, rfl, fun _ _ hx => hx, by simp⟩
  | cons id l ih =>
    intro f h ht hc hnd hl
    have triv : ∀ e : Err, Inv L live ((Except.error (ε := Err) (α := Unit) e, f).2, s) ∧
        f.cents = some cs ∧ f.trained = true ∧ f.cache = f.cache ∧
        (∀ x c, x ∈ clu f.clusters c → x ∈ clu f.clusters c) ∧
        (Except.error (ε := Err) (α := Unit) e = .ok () → ∀ x ∈ id :: l, ∃ v c,
          f.cache.get? x = some v ∧ FirstNearest (env.dist v) cs c ∧ x ∈ clu f.clusters c) :=
      fun e => ⟨h, hc, ht, rfl, fun _ _ hx => hx, by simp⟩
    simp only [addLoop]
    cases hg : f.cache.get? id with
    | none => exact triv .key
    | some v =>
      simp only
      cases ha : addToCluster env id v f with
      | error e => exact triv e
      | ok f' =>
        simp only
        obtain ⟨c, hc1, hf'⟩ := addToCluster_spec ht hc hne ha
        obtain ⟨hm1, hm2⟩ := hl id (by simp)
        have hp : (members f'.clusters).Perm (id :: members f.clusters) := by
          rw [hf']; exact members_add _ _ _
        simp only [List.nodup_cons] at hnd
        have hinv : Inv L live (f', s) := by
          refine ⟨?_, ⟨?_, ?_, ?_, ?_⟩, ?_⟩
          · rw [hf']; exact h.core
          · rw [hf']; exact keys_set_nodup h.cl.keys _ _
          · rw [hp.nodup_iff, List.nodup_cons]; exact ⟨hm2, h.cl.nd⟩
          · intro x hx
            rcases List.mem_cons.1 (hp.mem_iff.1 hx) with rfl | hx
            · exact hm1
            · exact h.cl.sub x hx
          · intro _
            refine ⟨cs, by rw [hf']; exact hc, hne, ?_⟩
            intro k hk
            rw [hf'] at hk
            rcases keys_set_sub _ _ _ k hk with hk | rfl
            · obtain ⟨cs', e1, -, e2⟩ := h.cl.tr ht
              simp only at e1
              rw [hc] at e1; cases e1; exact e2 k hk
            · exact hc1.lt
          · rw [hf']; exact h.cnt
        obtain ⟨i1, i2, i3, i4, i5, i6⟩ := ih f' hinv (by rw [hf']; exact ht)
          (by rw [hf']; exact hc) hnd.2 (by
            intro x hx
            obtain ⟨g1, g2⟩ := hl x (by simp [hx])
            refine ⟨g1, ?_⟩
            rw [hp.mem_iff, List.mem_cons]
            rintro (rfl | h')
            · exact hnd.1 hx
            · exact g2 h')
        have hcache : f'.cache = f.cache := by rw [hf']
        have hmono : ∀ x c, x ∈ clu f.clusters c → x ∈ clu f'.clusters c := by
          intro x c' hx
          rw [hf']
          simp only [clu_set]
          split
          · rename_i e; subst e; simp [hx]
          · exact hx
        refine ⟨i1, i2, i3, by rw [i4, hcache], fun x c hx => i5 x c (hmono x c hx), ?_⟩
        intro hok x hx
        rcases List.mem_cons.1 hx with rfl | hx
        · refine ⟨v, c, hg, hc1, i5 _ _ ?_⟩
          rw [hf']; simp [clu_set]
        · obtain ⟨v', c', g1, g2, g3⟩ := i6 hok x hx
          exact ⟨v', c', by rw [← hcache]; exact g1, g2, g3⟩

theorem insertLoop_sim (mds : Option (List (Option M))) (rows : List (Id × V)) :
    ∀ (i : Nat) (f : Ivf V) (s : σ),
    Ivf.insertLoop B mds i rows f s =
      ((Flat.insertLoop B mds i rows (toFlat f) s).1,
        { f with ids := (Flat.insertLoop B mds i rows (toFlat f) s).2.1.ids,
                 cache := (Flat.insertLoop B mds i rows (toFlat f) s).2.1.cache },
        (Flat.insertLoop B mds i rows (toFlat f) s).2.2) := by
  induction rows with
  | nil => intro i f s; rfl
  | cons r rows ih =>
    obtain ⟨id, v⟩ := r
    intro i f s
    simp only [insertLoop, Flat.insertLoop]
    cases B.store s id v (rowMeta mds i) with
    | mk r s1 =>
    cases r with
    | error e => rfl
    | ok b =>
      simp only
      rw [ih]
      simp only [toFlat]
      rcases Flat.insertLoop B mds (i + 1) rows
        ⟨f.ids ++ [id], f.cache.set id v, f.count, f.inited⟩ s1 with ⟨_ | _, _, _⟩ <;> rfl

theorem insert_eq [LinearOrder D] {env : IvfEnv V D} {f : Ivf V} {s : σ} (hi : f.inited = true)
    {rows : List (Id × V)} {mds : Option (List (Option M))} :
    Ivf.insert env B 2 rows mds f s =
    match Ivf.insertLoop B mds 0 rows f s with
    | (.error _, t) => (.error .index, t)
    | (.ok l, f1, s1) =>
      let f2 := { f1 with count := f1.ids.length }
      if env.nClusters ≤ (f2.ids.length : Int) ∧ f2.trained = false then
        match Ivf.train env B f2 s1 with
        | (.ok _, t) => (.ok l, t)
        | (.error _, t) => (.error .index, t)
      else if f2.trained then
        match addLoop env l f2 with
        | (.ok _, f3) => (.ok l, f3, s1)
        | (.error _, f3) => (.error .index, f3, s1)
      else (.ok l, f2, s1) := by
  unfold Ivf.insert
  rw [if_neg (by simp [hi]), if_neg (by simp)]
  rfl

theorem update_eq [LinearOrder D] {env : IvfEnv V D} {f : Ivf V} {s s' : σ} (hi : f.inited = true)
    {id : Id} {v : V} {m : Option M} (e : B.update s id v m = (.ok true, s')) :
    Ivf.update env B id v m f s =
      if f.trained then
        match reassign env id v { f with cache := f.cache.set id v } with
        | (.ok _, f2) => (.ok true, f2, s')
        | (.error _, f2) => (.error .index, f2, s')
      else (.ok true, { f with cache := f.cache.set id v }, s') := by
  unfold Ivf.update
  rw [if_neg (by simp [hi]), e]
  rfl

theorem items_ids (mds : Option (List (Option M))) (i : Nat) (rows : List (Id × V)) :
    Live.idsOf (Live.items mds i rows) = rows.map Prod.fst := by
  induction rows generalizing i with
  | nil => rfl
  | cons r rows ih => simp [Live.items, ih]

theorem mem_items (mds : Option (List (Option M))) (i : Nat) (rows : List (Id × V)) {id : Id}
    {v : V} (h : (id, v) ∈ rows) : ∃ m, ⟨id, v, m⟩ ∈ Live.items mds i rows := by
  induction rows generalizing i with
  | nil => simp at h
  | cons r rows ih =>
    obtain ⟨id', v'⟩ := r
    rcases List.mem_cons.1 h with h | h
    · injection h with h1 h2; subst h1 h2; exact ⟨Live.mdAt mds i, by simp [Live.items]⟩
    · obtain ⟨m, hm⟩ := ih (i + 1) h
      exact ⟨m, by simp [Live.items, hm]⟩

theorem Inv.insert [LinearOrder D] {env : IvfEnv V D} (hk : KMeansOk env) {f : Ivf V} {s : σ}
    (h : Inv L live (f, s)) {rows : List (Id × V)} {mds : Option (List (Option M))}
    (hc : Live.CallOk okId okM live (.insert 2 rows mds)) :
    let r := Ivf.insert env B 2 rows mds f s
    Inv L (live ++ Live.items mds 0 rows) r.2 ∧
    (∀ l, r.1 = .ok l → l = rows.map Prod.fst) ∧
    (Full live f → (∃ l, r.1 = .ok l) ∨ f.trained = false →
      Full (live ++ Live.items mds 0 rows) r.2.1) ∧
    (f.trained = true → r.2.1.trained = true ∧ r.2.1.cents = f.cents ∧
      (∀ x c, x ∈ clu f.clusters c → x ∈ clu r.2.1.clusters c) ∧
      ∀ l cs, r.1 = .ok l → f.cents = some cs → ∀ id v, (id, v) ∈ rows →
        ∃ c, FirstNearest (env.dist v) cs c ∧ id ∈ clu r.2.1.clusters c) := by
  intro r
  obtain ⟨h1, h2, h3⟩ := hc
  have hi : f.inited = true := h.core.inited
  obtain ⟨g, s1, e, c⟩ := Flat.insertLoop_spec mds h3 rows 0 live (toFlat f) s h.core h1 h2
  set live' := live ++ Live.items mds 0 rows with hlive'
  set f2 : Ivf V := { f with ids := g.ids, cache := g.cache, count := g.ids.length } with hf2
  have hsim : Ivf.insertLoop B mds 0 rows f s =
      (.ok (rows.map Prod.fst), { f with ids := g.ids, cache := g.cache }, s1) := by
    rw [insertLoop_sim, e]
  have hgids : g.ids = Live.idsOf live' := c.ids
  have hinv2 : Inv L live' (f2, s1) := by
    refine ⟨⟨hi, c.ids, c.nd, c.cache, c.st, c.cont⟩, ⟨h.cl.keys, h.cl.nd, ?_, h.cl.tr⟩, ?_⟩
    · intro x hx; simp only [hlive', Live.idsOf, List.map_append, List.mem_append]
      exact .inl (h.cl.sub x hx)
    · show g.ids.length = live'.length
      rw [hgids]; simp [Live.idsOf]
  have hr : r = if env.nClusters ≤ (f2.ids.length : Int) ∧ f2.trained = false then
        match Ivf.train env B f2 s1 with
        | (.ok _, t) => (.ok (rows.map Prod.fst), t)
        | (.error _, t) => (.error .index, t)
      else if f2.trained then
        match addLoop env (rows.map Prod.fst) f2 with
        | (.ok _, f3) => (.ok (rows.map Prod.fst), f3, s1)
        | (.error _, f3) => (.error .index, f3, s1)
      else (.ok (rows.map Prod.fst), f2, s1) := by
    simp only [r]
    rw [insert_eq hi, hsim]
  cases ht : f.trained
  · have ht2 : f2.trained = false := ht
    rw [ht2] at hr
    have hfull2 : Full live' f2 := by intro h'; rw [ht2] at h'; simp at h'
    by_cases hn : env.nClusters ≤ (f2.ids.length : Int)
    · obtain ⟨t1, t2⟩ := hinv2.train hk hfull2
      simp only [hn, and_self, if_true] at hr
      cases htr : Ivf.train env B f2 s1 with
      | mk q t =>
      rw [htr] at hr t1 t2
      cases q <;> simp only at hr <;> rw [hr] <;>
        exact ⟨t1, by simp, fun _ _ => t2, by simp⟩
    · simp only [hn, false_and, if_false] at hr
      rw [if_neg (by simp)] at hr
      rw [hr]
      exact ⟨hinv2, by simp, fun _ _ => hfull2, by simp⟩
  · have ht2 : f2.trained = true := ht
    rw [ht2] at hr
    rw [if_neg (by simp), if_pos rfl] at hr
    obtain ⟨cs, hcs, hne, -⟩ := h.cl.tr ht
    simp only at hcs
    have hsub : ∀ id ∈ rows.map Prod.fst, id ∈ Live.idsOf live' ∧ id ∉ members f2.clusters := by
      intro id hid
      refine ⟨?_, ?_⟩
      · simp only [hlive', Live.idsOf, List.map_append, List.mem_append]
        right; rw [show (Live.items mds 0 rows).map Item.id = _ from items_ids mds 0 rows]; exact hid
      · intro hm
        obtain ⟨x, hx, rfl⟩ := List.mem_map.1 hid
        have := (h2 x hx).2.2
        rw [Live.has_false_iff] at this
        exact this (h.cl.sub _ hm)
    obtain ⟨a1, a2, a3, a4, a5, a6⟩ := addLoop_spec (env := env) hne (rows.map Prod.fst) f2 hinv2
      ht2 hcs h1 hsub
    have hmem : ∀ f3 : Ivf V, ((addLoop env (rows.map Prod.fst) f2).2 = f3) →
        (addLoop env (rows.map Prod.fst) f2).1 = .ok () → Full live f → Full live' f3 := by
      intro f3 he hok hfull _ id hid
      subst he
      simp only [hlive', Live.idsOf, List.map_append, List.mem_append] at hid
      rw [mem_members a1.cl.keys]
      rcases hid with hid | hid
      · obtain ⟨c', hc'⟩ := (mem_members h.cl.keys).1 (hfull ht id hid)
        exact ⟨c', a5 _ _ hc'⟩
      · have : id ∈ rows.map Prod.fst := (items_ids mds 0 rows) ▸ hid
        obtain ⟨_, c', _, _, hc'⟩ := a6 hok id this
        exact ⟨c', hc'⟩
    have hplace : ∀ f3 : Ivf V, ((addLoop env (rows.map Prod.fst) f2).2 = f3) →
        (addLoop env (rows.map Prod.fst) f2).1 = .ok () → ∀ id v, (id, v) ∈ rows →
        ∃ c, FirstNearest (env.dist v) cs c ∧ id ∈ clu f3.clusters c := by
      intro f3 he hok id v hid
      subst he
      obtain ⟨v', c', g1, g2, g3⟩ := a6 hok id (List.mem_map.2 ⟨_, hid, rfl⟩)
      obtain ⟨m, hm⟩ := mem_items mds 0 rows hid
      have := c.cache _ (List.mem_append_right live hm) v' g1
      simp only at this
      subst this
      exact ⟨c', g2, g3⟩
    cases hadd : addLoop env (rows.map Prod.fst) f2 with
    | mk q f3 =>
    rw [hadd] at hr a1 a2 a3 a5
    cases q with
    | error e =>
      simp only at hr
      rw [hr]
      refine ⟨a1, by simp, ?_, fun _ => ⟨a3, by rw [hcs]; exact a2, a5, by simp⟩⟩
      rintro _ (⟨l, hl⟩ | hl) <;> simp at hl
    | ok u =>
      simp only at hr
      rw [hr]
      refine ⟨a1, by simp, fun hfull _ => hmem f3 (by rw [hadd]) (by rw [hadd]) hfull,
        fun _ => ⟨a3, by rw [hcs]; exact a2, a5, ?_⟩⟩
      intro l cs' _ hcs'
      rw [hcs] at hcs'; cases hcs'
      exact hplace f3 (by rw [hadd]) (by rw [hadd])

/-! ## Delete -/

theorem deleteLoop_spec (dels : List Id) : ∀ (ok : Bool) (live : List (Item V M)) (f : Ivf V)
    (s : σ), Flat.Core L live (toFlat f, s) → ClOk live f → (∀ id ∈ dels, okId id) →
    ∃ f' s', deleteLoop B dels ok f s = (.ok (ok && (Live.removeAll live dels).1), f', s') ∧
      Flat.Core L (Live.removeAll live dels).2 (toFlat f', s') ∧
      ClOk (Live.removeAll live dels).2 f' ∧
      f'.trained = f.trained ∧ f'.cents = f.cents ∧
      (Full live f → Full (Live.removeAll live dels).2 f') ∧
      (∀ x c, x ∉ dels → x ∈ clu f.clusters c → x ∈ clu f'.clusters c) := by
  induction dels with
  | nil =>
    intro ok live f s h hc _
    exact ⟨f, s, by simp [deleteLoop, Live.removeAll], h, hc, rfl, rfl, fun h => h,
      fun _ _ _ hx => hx⟩
  | cons id dels ih =>
    intro ok live f s h hc hd
    obtain ⟨s1, e1, c1⟩ := h.deleteOne (hd id (by simp))
    set f1 : Ivf V := { f with ids := if id ∈ f.ids then removeFirst f.ids id else f.ids,
                               cache := f.cache.pop id, clusters := dropAll id f.clusters } with hf1
    have hmem : members f1.clusters = (members f.clusters).filter (fun x => x ≠ id) :=
      members_dropAll id hc.nd
    have hids : ∀ x, x ∈ Live.idsOf (Live.remove live id) ↔ x ∈ Live.idsOf live ∧ x ≠ id := by
      intro x
      rw [Live.idsOf_remove _ h.nd, h.nd.mem_erase_iff]; exact and_comm
    have hcl : ClOk (Live.remove live id) f1 := by
      refine ⟨?_, ?_, ?_, ?_⟩
      · show ((dropAll id f.clusters).map Prod.fst).Nodup
        rw [dropAll_keys]; exact hc.keys
      · rw [hmem]; exact hc.nd.filter _
      · intro x hx
        rw [hmem, List.mem_filter] at hx
        rw [hids]; exact ⟨hc.sub x hx.1, by simpa using hx.2⟩
      · intro ht
        obtain ⟨cs, g1, g2, g3⟩ := hc.tr ht
        refine ⟨cs, g1, g2, ?_⟩
        show ∀ k ∈ (dropAll id f.clusters).map Prod.fst, _
        rw [dropAll_keys]; exact g3
    obtain ⟨f', s', e, r1, r2, r3, r4, r5, r6⟩ :=
      ih (if Live.has live id then ok else false) (Live.remove live id) f1 s1 c1 hcl
        (fun x hx => hd x (by simp [hx]))
    refine ⟨f', s', ?_, r1, r2, r3, r4, ?_, ?_⟩
    · simp only [deleteLoop, e1]
      rw [← hf1, e]
      simp only [Live.removeAll]
      cases Live.has live id <;> cases ok <;> simp
    · intro hfull
      refine r5 ?_
      intro ht x hx
      rw [hids] at hx
      rw [hmem, List.mem_filter]
      exact ⟨hfull ht x hx.1, by simpa using hx.2⟩
    · intro x c hx hxc
      simp only [List.mem_cons, not_or] at hx
      refine r6 x c hx.2 ?_
      show x ∈ clu (dropAll id f.clusters) c
      rw [clu_dropAll]
      split
      · exact (List.mem_erase_of_ne hx.1).2 hxc
      · exact hxc

/-! ## Update -/

theorem Inv.update [LinearOrder D] {env : IvfEnv V D} {f : Ivf V} {s : σ}
    (h : Inv L live (f, s)) {id : Id} (v : V) {m : Option M} (hid : okId id)
    (hm : ∀ x, m = some x → okM x) :
    let r := Ivf.update env B id v m f s
    Inv L (Live.replace live id v m) r.2 ∧
    (∀ b, r.1 = .ok b → b = Live.has live id) ∧
    (Full live f → (∃ b, r.1 = .ok b) ∨ f.trained = false →
      Full (Live.replace live id v m) r.2.1) ∧
    (f.trained = true → r.2.1.trained = true ∧ r.2.1.cents = f.cents ∧
      (∀ x c, x ≠ id → x ∈ clu f.clusters c → x ∈ clu r.2.1.clusters c) ∧
      ∀ cs, r.1 = .ok true → f.cents = some cs →
        ∃ c, FirstNearest (env.dist v) cs c ∧ id ∈ clu r.2.1.clusters c) := by
  intro r
  have hi : f.inited = true := h.core.inited
  obtain ⟨s', e, i', c'⟩ := L.update (v := v) (m := m) h.core.st hid hm
  have hh : (L.content s id).isSome = Live.has live id := by
    rw [show L.content s = Live.find live from h.core.cont, Live.find_isSome]
  have hfl : Flat.Inv L live (toFlat f, s) := ⟨h.core, h.cnt⟩
  obtain ⟨g, s'', e2, hg⟩ := hfl.update v hid hm
  simp only at e
  rw [hh] at e
  cases hb : Live.has live id
  · rw [hb] at e
    have hr : r = (.ok false, f, s') := by simp [r, Ivf.update, hi, e]
    have hs : (g, s'') = (toFlat f, s') := by
      have : Flat.update B id v m (toFlat f) s = (.ok false, toFlat f, s') := by
        simp [Flat.update, toFlat, hi, e]
      rw [this] at e2
      simp only [Prod.mk.injEq] at e2
      exact Prod.ext e2.2.1.symm e2.2.2.symm
    rw [hs] at hg
    rw [Live.replace_absent hb] at hg ⊢
    rw [hr]
    exact ⟨⟨hg.toCore, h.cl, h.cnt⟩, by simp, fun hf _ => hf,
      fun ht => ⟨ht, rfl, fun _ _ _ hx => hx, by simp⟩⟩
  · rw [hb] at e
    set f1 : Ivf V := { f with cache := f.cache.set id v } with hf1
    have hs : (g, s'') = (toFlat f1, s') := by
      have : Flat.update B id v m (toFlat f) s = (.ok true, toFlat f1, s') := by
        simp [Flat.update, toFlat, hi, e, hf1]
      rw [this] at e2
      simp only [Prod.mk.injEq] at e2
      exact Prod.ext e2.2.1.symm e2.2.2.symm
    rw [hs] at hg
    have hids : Live.idsOf (Live.replace live id v m) = Live.idsOf live := Live.idsOf_replace ..
    have hcnt : f1.count = (Live.replace live id v m).length := hg.cnt
    have hcl1 : ClOk (Live.replace live id v m) f1 :=
      ⟨h.cl.keys, h.cl.nd, by rw [hids]; exact h.cl.sub, h.cl.tr⟩
    cases ht : f.trained
    · have hr : r = (.ok true, f1, s') := by
        simp only [r]
        rw [update_eq hi e, if_neg (by simp [ht])]
      rw [hr]
      exact ⟨⟨hg.toCore, hcl1, hcnt⟩, by simp, by intro _ _ h'; simp [hf1, ht] at h', by simp⟩
    · obtain ⟨cs, hcs, hne, hlt⟩ := h.cl.tr ht
      simp only at hcs
      have ht1 : f1.trained = true := ht
      have hcs1 : f1.cents = some cs := hcs
      have hlive : id ∈ Live.idsOf live := Live.has_iff.1 hb
      set f2 : Ivf V := { f1 with clusters := dropFirst id f1.clusters } with hf2
      have hmem2 : members f2.clusters = (members f.clusters).erase id := members_dropFirst ..
      have hcl2 : ClOk (Live.replace live id v m) f2 := by
        refine ⟨?_, ?_, ?_, ?_⟩
        · show ((dropFirst id f.clusters).map Prod.fst).Nodup
          rw [dropFirst_keys]; exact h.cl.keys
        · rw [hmem2]; exact h.cl.nd.erase id
        · intro x hx; rw [hmem2] at hx; rw [hids]; exact h.cl.sub x (List.mem_of_mem_erase hx)
        · intro _
          refine ⟨cs, hcs, hne, ?_⟩
          show ∀ k ∈ (dropFirst id f.clusters).map Prod.fst, _
          rw [dropFirst_keys]; exact hlt
      have hmono2 : ∀ x c, x ≠ id → x ∈ clu f.clusters c → x ∈ clu f2.clusters c :=
        fun x c hx hxc => mem_clu_dropFirst_of_ne hx hxc
      have hre : reassign env id v f1 = match addToCluster env id v f2 with
          | .ok f2 => (.ok (), f2)
          | .error e => (.error e, f2) := by
        unfold reassign
        split
        · rfl
        · rename_i hx; exact (hx cs ht1 hcs1).elim
      cases ha : addToCluster env id v f2 with
      | error er =>
        have hr : r = (.error .index, f2, s') := by
          simp only [r]
          rw [update_eq hi e, if_pos ht, ← hf1, hre, ha]
        rw [hr]
        refine ⟨⟨hg.toCore, hcl2, hcnt⟩, by simp, ?_, fun _ => ⟨ht, rfl, hmono2, by simp⟩⟩
        rintro _ (⟨b, hb⟩ | hb) <;> simp at hb
      | ok f3 =>
        have hr : r = (.ok true, f3, s') := by
          simp only [r]
          rw [update_eq hi e, if_pos ht, ← hf1, hre, ha]
        obtain ⟨c, hc1, hf3⟩ := addToCluster_spec (f := f2) ht hcs hne ha
        have hp : (members f3.clusters).Perm (id :: members f2.clusters) := by
          rw [hf3]; exact members_add _ _ _
        have hcl3 : ClOk (Live.replace live id v m) f3 := by
          refine ⟨?_, ?_, ?_, ?_⟩
          · rw [hf3]; exact keys_set_nodup hcl2.keys _ _
          · rw [hp.nodup_iff, List.nodup_cons]
            refine ⟨?_, hcl2.nd⟩
            rw [hmem2]; exact fun h' => (h.cl.nd.mem_erase_iff.1 h').1 rfl
          · intro x hx
            rcases List.mem_cons.1 (hp.mem_iff.1 hx) with rfl | hx
            · rw [hids]; exact hlive
            · exact hcl2.sub x hx
          · intro _
            refine ⟨cs, by rw [hf3]; exact hcs, hne, ?_⟩
            intro k hk
            rw [hf3] at hk
            rcases keys_set_sub _ _ _ k hk with hk | rfl
            · obtain ⟨cs', e1, -, e2⟩ := hcl2.tr ht
              rw [show f2.cents = some cs from hcs] at e1
              cases e1; exact e2 k hk
            · exact hc1.lt
        have hself : id ∈ clu f3.clusters c := by rw [hf3]; simp [clu_set]
        have hmono : ∀ x c, x ≠ id → x ∈ clu f.clusters c → x ∈ clu f3.clusters c := by
          intro x c' hx hxc
          have := hmono2 x c' hx hxc
          rw [hf3]
          simp only [clu_set]
          split
          · rename_i e; subst e; simp [this]
          · exact this
        have hg3 : Flat.Core L (Live.replace live id v m) (toFlat f3, s') := by
          have : toFlat f3 = toFlat f1 := by rw [hf3]; rfl
          rw [this]; exact hg.toCore
        rw [hr]
        refine ⟨⟨hg3, hcl3, by rw [hf3]; exact hcnt⟩, by simp, ?_, fun _ => ⟨?_, ?_, hmono, ?_⟩⟩
        · intro hfull _ _ x hx
          rw [hids] at hx
          rw [mem_members hcl3.keys]
          by_cases hx' : x = id
          · exact ⟨c, hx' ▸ hself⟩
          · obtain ⟨c', hc'⟩ := (mem_members h.cl.keys).1 (hfull ht x hx)
            exact ⟨c', hmono x c' hx' hc'⟩
        · rw [hf3]; exact ht
        · rw [hf3]
        · intro cs' _ hcs'
          rw [hcs] at hcs'; cases hcs'
          exact ⟨c, hc1, hself⟩

end Ivf
end Valori
