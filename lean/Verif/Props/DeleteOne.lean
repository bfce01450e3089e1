import Verif.Model.DeleteOne
import Verif.Props.ClientStats
import Verif.Props.Lsh
import Verif.Props.Annoy

/-!
# Property C219: deleting one vector by its id as documented
-/

namespace Valori.Props
open Valori Valori.Spec

section live
variable {V M : Type}

theorem pyChars_length {id s : String} (h : s ∈ pyChars id) : s.length = 1 := by
  obtain ⟨c, -, rfl⟩ := List.mem_map.1 h
  simp

/-- A list of ids none of which is live. -/
theorem removeAll_absent (l : List (Item V M)) : ∀ ids : List String,
    (∀ s ∈ ids, Live.has l s = false) → Live.removeAll l ids = (ids.isEmpty, l)
  | [], _ => rfl
  | s :: ids, h => by
    have e : Live.remove l s = l := by
      refine List.filter_eq_self.2 fun x hx => ?_
      have := h s (by simp)
      rw [Live.has_false_iff] at this
      simp only [decide_eq_true_eq]
      rintro rfl
      exact this (List.mem_map.2 ⟨x, hx, rfl⟩)
    have ih := removeAll_absent l ids fun s hs => h s (by simp [hs])
    simp [Live.removeAll, e, ih, h s (by simp)]

theorem removeAll_chars {l : List (Item V M)} (hl : ∀ x ∈ l, x.id.length ≠ 1) {id : String}
    (hid : id ≠ "") : Live.removeAll l (pyChars id) = (false, l) := by
  rw [removeAll_absent]
  · have : pyChars id ≠ [] := by
      simp only [pyChars, ne_eq, List.map_eq_nil_iff]
      intro e
      exact hid (String.toList_eq_nil_iff.1 e)
    cases h : pyChars id with
    | nil => exact absurd h this
    | cons => rfl
  · intro s hs
    rw [Live.has_false_iff]
    intro hm
    obtain ⟨x, hx, rfl⟩ := List.mem_map.1 hm
    exact hl x hx (pyChars_length hs)

theorem after_chars (vol : Bool) {db : Db V M} (ho : db.isOpen = true)
    (hl : ∀ x ∈ db.live, x.id.length ≠ 1) {id : String} (hid : id ≠ "") :
    Db.next vol db (.request (.delete (pyChars id))) = db := by
  obtain ⟨o, l⟩ := db
  simp only at ho hl
  subst ho
  simp [Db.next, Live.next, removeAll_chars hl hid]

end live

section clients
variable {σ V M D : Type} {B : Backend σ V M} {okId : Id → Prop} {okM : M → Prop} [LinearOrder D]
  (L : Lawful B okId okM) (vol : Bool) (hR : Reopens L vol) (s : σ)
  (live : List (Item V M)) (hn : (live.map Item.id).Nodup) (hs : L.inv (B.init s))
  (hl : ∀ id, L.content (B.init s) id = Live.find live id) (h : List (ClCall (IxCall V M)))
  (id : String) (hid : id ≠ "")
  (hok : Db.HistOk okId okM vol ⟨false, live⟩ (h ++ [.request (.delete (pyChars id))]))
  (hopen : (Db.after vol ⟨false, live⟩ h).isOpen = true)
  (hlong : ∀ x ∈ (Db.after vol ⟨false, live⟩ h).live, x.id.length ≠ 1)

include hR hn hs hl hid hok hopen hlong in
/-- **C219** is false of the code for every database over a flat index whose ids are longer than one
character: `client.delete(id)` with a single id answers `False` and nothing is deleted, all later answers
are those of the database as it was. -/
theorem C219_flat_refuted (env : FlatEnv V D) (ha : IsArgsort env.argsort) :
    let c := (Client.converse (flatParts env B) ⟨(Flat.new, s), false⟩ h).2
    let r := Client.ask (flatParts env B) c (.request (.delete (pyChars id)))
    seen r.1 = .flag false ∧
    ∀ h', Db.HistOk okId okM vol (Db.after vol ⟨false, live⟩ h) h' →
      Db.AllRight vol env.dist (flatFails env) (Db.after vol ⟨false, live⟩ h) h'
        ((Client.converse (flatParts env B) r.2 h').1.map seen) := by
  intro c r
  obtain ⟨ok1, ok2⟩ := histOk_append h _ _ hok
  have hsim := sim_after_any hR env ha h ⟨false, live⟩ ⟨(Flat.new, s), false⟩
    ⟨rfl, (fun h => by cases h), fun _ => ⟨rfl, hn, hs, hl⟩⟩ ok1
  obtain ⟨a1, a2⟩ := sim_step hR env ha hsim (.request (.delete (pyChars id))) ok2.1
  rw [after_chars vol hopen hlong hid] at a2
  refine ⟨?_, fun h' hh' => sim_history hR env ha h' _ _ a2 hh'⟩
  simp only [Db.Right, hopen, if_neg (show ¬ (true = false) by decide),
    removeAll_chars hlong hid] at a1
  exact a1

variable {X : Type} {P : Parts (X × σ) (IxCall V M) (FwdReply D M)} {fresh : X → Prop}
  {Inv : List (Item V M) → X × σ → Prop} {may : List (Item V M) → IxCall V M → Prop}
  {good : List (Item V M) → V → Int → List (Hit D M) → Prop}

include hR hn hs hl hid hok hopen hlong in
omit [LinearOrder D] in
theorem serves_chars (hS : Serves L P fresh Inv may good) (x : X) (hx : fresh x)
    (hop : Db.OpensClosed vol ⟨false, live⟩ h) :
    let c := (Client.converse P ⟨(x, s), false⟩ h).2
    let r := Client.ask P c (.request (.delete (pyChars id)))
    seen r.1 = .flag false ∧
    ∀ h', Db.HistOk okId okM vol (Db.after vol ⟨false, live⟩ h) h' →
      Db.OpensClosed vol (Db.after vol ⟨false, live⟩ h) h' →
      Db.AllRightBy vol may good (Db.after vol ⟨false, live⟩ h) h'
        ((Client.converse P r.2 h').1.map seen) := by
  intro c r
  obtain ⟨ok1, ok2⟩ := histOk_append h _ _ hok
  have hf := follows_after hS hR h ⟨false, live⟩ ⟨(x, s), false⟩
    ⟨rfl, (fun h => by cases h), fun _ => ⟨hx, hn, hs, hl⟩⟩ ok1 hop
  obtain ⟨a1, a2⟩ := follows_step hS hR hf (.request (.delete (pyChars id))) ok2.1
    (fun h => by cases h)
  rw [after_chars vol hopen hlong hid] at a2
  refine ⟨?_, fun h' hh' ho' => follows_all hS hR h' _ _ a2 hh' ho'⟩
  simp only [Db.RightBy, hopen, if_neg (show ¬ (true = false) by decide),
    removeAll_chars hlong hid] at a1
  exact a1

include hR hn hs hl hid hok hopen hlong in
/-- **C219** The same for IVF. -/
theorem C219_ivf_refuted (env : IvfEnv V D) (hk : Ivf.KMeansOk env)
    (hK : ∀ vs, vs ≠ [] → ∃ r, env.kmeans vs = .ok r) (hp : 0 ≤ env.nProbes)
    (hop : Db.OpensClosed vol ⟨false, live⟩ h) :
    let c := (Client.converse (ivfParts env B) ⟨(Ivf.new, s), false⟩ h).2
    let r := Client.ask (ivfParts env B) c (.request (.delete (pyChars id)))
    seen r.1 = .flag false ∧
    ∀ h', Db.HistOk okId okM vol (Db.after vol ⟨false, live⟩ h) h' →
      Db.OpensClosed vol (Db.after vol ⟨false, live⟩ h) h' →
      Db.AllRightBy vol (fun _ _ => ∃ a b e, env.dist a b = .error e)
        (HonestDistinct (partialDist env.dist)) (Db.after vol ⟨false, live⟩ h) h'
        ((Client.converse (ivfParts env B) r.2 h').1.map seen) :=
  serves_chars L vol hR s live hn hs hl h id hid hok hopen hlong (ivf_serves L env hk hK hp) Ivf.new
    rfl hop

include hR hn hs hl hid hok hopen hlong in
/-- **C219** The same for HNSW. -/
theorem C219_hnsw_refuted (env : HnswEnv V D) (hop : Db.OpensClosed vol ⟨false, live⟩ h) :
    let c := (Client.converse (hnswParts env B) ⟨(Hnsw.new, s), false⟩ h).2
    let r := Client.ask (hnswParts env B) c (.request (.delete (pyChars id)))
    seen r.1 = .flag false ∧
    ∀ h', Db.HistOk okId okM vol (Db.after vol ⟨false, live⟩ h) h' →
      Db.OpensClosed vol (Db.after vol ⟨false, live⟩ h) h' →
      Db.AllRightBy vol
        (fun live c => ∃ q k, c = .search 1 q k ∧ ∃ y ∈ live, ∃ e, env.dist q y.vec = .error e)
        (Db.Honest (partialDist env.dist)) (Db.after vol ⟨false, live⟩ h) h'
        ((Client.converse (hnswParts env B) r.2 h').1.map seen) :=
  serves_chars L vol hR s live hn hs hl h id hid hok hopen hlong (hnsw_serves L env) Hnsw.new
    ⟨0, rfl⟩ hop

end clients

/-- The decimal digits of a number, most significant first. -/
def decimal (n : Nat) : List Nat :=
  if _ : n < 10 then [n] else decimal (n / 10) ++ [n % 10]
termination_by n

theorem decimal_lt (n : Nat) : ∀ d ∈ decimal n, d < 10 := by
  induction n using Nat.strong_induction_on with
  | _ n ih =>
    rw [decimal]
    split
    · simpa
    · intro d hd
      rcases List.mem_append.1 hd with h | h
      · exact ih _ (by omega) d h
      · simp only [List.mem_singleton] at h; omega

theorem pyChars_nat (n : Nat) : pyChars (toString n) = (decimal n).map toString := by
  have key : ∀ n, (Nat.toDigits 10 n).map (fun c => String.ofList [c]) =
      (decimal n).map fun d : Nat => (toString d : String) := by
    intro n
    induction n using Nat.strong_induction_on with
    | _ n ih =>
      rw [decimal]
      split
      · rename_i h
        rw [Nat.toDigits_of_lt_base h]
        simp only [List.map_cons, List.map_nil, Nat.toString_eq_ofList_toDigits,
          Nat.toDigits_of_lt_base h]
      · rename_i h
        rw [Nat.toDigits_of_base_le (by omega) (by omega), List.map_append, ih _ (by omega),
          List.map_append]
        have : n % 10 < 10 := Nat.mod_lt _ (by omega)
        simp only [List.map_cons, List.map_nil, Nat.toString_eq_ofList_toDigits,
          Nat.toDigits_of_lt_base this]
  rw [← key]
  simp [pyChars]

section lsh
variable {V S M : Type} [LinearOrder S]

/-- **C219** is false of the code for every LSH index: its ids are numbers, and deleting an id of several
digits without putting it in a list answers `True`, keeps the vector with that id and deletes the vectors
whose ids are its digits, which no search gives afterwards. -/
theorem C219_lsh_refuted {env : LshEnv V S M} (hc : env.hashSize ≤ env.numProj)
    (hparse : ∀ n : Nat, env.parse (toString n) = some (n : Int)) (hset : SetLike env.setOrder)
    {h : List (SCall V M S)} (ho : LshOk env h) (n : Nat) (hn : 10 ≤ n) :
    let f := lshAfter env h
    let r := Lsh.delete env (pyChars (toString n)) f
    r.1 = true ∧ r.2.vectors[n]? = f.vectors[n]? ∧
    (∀ d ∈ decimal n, d < f.vectors.length → r.2.vectors[d]? = some none) ∧
    ∀ (q : V) (k : Nat) (thr : Option S) (hits : List (NHit S M)),
      Lsh.search env q k thr r.2 = .ok hits → ∀ x ∈ hits, ∀ d ∈ decimal n, x.id ≠ d := by
  intro f r
  have hI := lsh_inv hc ho
  have hp : ∀ s ∈ pyChars (toString n), ∀ i, env.parse s = some i → 0 ≤ i := by
    intro s hs i hi
    rw [pyChars_nat] at hs
    obtain ⟨d, -, rfl⟩ := List.mem_map.1 hs
    rw [hparse] at hi
    simp only [Option.some.injEq] at hi
    omega
  obtain ⟨e1, e2⟩ := hI.delete hc (pyChars (toString n)) hp
  have hmem : ∀ k : Nat, (∃ s ∈ pyChars (toString n), env.parse s = some (k : Int)) ↔ k ∈ decimal n := by
    intro k
    rw [pyChars_nat]
    constructor
    · rintro ⟨s, hs, hk⟩
      obtain ⟨d, hd, rfl⟩ := List.mem_map.1 hs
      rw [hparse] at hk
      simp only [Option.some.injEq] at hk
      obtain rfl : d = k := by omega
      exact hd
    · intro hk
      exact ⟨_, List.mem_map.2 ⟨k, hk, rfl⟩, hparse k⟩
  have hlen := eraseAll_length env.parse (pyChars (toString n)) (slotsAfter env h)
  have hat : ∀ k : Nat, ((slotsAfter env h).eraseAll env.parse (pyChars (toString n))).at? k =
      if k ∈ decimal n then none else (slotsAfter env h).at? k := by
    intro k
    rw [eraseAll_at?]
    simp only [hmem]
  have hvec : ∀ (a : Slots V M) (g : Lsh V M), Lsh.Inv env a g → ∀ k : Nat,
      g.vectors[k]? = if k < a.slots.length then some ((a.at? k).map Prod.fst) else none := by
    intro a g hg k
    rw [hg.vec, List.getElem?_map]
    by_cases hk : k < a.slots.length
    · simp [hk, Slots.at?]
    · simp [hk]
  refine ⟨e1, ?_, ?_, ?_⟩
  · have hnd : n ∉ decimal n := fun hd => by
      have := decimal_lt n n hd
      omega
    rw [hvec _ _ e2, hvec _ _ hI, hlen, hat, if_neg hnd]
  · intro d hd hlt
    have hl : d < (slotsAfter env h).slots.length := by
      have : (lshAfter env h).vectors.length = (slotsAfter env h).slots.length := by rw [hI.vec]; simp
      exact this ▸ hlt
    rw [hvec _ _ e2, hlen, hat, if_pos hl, if_pos hd]
    rfl
  · intro q k thr hits he x hx d hd hxd
    have hans := lsh_search hc hset e2 q k thr he
    obtain ⟨j, v, m, h1, h2, -⟩ := hans.sound x hx
    obtain rfl : j = d := by omega
    rw [hat, if_pos hd] at h2
    cases h2

end lsh

section annoy
variable {L V F M : Type}

/-- **C219** is false of the code for every Annoy index: deleting an id of several digits without putting
it in a list answers `True`, keeps the vector with that id and its metadata, and deletes the vectors and
the metadata whose ids are its digits. -/
theorem C219_annoy_refuted (env : AnEnv L V F M) (metric : AnMetric)
    (hparse : ∀ n : Nat, env.parse (toString n) = some (n : Int)) {h : List (AnCall V M)}
    (hp : ∀ c ∈ h, c.Plain env.parse) (n : Nat) (hn : 10 ≤ n) :
    let f := anAfter env metric h
    let r := Annoy.delete env (pyChars (toString n)) f
    r.1 = .ok true ∧ r.2.vectors[n]? = f.vectors[n]? ∧ r.2.metadata[n]? = f.metadata[n]? ∧
    ∀ d ∈ decimal n, d < f.vectors.length →
      r.2.vectors[d]? = some none ∧ r.2.metadata[d]? = some none := by
  intro f r
  obtain ⟨hA, hi⟩ := anAfter_aligned (env := env) metric hp
  have hall : ∀ ds : List Nat, Annoy.parseAll env.parse (ds.map toString) = some (ds.map Int.ofNat) := by
    intro ds
    induction ds with
    | nil => rfl
    | cons d ds ih => simp only [List.map_cons, Annoy.parseAll, hparse, ih]; rfl
  obtain ⟨vs, ms, e, l1, l2, m1, m2⟩ := Annoy.removeLoop_spec ((decimal n).map Int.ofNat) hA
    (by intro i hi; obtain ⟨d, -, rfl⟩ := List.mem_map.1 hi; simp)
  have hr : r = (.ok true, { f with vectors := vs, metadata := ms }) := by
    simp only [r, f, Annoy.delete, pyChars_nat, hall, Annoy.remove, hi, e]
    rfl
  have hmem : ∀ k : Nat, (k : Int) ∈ (decimal n).map Int.ofNat ↔ k ∈ decimal n := by
    intro k; simp [List.mem_map]
  have hnd : n ∉ decimal n := fun hd => by
    have := decimal_lt n n hd
    omega
  have hlen : (anAfter env metric h).metadata.length = (anAfter env metric h).vectors.length := hA.md
  rw [hr]
  refine ⟨rfl, ?_, ?_, ?_⟩
  · by_cases hlt : n < f.vectors.length
    · have := m2 n hlt
      rw [if_neg (by rw [hmem]; exact hnd)] at this
      exact this
    · rw [List.getElem?_eq_none (not_lt.1 hlt)]
      exact List.getElem?_eq_none (l1.trans_le (not_lt.1 hlt))
  · by_cases hlt : n < f.metadata.length
    · have := m1 n hlt
      rw [if_neg (by rw [hmem]; exact hnd)] at this
      exact this
    · rw [List.getElem?_eq_none (not_lt.1 hlt)]
      exact List.getElem?_eq_none (l2.trans_le (not_lt.1 hlt))
  · intro d hd hlt
    have h1 := m1 d (by rw [hlen]; exact hlt)
    have h2 := m2 d hlt
    rw [if_pos (by rw [hmem]; exact hd)] at h1 h2
    exact ⟨h2, h1⟩

end annoy

/-- **C219** (partial: the argument in a list, or an id of one character) A string is run through as the
list of just this id exactly if it has one character. -/
theorem C219_one_character_partial (id : String) : pyChars id = [id] ↔ id.length = 1 := by
  constructor
  · intro h
    exact pyChars_length (h ▸ List.mem_singleton.2 rfl)
  · intro h
    obtain ⟨c, hc⟩ := List.length_eq_one_iff.1 (show id.toList.length = 1 by rw [String.length_toList]; exact h)
    have : id = String.ofList [c] := by rw [← hc]; simp
    simp only [pyChars, hc, List.map_cons, List.map_nil]
    rw [this]

/-! Concrete cases. -/

/-- A reader of decimal numbers. -/
def exLshEnv12 : LshEnv (List Int) Int Nat := { exLshEnv 1 2 with parse := String.toInt? }

/-- Thirteen vectors. -/
def exThirteen : List (SCall (List Int) Nat Int) :=
  [.insert 2 2 ((List.range 13).map fun i => [(i : Int), 1]) none]

/-- The hypotheses of the LSH theorem hold, and vectors 1 and 2 are deleted instead of vector 12. -/
example : (∀ n : Nat, exLshEnv12.parse (toString n) = some (n : Int)) ∧ LshOk exLshEnv12 exThirteen ∧
    decimal 12 = [1, 2] ∧
    (lshAfter exLshEnv12 exThirteen).vectors[12]? = some (some [12, 1]) ∧
    (lshAfter exLshEnv12 exThirteen).vectors[1]? = some (some [1, 1]) := by
  refine ⟨fun n => String.toInt?_eq_some_of_toNat?_eq_some (Nat.toNat?_repr n), ⟨?_, trivial⟩, ?_, ?_, ?_⟩
  · intro l hl; cases hl
  · simp [decimal]
  · decide +kernel
  · decide +kernel

/-- On disk: a vector with a long id is still there after `client.delete(id)`. -/
example :
    let h : List (ClCall (IxCall Nat Nat)) := [.init, .request (.insert 2 [("v1", 3), ("v2", 8)] none)]
    let P := flatParts exFlat (diskBackend exEnv)
    let c := (Client.converse P ⟨(Flat.new, Disk.opened (emptyDir Nat Nat)), false⟩ h).2
    (Db.after false (⟨false, []⟩ : Db Nat Nat) h).live.map Item.id = ["v1", "v2"] ∧
    (Client.converse P c [.request (.delete (pyChars "v1")), .request (.search 1 4 2)]).1.map seen =
      [.flag false, .hits [⟨"v1", 1, none⟩, ⟨"v2", 4, none⟩]] := by decide +kernel

end Valori.Props
