import Verif.Lemmas.Oblivious
import Verif.Props.SameAnswers
import Verif.Props.CrashIndices

/-!
# Property C226: backends and searches leave no trace in the answers of IVF and HNSW databases
-/

namespace Valori.Props
open Valori Valori.Spec

variable {σ τ V M D X : Type} {B : Backend σ V M} {C : Backend τ V M} {okId okId' : Id → Prop}
  {okM okM' : M → Prop}

/-- What two clients need to answer alike: requests that both storages accept get the same reply, and
the indices stay alike. -/
def TwinStep (okId okId' : Id → Prop) (okM okM' : M → Prop)
    (P : Parts (X × σ) (IxCall V M) (FwdReply D M)) (Q : Parts (X × τ) (IxCall V M) (FwdReply D M))
    (I : List (Item V M) → X × σ → Prop) (J : List (Item V M) → X × τ → Prop) (Same : X → X → Prop) : Prop :=
  ∀ live f s g t, I live (f, s) → J live (g, t) → Same f g → ∀ c, Live.CallOk okId okM live c →
    Live.CallOk okId' okM' live c →
    (P.request c (f, s)).1 = (Q.request c (g, t)).1 ∧
      Same (P.request c (f, s)).2.1 (Q.request c (g, t)).2.1

theorem twins_all {L : Lawful B okId okM} {K : Lawful C okId' okM'}
    {P : Parts (X × σ) (IxCall V M) (FwdReply D M)} {Q : Parts (X × τ) (IxCall V M) (FwdReply D M)}
    {fr fr' : X → Prop} {I : List (Item V M) → X × σ → Prop} {J : List (Item V M) → X × τ → Prop}
    {may may' : List (Item V M) → IxCall V M → Prop}
    {good good' : List (Item V M) → V → Int → List (Hit D M) → Prop} (hS : Serves L P fr I may good)
    (hT : Serves K Q fr' J may' good') {Same : X → X → Prop}
    (hst : TwinStep okId okId' okM okM' P Q I J Same) {vol vol' : Bool} (g : List (ClCall (IxCall V M))) :
    ∀ (live : List (Item V M)) (w : X × σ) (u : X × τ), I live w → J live u → Same w.1 u.1 →
    OnlyRequests g → Db.HistOk okId okM vol ⟨true, live⟩ g → Db.HistOk okId' okM' vol' ⟨true, live⟩ g →
    (Client.converse P ⟨w, true⟩ g).1 = (Client.converse Q ⟨u, true⟩ g).1 := by
  induction g with
  | nil => intro live w u _ _ _ _ _ _; rfl
  | cons x g ih =>
    rintro live ⟨f, s⟩ ⟨f', t⟩ hi hj hsame hg ho ho'
    obtain ⟨c, rfl⟩ := hg x (by simp)
    obtain ⟨e1, e2⟩ := hst live f s f' t hi hj hsame c (ho.1 rfl) (ho'.1 rfl)
    have := ih _ _ _ (hS.request hi c (ho.1 rfl)).2 (hT.request hj c (ho'.1 rfl)).2 e2
      (fun y hy => hg y (by simp [hy])) ho.2 ho'.2
    exact congr (congrArg (fun r l => Client.Answer.reply r :: l) e1) this

theorem hnsw_twins [LinearOrder D] (L : Lawful B okId okM) (K : Lawful C okId' okM') (env : HnswEnv V D) :
    TwinStep okId okId' okM okM' (hnswParts env B) (hnswParts env C) (Hnsw.Inv L) (Hnsw.Inv K) (· = ·) := by
  rintro live f s g t hi hj rfl c hc hc'
  obtain ⟨h1, h2, h3, h4⟩ := Hnsw.call_oblivious env hi hj
  cases c with
  | insert nd rows mds =>
    obtain ⟨r, x, s', t', e, e'⟩ := h1 nd rows mds hc hc'
    simp only [hnswParts, e, e']
    cases r <;> exact ⟨rfl, rfl⟩
  | delete ids =>
    obtain ⟨r, x, s', t', e, e'⟩ := h2 ids hc hc'
    simp only [hnswParts, e, e']
    cases r <;> exact ⟨rfl, rfl⟩
  | update id v m =>
    obtain ⟨r, x, s', t', e, e'⟩ := h3 id v m hc hc'
    simp only [hnswParts, e, e']
    cases r <;> exact ⟨rfl, rfl⟩
  | search nd q k =>
    obtain ⟨r, s', t', e, e'⟩ := h4 nd q k
    simp only [hnswParts, e, e']
    cases r <;> exact ⟨rfl, rfl⟩

theorem fwd_twin {α : Type} {f : α → FwdReply D M} {r : Res (Ivf V × σ) α} {r' : Res (Ivf V × τ) α}
    (h : r.1 = r'.1) (hb : Ivf.bare r.2.1 = Ivf.bare r'.2.1) :
    (fwd f r).1 = (fwd f r').1 ∧ Ivf.bare (fwd f r).2.1 = Ivf.bare (fwd f r').2.1 := by
  obtain ⟨x, a, s⟩ := r
  obtain ⟨y, b, t⟩ := r'
  obtain rfl : x = y := h
  cases x <;> exact ⟨rfl, hb⟩

theorem ivf_twins [LinearOrder D] (L : Lawful B okId okM) (K : Lawful C okId' okM') (env : IvfEnv V D) :
    TwinStep okId okId' okM okM' (ivfParts env B) (ivfParts env C) (Ivf.Inv L) (Ivf.Inv K)
      (fun f g => Ivf.bare f = Ivf.bare g) := by
  rintro live f s g t hi hj hb c hc hc'
  obtain ⟨h1, h2, h3, h4⟩ := Ivf.call_oblivious env hi hj hb
  cases c with
  | insert nd rows mds => exact fwd_twin (h1 nd rows mds hc hc').1 (h1 nd rows mds hc hc').2
  | delete ids => exact fwd_twin (h2 ids hc hc').1 (h2 ids hc hc').2
  | update id v m => exact fwd_twin (h3 id v m hc hc').1 (h3 id v m hc hc').2
  | search nd q k => exact fwd_twin (h4 nd q k).1 ((h4 nd q k).2.1.trans (h4 nd q k).2.2.symm)

theorem list_empty (L : Lawful B okId okM) {s : σ} (hs : L.inv s) (hz : ∀ id, L.content s id = none) :
    ∃ s', B.list s none = (.ok [], s') ∧ L.inv s' ∧ L.content s' = L.content s := by
  obtain ⟨l, s', e, i, c, -, hm⟩ := L.list hs
  obtain rfl : l = [] := List.eq_nil_iff_forall_not_mem.2 fun id hid => by
    have := (hm id).1 hid
    rw [hz id] at this
    cases this
  exact ⟨s', e, i, c⟩

theorem live_empty {live : List (Item V M)} (h : ∀ id, Live.find live id = none) : live = [] := by
  cases live with
  | nil => rfl
  | cons x l => have := h x.id; simp [Live.find] at this

theorem histOk_perm {vol : Bool} (h : List (ClCall (IxCall V M))) : ∀ (o : Bool) (l l' : List (Item V M)),
    l.Perm l' → Db.HistOk okId okM vol ⟨o, l⟩ h → Db.HistOk okId okM vol ⟨o, l'⟩ h := by
  induction h with
  | nil => intro o l l' _ _; trivial
  | cons x h ih =>
    intro o l l' hp hk
    refine ⟨?_, ?_⟩
    · have := hk.1
      cases x with
      | request q => exact fun ho => callOk_perm hp (this ho)
      | init => trivial
      | close => trivial
    · have := hk.2
      cases x with
      | request q =>
        cases o with
        | false => exact ih _ _ _ hp this
        | true => exact ih _ _ _ (next_perm hp q) this
      | init => exact ih _ _ _ (by cases vol <;> simp_all [Db.next]) this
      | close => exact ih _ _ _ (by cases vol <;> simp_all [Db.next]) this

/-- Requests to a closed client are all answered alike and change nothing. -/
theorem converse_closed (P : Parts (X × σ) (IxCall V M) (FwdReply D M)) (w : X × σ)
    (g : List (ClCall (IxCall V M))) (hg : OnlyRequests g) :
    (Client.converse P ⟨w, false⟩ g).2 = ⟨w, false⟩ := by
  induction g with
  | nil => rfl
  | cons x g ih =>
    obtain ⟨c, rfl⟩ := hg x (by simp)
    exact ih (fun y hy => hg y (by simp [hy]))

/-- A history of searches. -/
def OnlySearches (h : List (ClCall (IxCall V M))) : Prop := ∀ x ∈ h, ∃ nd q k, x = .request (.search nd q k)

theorem searches_same {L : Lawful B okId okM} {P : Parts (X × σ) (IxCall V M) (FwdReply D M)}
    {fr : X → Prop} {I : List (Item V M) → X × σ → Prop} {may : List (Item V M) → IxCall V M → Prop}
    {good : List (Item V M) → V → Int → List (Hit D M) → Prop} (hS : Serves L P fr I may good)
    {Same : X → X → Prop} (hq : ∀ live w, I live w → ∀ nd q k, ∀ x, Same w.1 x →
      Same (P.request (.search nd q k) w).2.1 x)
    (qs : List (ClCall (IxCall V M))) (hqs : OnlySearches qs) :
    ∀ (live : List (Item V M)) (w : X × σ) (x : X), I live w → Same w.1 x →
    ∃ w', (Client.converse P ⟨w, true⟩ qs).2 = ⟨w', true⟩ ∧ I live w' ∧ Same w'.1 x := by
  induction qs with
  | nil => intro live w x hi hsame; exact ⟨w, rfl, hi, hsame⟩
  | cons y qs ih =>
    intro live w x hi hsame
    obtain ⟨nd, q, k, rfl⟩ := hqs y (by simp)
    exact ih (fun z hz => hqs z (by simp [hz])) live _ x (hS.request hi (.search nd q k) trivial).2
      (hq live w hi nd q k x hsame)

theorem no_trace {L : Lawful B okId okM} {P : Parts (X × σ) (IxCall V M) (FwdReply D M)}
    {fr : X → Prop} {I : List (Item V M) → X × σ → Prop} {may : List (Item V M) → IxCall V M → Prop}
    {good : List (Item V M) → V → Int → List (Hit D M) → Prop} (hS : Serves L P fr I may good)
    {vol : Bool} (hR : Reopens L vol) {Same : X → X → Prop} (hrefl : ∀ x, Same x x)
    (hst : TwinStep okId okId okM okM P P I I Same) (hq : ∀ live w, I live w → ∀ nd q k, ∀ x, Same w.1 x →
      Same (P.request (.search nd q k) w).2.1 x) (x : X) (hx : fr x) (s : σ) (live : List (Item V M))
    (hn : (live.map Item.id).Nodup) (hs : L.inv (B.init s))
    (hl : ∀ id, L.content (B.init s) id = Live.find live id) (h qs g : List (ClCall (IxCall V M)))
    (hqs : OnlySearches qs) (hg : OnlyRequests g) (hok : Db.HistOk okId okM vol ⟨false, live⟩ (h ++ g))
    (hop : Db.OpensClosed vol ⟨false, live⟩ h) :
    (Client.converse P (Client.converse P ⟨(x, s), false⟩ (h ++ qs)).2 g).1 =
      (Client.converse P (Client.converse P ⟨(x, s), false⟩ h).2 g).1 := by
  obtain ⟨o1, o2⟩ := histOk_append h g _ hok
  obtain ⟨f1, f2, -⟩ := follows_after hS hR h ⟨false, live⟩ ⟨(x, s), false⟩
    ⟨rfl, (fun h => by cases h), fun _ => ⟨hx, hn, hs, hl⟩⟩ o1 hop
  rw [converse_append]
  revert f1 f2
  generalize hc : (Client.converse P ⟨(x, s), false⟩ h).2 = c
  obtain ⟨w, b⟩ := c
  intro f1 f2
  cases b with
  | false =>
    rw [converse_closed P w qs (fun y hy => by obtain ⟨nd, q, k, rfl⟩ := hqs y hy; exact ⟨_, rfl⟩)]
  | true =>
    obtain ⟨live', hp, hi⟩ := f2 f1.symm
    obtain ⟨w', e, hi', hsame⟩ := searches_same hS hq qs hqs live' w w.1 hi (hrefl _)
    rw [e]
    have hok2 : Db.HistOk okId okM vol ⟨true, live'⟩ g := by
      refine histOk_perm g _ _ _ hp ?_
      have : Db.after vol ⟨false, live⟩ h = ⟨true, (Db.after vol ⟨false, live⟩ h).live⟩ := by
        rw [show true = _ from f1]
      rw [← this]
      exact o2
    exact twins_all hS hS hst g live' w' w hi' hi hsame hg hok2 hok2

/-- **C226** HNSW: with the same random choices and on any two storages that start empty, the same
requests get exactly the same answers. -/
theorem C226_hnsw_backends [LinearOrder D] (L : Lawful B okId okM) (K : Lawful C okId' okM')
    (env : HnswEnv V D) (vol vol' : Bool) (s : σ) (t : τ) (hs : L.inv (B.init s)) (ht : K.inv (C.init t))
    (hz : ∀ id, L.content (B.init s) id = none) (hz' : ∀ id, K.content (C.init t) id = none)
    (g : List (ClCall (IxCall V M))) (hg : OnlyRequests g)
    (hok : Db.HistOk okId okM vol ⟨true, []⟩ g) (hok' : Db.HistOk okId' okM' vol' ⟨true, []⟩ g) :
    (Client.converse (hnswParts env B) ⟨(Hnsw.new, s), false⟩ (.init :: g)).1 =
      (Client.converse (hnswParts env C) ⟨(Hnsw.new, t), false⟩ (.init :: g)).1 := by
  obtain ⟨s1, e1, -⟩ := list_empty L hs hz
  obtain ⟨t1, e2, -⟩ := list_empty K ht hz'
  have i1 : Hnsw.init env B Hnsw.new (B.init s) = (.ok (), ⟨[[]], [], 0, 0, true, 0⟩, s1) := by
    simp only [Hnsw.init, e1]; rfl
  have i2 : Hnsw.init env C Hnsw.new (C.init t) = (.ok (), ⟨[[]], [], 0, 0, true, 0⟩, t1) := by
    simp only [Hnsw.init, e2]; rfl
  obtain ⟨w, l, k1, k2, k3⟩ := hnsw_opens (L := L) env ⟨0, rfl⟩ hs
  obtain ⟨u, l', k1', k2', k3'⟩ := hnsw_opens (L := K) env ⟨0, rfl⟩ ht
  obtain rfl := live_empty fun id => (k3 id).trans (hz id)
  obtain rfl := live_empty fun id => (k3' id).trans (hz' id)
  have a1 : Client.ask (hnswParts env B) ⟨(Hnsw.new, s), false⟩ .init = (.unit (.ok ()), ⟨w, true⟩) := by
    have : Client.init (hnswParts env B) ⟨(Hnsw.new, s), false⟩ = (.ok (), ⟨w, true⟩) := by
      simp only [Client.init, Client.steps, hnswParts]
      erw [k1]
    simp only [Client.ask, this]
  have a2 : Client.ask (hnswParts env C) ⟨(Hnsw.new, t), false⟩ .init = (.unit (.ok ()), ⟨u, true⟩) := by
    have : Client.init (hnswParts env C) ⟨(Hnsw.new, t), false⟩ = (.ok (), ⟨u, true⟩) := by
      simp only [Client.init, Client.steps, hnswParts]
      erw [k1']
    simp only [Client.ask, this]
  have hsame : w.1 = u.1 := by
    have e := i1.symm.trans k1
    have e' := i2.symm.trans k1'
    simp only [Prod.mk.injEq, true_and] at e e'
    rw [← e, ← e']
  simp only [Client.converse, a1, a2]
  exact congrArg _ (twins_all (hnsw_serves L env) (hnsw_serves K env) (hnsw_twins L K env) g [] w u k2 k2'
    hsame hg hok hok')

/-- **C226** IVF: with the same k-means and on any two storages that start empty, the same requests get
exactly the same answers. -/
theorem C226_ivf_backends [LinearOrder D] (L : Lawful B okId okM) (K : Lawful C okId' okM')
    (env : IvfEnv V D) (hk : Ivf.KMeansOk env) (hK : ∀ vs, vs ≠ [] → ∃ r, env.kmeans vs = .ok r)
    (hp : 0 ≤ env.nProbes) (vol vol' : Bool) (s : σ) (t : τ) (hs : L.inv (B.init s)) (ht : K.inv (C.init t))
    (hz : ∀ id, L.content (B.init s) id = none) (hz' : ∀ id, K.content (C.init t) id = none)
    (g : List (ClCall (IxCall V M))) (hg : OnlyRequests g)
    (hok : Db.HistOk okId okM vol ⟨true, []⟩ g) (hok' : Db.HistOk okId' okM' vol' ⟨true, []⟩ g) :
    (Client.converse (ivfParts env B) ⟨(Ivf.new, s), false⟩ (.init :: g)).1 =
      (Client.converse (ivfParts env C) ⟨(Ivf.new, t), false⟩ (.init :: g)).1 := by
  obtain ⟨s1, e1, -⟩ := list_empty L hs hz
  obtain ⟨t1, e2, -⟩ := list_empty K ht hz'
  have i1 : Ivf.init env B Ivf.new (B.init s) = (.ok (), ⟨none, [], [], [], 0, false, true⟩, s1) := by
    simp [Ivf.init, e1, Ivf.train, Ivf.new, loadVecs]
  have i2 : Ivf.init env C Ivf.new (C.init t) = (.ok (), ⟨none, [], [], [], 0, false, true⟩, t1) := by
    simp [Ivf.init, e2, Ivf.train, Ivf.new, loadVecs]
  obtain ⟨w, l, k1, k2, k3⟩ := Ivf.opens (L := L) (env := env) hk hK hs
  obtain ⟨u, l', k1', k2', k3'⟩ := Ivf.opens (L := K) (env := env) hk hK ht
  obtain rfl := live_empty fun id => (k3 id).trans (hz id)
  obtain rfl := live_empty fun id => (k3' id).trans (hz' id)
  have a1 : Client.ask (ivfParts env B) ⟨(Ivf.new, s), false⟩ .init = (.unit (.ok ()), ⟨w, true⟩) := by
    have : Client.init (ivfParts env B) ⟨(Ivf.new, s), false⟩ = (.ok (), ⟨w, true⟩) := by
      simp only [Client.init, Client.steps, ivfParts]
      erw [k1]
    simp only [Client.ask, this]
  have a2 : Client.ask (ivfParts env C) ⟨(Ivf.new, t), false⟩ .init = (.unit (.ok ()), ⟨u, true⟩) := by
    have : Client.init (ivfParts env C) ⟨(Ivf.new, t), false⟩ = (.ok (), ⟨u, true⟩) := by
      simp only [Client.init, Client.steps, ivfParts]
      erw [k1']
    simp only [Client.ask, this]
  have hsame : Ivf.bare w.1 = Ivf.bare u.1 := by
    have e := i1.symm.trans k1
    have e' := i2.symm.trans k1'
    simp only [Prod.mk.injEq, true_and] at e e'
    rw [← e, ← e']
  simp only [Client.converse, a1, a2]
  exact congrArg _ (twins_all (ivf_serves L env hk hK hp) (ivf_serves K env hk hK hp) (ivf_twins L K env) g
    [] w u k2 k2' hsame hg hok hok')

/-- **C226** HNSW: searches made before change no later answer. -/
theorem C226_hnsw_searches [LinearOrder D] (L : Lawful B okId okM) (vol : Bool) (hR : Reopens L vol)
    (env : HnswEnv V D) (s : σ) (live : List (Item V M)) (hn : (live.map Item.id).Nodup)
    (hs : L.inv (B.init s)) (hl : ∀ id, L.content (B.init s) id = Live.find live id)
    (h qs g : List (ClCall (IxCall V M))) (hqs : OnlySearches qs) (hg : OnlyRequests g)
    (hok : Db.HistOk okId okM vol ⟨false, live⟩ (h ++ g)) (hop : Db.OpensClosed vol ⟨false, live⟩ h) :
    (Client.converse (hnswParts env B)
      (Client.converse (hnswParts env B) ⟨(Hnsw.new, s), false⟩ (h ++ qs)).2 g).1 =
    (Client.converse (hnswParts env B)
      (Client.converse (hnswParts env B) ⟨(Hnsw.new, s), false⟩ h).2 g).1 := by
  refine no_trace (hnsw_serves L env) hR (fun _ => rfl) (hnsw_twins L L env) ?_ _ ⟨0, rfl⟩ s live hn hs hl
    h qs g hqs hg hok hop
  rintro live ⟨f, s⟩ hi nd q k _ rfl
  obtain ⟨r, s', -, e, -⟩ := (Hnsw.call_oblivious env hi hi).2.2.2 nd q k
  simp only [hnswParts, e]
  cases r <;> rfl

/-- **C226** IVF: searches made before change no later answer. -/
theorem C226_ivf_searches [LinearOrder D] (L : Lawful B okId okM) (vol : Bool) (hR : Reopens L vol)
    (env : IvfEnv V D) (hk : Ivf.KMeansOk env) (hK : ∀ vs, vs ≠ [] → ∃ r, env.kmeans vs = .ok r)
    (hp : 0 ≤ env.nProbes) (s : σ) (live : List (Item V M)) (hn : (live.map Item.id).Nodup)
    (hs : L.inv (B.init s)) (hl : ∀ id, L.content (B.init s) id = Live.find live id)
    (h qs g : List (ClCall (IxCall V M))) (hqs : OnlySearches qs) (hg : OnlyRequests g)
    (hok : Db.HistOk okId okM vol ⟨false, live⟩ (h ++ g)) (hop : Db.OpensClosed vol ⟨false, live⟩ h) :
    (Client.converse (ivfParts env B)
      (Client.converse (ivfParts env B) ⟨(Ivf.new, s), false⟩ (h ++ qs)).2 g).1 =
    (Client.converse (ivfParts env B)
      (Client.converse (ivfParts env B) ⟨(Ivf.new, s), false⟩ h).2 g).1 := by
  refine no_trace (Same := fun f g => Ivf.bare f = Ivf.bare g) (ivf_serves L env hk hK hp) hR (fun _ => rfl) (ivf_twins L L env) ?_ _ rfl s live hn hs hl
    h qs g hqs hg hok hop
  rintro live ⟨f, s⟩ hi nd q k x hx
  have := (Ivf.call_oblivious env hi hi rfl).2.2.2 nd q k
  rw [← hx]
  simp only [ivfParts]
  revert this
  rcases Ivf.search env B nd q k f s with ⟨_ | _, a, b⟩ <;> exact fun this => this.2.1

/-- The hypotheses hold for these requests in memory and on disk, and the answers. -/
example :
    Db.HistOk (fun _ => True) (fun _ => True) true (⟨true, []⟩ : Db Nat Nat) exRequests ∧
    Db.HistOk (OwnName exEnv) (fun m => exEnv.picklable m = true) false (⟨true, []⟩ : Db Nat Nat)
      exRequests ∧ OnlyRequests exRequests ∧
    OnlySearches [(.request (.search 1 5 2) : ClCall (IxCall Nat Nat))] ∧
    (Client.converse (ivfParts exIvfAll (diskBackend exEnv))
      ⟨(Ivf.new, Disk.opened (emptyDir Nat Nat)), false⟩ (.init :: exRequests)).1.map seen =
      [.done, .ids ["b", "a"], .ids ["c"], .hits [⟨"a", 2, none⟩, ⟨"b", 3, some 1⟩], .flag true,
       .hits [⟨"b", 3, some 1⟩]] ∧
    (Client.converse (hnswParts exHnswAll (diskBackend exEnv))
      ⟨(Hnsw.new, Disk.opened (emptyDir Nat Nat)), false⟩ (.init :: exRequests)).1.map seen =
      [.done, .ids ["b", "a"], .ids ["c"], .hits [⟨"a", 2, none⟩, ⟨"b", 3, some 1⟩], .flag true,
       .hits [⟨"b", 3, some 1⟩, ⟨"c", 26, none⟩]] := by
  refine ⟨?_, ?_, ?_, ?_, by decide +kernel, by decide +kernel⟩
  · simp [exRequests, Db.HistOk, Db.next, Live.CallOk, Live.next, Live.items, Live.has, Live.removeAll,
      Live.remove]
  · simp [exRequests, Db.HistOk, Db.next, Live.CallOk, Live.next, Live.items, Live.has, Live.removeAll,
      Live.remove, OwnName, Live.mdAt]
    decide +kernel
  · intro x hx
    simp only [exRequests, List.mem_cons, List.not_mem_nil, or_false] at hx
    rcases hx with rfl | rfl | rfl | rfl | rfl <;> exact ⟨_, rfl⟩
  · intro x hx
    simp only [List.mem_cons, List.not_mem_nil, or_false] at hx
    exact ⟨1, 5, 2, hx⟩

end Valori.Props
