import Verif.Model.ClientIndices
import Verif.Spec.Approximate
import Verif.Lemmas.IvfTotal
import Verif.Props.Database
import Verif.Props.Ivf
import Verif.Props.Hnsw

/-!
# Property C195: clients over IVF and HNSW indices are honest search databases
-/

namespace Valori.Props
open Valori Valori.Spec

variable {σ V M D X : Type} {B : Backend σ V M} {okId : Id → Prop} {okM : M → Prop}

/-- A distance as a partial function. -/
def partialDist (dist : V → V → Except Err D) (a b : V) : Option D :=
  match dist a b with
  | .ok d => some d
  | .error _ => none

theorem partialDist_some {dist : V → V → Except Err D} {a b : V} {d : D} (h : dist a b = .ok d) :
    partialDist dist a b = some d := by simp [partialDist, h]

/-- What the proof needs of a client over an index that keeps its vectors in the storage. -/
structure Serves (L : Lawful B okId okM) (P : Parts (X × σ) (IxCall V M) (FwdReply D M))
    (fresh : X → Prop) (Inv : List (Item V M) → X × σ → Prop)
    (may : List (Item V M) → IxCall V M → Prop)
    (good : List (Item V M) → V → Int → List (Hit D M) → Prop) : Prop where
  sInit : P.storageInit = fun w => (.ok (), (w.1, B.init w.2))
  qInit : P.quantInit = none
  pInit : P.persInit = none
  pClose : P.persClose = none
  qClose : P.quantClose = none
  sClose : P.storageClose = fun w => (.ok (), (w.1, B.close w.2))
  opens : ∀ x s, fresh x → L.inv s → ∃ t live, P.indexInit (x, s) = (.ok (), t) ∧ Inv live t ∧
    ∀ id, Live.find live id = L.content s id
  closes : ∀ w, ∃ x, P.indexClose w = (.ok (), (x, w.2)) ∧ fresh x
  nd : ∀ {live t}, Inv live t → (Live.idsOf live).Nodup
  st : ∀ {live t}, Inv live t → L.inv t.2
  cont : ∀ {live t}, Inv live t → L.content t.2 = Live.find live
  request : ∀ {live t}, Inv live t → ∀ c, Live.CallOk okId okM live c →
    Db.RightBy may good ⟨true, live⟩ (.request c) (seen (.reply (P.request c t).1)) ∧
    Inv (Live.next live c) (P.request c t).2
  mayPerm : ∀ {l l' : List (Item V M)}, l.Perm l' → ∀ c, may l c → may l' c
  goodPerm : ∀ {l l' : List (Item V M)}, l.Perm l' → ∀ q k a, good l q k a → good l' q k a

theorem rightBy_perm {may : List (Item V M) → IxCall V M → Prop}
    {good : List (Item V M) → V → Int → List (Hit D M) → Prop}
    (h1 : ∀ {l l' : List (Item V M)}, l.Perm l' → ∀ c, may l c → may l' c)
    (h2 : ∀ {l l' : List (Item V M)}, l.Perm l' → ∀ q k a, good l q k a → good l' q k a)
    {l l' : List (Item V M)} (hp : l.Perm l') {c : IxCall V M} {a : DbAns D M}
    (h : Db.RightBy may good ⟨true, l⟩ (.request c) a) :
    Db.RightBy may good ⟨true, l'⟩ (.request c) a := by
  simp only [Db.RightBy, if_neg (show ¬ (true = false) by decide)] at h ⊢
  cases c with
  | insert nd rows mds =>
    simp only at h ⊢
    split
    · rename_i hnd
      rw [if_pos hnd] at h
      exact h.imp id fun x => ⟨h1 hp _ x.1, x.2⟩
    · rename_i hnd
      rw [if_neg hnd] at h
      exact h
  | delete ids => simpa only [(removeAll_perm hp ids).1] using h
  | update id v m =>
    simp only at h ⊢
    rw [← has_perm hp]
    exact h.imp (fun x => x) fun x => ⟨h1 hp _ x.1, x.2⟩
  | search nd q k =>
    simp only at h ⊢
    split
    · rename_i hnd
      rw [if_pos hnd] at h
      exact h.imp (fun ⟨r, x, y⟩ => ⟨r, x, h2 hp _ _ _ y⟩) fun x => ⟨h1 hp _ x.1, x.2⟩
    · rename_i hnd
      rw [if_neg hnd] at h
      exact h

section serves
variable {L : Lawful B okId okM} {P : Parts (X × σ) (IxCall V M) (FwdReply D M)} {fresh : X → Prop}
  {Inv : List (Item V M) → X × σ → Prop} {may : List (Item V M) → IxCall V M → Prop}
  {good : List (Item V M) → V → Int → List (Hit D M) → Prop}

/-- The client holds what the abstract database holds. -/
def Follows (L : Lawful B okId okM) (fresh : X → Prop) (Inv : List (Item V M) → X × σ → Prop)
    (db : Db V M) (c : Client (X × σ)) : Prop :=
  c.inited = db.isOpen ∧
  (db.isOpen = true → ∃ live, db.live.Perm live ∧ Inv live c.w) ∧
  (db.isOpen = false → fresh c.w.1 ∧ (Live.idsOf db.live).Nodup ∧ L.inv (B.init c.w.2) ∧
    ∀ id, L.content (B.init c.w.2) id = Live.find db.live id)

theorem follows_step (hS : Serves L P fresh Inv may good) {vol : Bool} (hR : Reopens L vol)
    {db : Db V M} {c : Client (X × σ)} (h : Follows L fresh Inv db c) (x : ClCall (IxCall V M))
    (hx : match x with
      | .request q => db.isOpen = true → Live.CallOk okId okM db.live q
      | _ => True) (hi : x = .init → db.isOpen = false) :
    Db.RightBy may good db x (seen (Client.ask P c x).1) ∧
    Follows L fresh Inv (Db.next vol db x) (Client.ask P c x).2 := by
  obtain ⟨⟨f, s⟩, b⟩ := c
  obtain ⟨o, live⟩ := db
  obtain ⟨h1, h2, h3⟩ := h
  simp only at h1 h2 h3
  subst h1
  have nodupIf : ∀ {l : List (Item V M)}, (Live.idsOf l).Nodup →
      (Live.idsOf (if vol then ([] : List (Item V M)) else l)).Nodup := by
    intro l hl; cases vol
    · exact hl
    · exact List.nodup_nil
  cases x with
  | request q =>
    cases b with
    | false =>
      have e : Client.ask P ⟨(f, s), false⟩ (.request q) =
          (.reply (.error .valori), ⟨(f, s), false⟩) := rfl
      rw [e]
      exact ⟨rfl, rfl, h2, h3⟩
    | true =>
      obtain ⟨live', hp, hinv⟩ := h2 rfl
      obtain ⟨k1, k2⟩ := hS.request hinv q (callOk_perm hp (hx rfl))
      exact ⟨rightBy_perm hS.mayPerm hS.goodPerm hp.symm k1, rfl,
        fun _ => ⟨_, next_perm hp q, k2⟩, fun h => by cases h⟩
  | init =>
    have hb : b = false := hi rfl
    subst hb
    obtain ⟨c1, c2, c3, c4⟩ := h3 rfl
    have key : ∀ id, L.content (B.init s) id =
        Live.find (if vol then ([] : List (Item V M)) else live) id := by
      intro id
      cases vol
      · exact c4 id
      · exact (hR.volatile rfl s).2 id
    obtain ⟨t, live', e, hinv, hf⟩ := hS.opens f (B.init s) c1 c3
    have e2 : Client.ask P ⟨(f, s), false⟩ .init = (.unit (.ok ()), ⟨t, true⟩) := by
      have e1 : Client.init P ⟨(f, s), false⟩ = (.ok (), ⟨t, true⟩) := by
        simp [Client.init, Client.steps, hS.sInit, hS.qInit, hS.pInit, e]
      simp only [Client.ask, e1]
    rw [e2]
    refine ⟨rfl, rfl, fun _ => ⟨live', ?_, hinv⟩, (fun h => absurd h (by simp [Db.next]))⟩
    exact find_perm_of_eq (nodupIf c2) (hS.nd hinv) fun id => by rw [hf, key]; rfl
  | close =>
    obtain ⟨x, ex, fx⟩ := hS.closes (f, s)
    have e : Client.ask P ⟨(f, s), b⟩ .close = (.unit (.ok ()), ⟨(x, B.close s), false⟩) := by
      have e1 : Client.close P ⟨(f, s), b⟩ = (.ok (), ⟨(x, B.close s), false⟩) := by
        simp [Client.close, Client.steps, hS.pClose, hS.qClose, hS.sClose, ex]
      simp only [Client.ask, e1]
    rw [e]
    refine ⟨rfl, rfl, (fun h => absurd h (by simp [Db.next])), fun _ => ⟨fx, ?_, ?_⟩⟩
    · cases b with
      | false => exact nodupIf (h3 rfl).2.1
      | true =>
        obtain ⟨live', hp, hinv⟩ := h2 rfl
        exact nodupIf ((hp.map Item.id).nodup_iff.2 (hS.nd hinv))
    · cases hv : vol with
      | true => exact hR.volatile hv (B.close s)
      | false =>
        cases b with
        | false =>
          obtain ⟨c1, c2, c3, c4⟩ := h3 rfl
          obtain ⟨r1, r2⟩ := hR.closed hv s c3
          exact ⟨r1, fun id => by simp only; rw [r2]; exact c4 id⟩
        | true =>
          obtain ⟨live', hp, hinv⟩ := h2 rfl
          have hst : L.inv s := hS.st hinv
          obtain ⟨q1, q2⟩ := hR.again hv s hst
          obtain ⟨r1, r2⟩ := hR.closed hv s q1
          have hcont : L.content s = Live.find live' := hS.cont hinv
          refine ⟨r1, fun id => ?_⟩
          simp only
          rw [r2, q2, hcont]
          exact (find_of_perm hp ((hp.map Item.id).nodup_iff.2 (hS.nd hinv)) id).symm

theorem follows_all (hS : Serves L P fresh Inv may good) {vol : Bool} (hR : Reopens L vol)
    (h : List (ClCall (IxCall V M))) : ∀ (db : Db V M) (c : Client (X × σ)),
    Follows L fresh Inv db c → Db.HistOk okId okM vol db h → Db.OpensClosed vol db h →
    Db.AllRightBy vol may good db h ((Client.converse P c h).1.map seen) := by
  induction h with
  | nil => intro db c _ _ _; trivial
  | cons x h ih =>
    intro db c hs hok hop
    obtain ⟨a1, a2⟩ := follows_step hS hR hs x hok.1 hop.1
    exact ⟨a1, ih _ _ a2 hok.2 hop.2⟩

end serves

theorem honest_perm [LinearOrder D] {dist : V → V → Option D} {l l' : List (Item V M)}
    (h : l.Perm l') (q : V) (k : Int) (a : List (Hit D M)) (ha : Db.Honest dist l q k a) :
    Db.Honest dist l' q k a := by
  intro hk
  obtain ⟨h1, h2, h3⟩ := ha hk
  exact ⟨h1, h2, fun x hx => by obtain ⟨y, hy, r⟩ := h3 x hx; exact ⟨y, h.mem_iff.1 hy, r⟩⟩

/-- Answers of an IVF index name no item twice. -/
def HonestDistinct [LinearOrder D] (dist : V → V → Option D) (live : List (Item V M)) (q : V) (k : Int)
    (l : List (Hit D M)) : Prop := Db.Honest dist live q k l ∧ (0 ≤ k → (l.map Hit.id).Nodup)

theorem ivf_serves [LinearOrder D] (L : Lawful B okId okM) (env : IvfEnv V D) (hk : Ivf.KMeansOk env)
    (hK : ∀ vs, vs ≠ [] → ∃ r, env.kmeans vs = .ok r) (hp : 0 ≤ env.nProbes) :
    Serves L (ivfParts env B) (· = Ivf.new) (Ivf.Inv L) (fun _ _ => ∃ a b e, env.dist a b = .error e)
      (HonestDistinct (partialDist env.dist)) where
  sInit := rfl
  qInit := rfl
  pInit := rfl
  pClose := rfl
  qClose := rfl
  sClose := rfl
  opens := by rintro x s rfl hs; exact Ivf.opens hk hK hs
  closes w := ⟨_, rfl, rfl⟩
  nd h := h.core.nd
  st h := h.core.st
  cont h := h.core.cont
  mayPerm _ _ h := h
  goodPerm h q k a ha := ⟨honest_perm h q k a ha.1, ha.2⟩
  request := by
    intro live t h c hc
    obtain ⟨f, s⟩ := t
    have hi : f.inited = true := h.core.inited
    have hcall := (h.call (env := env) hk c hc).1
    have htot : (¬ ∃ a b e, env.dist a b = .error e) → Ivf.Total env := by
      intro hn
      refine ⟨fun a b => ?_, hK⟩
      cases hd : env.dist a b with
      | ok d => exact ⟨d, rfl⟩
      | error e => exact absurd ⟨a, b, e, hd⟩ hn
    cases c with
    | insert nd rows mds =>
      simp only [ivfParts]
      rcases hr : Ivf.insert env B nd rows mds f s with ⟨e | l, t'⟩
      · simp only [Ivf.call, hr] at hcall
        refine ⟨?_, hcall⟩
        have := Ivf.insert_error hr
        subst this
        simp only [Db.RightBy, fwd, seen, if_neg (show ¬ (true = false) by decide)]
        split
        · rename_i hnd
          subst hnd
          refine .inr ⟨?_, by trivial⟩
          by_contra hn
          obtain ⟨l, t2, e2⟩ := h.insert_total (htot hn) hc
          rw [hr] at e2; simp at e2
        · trivial
      · simp only [Ivf.call, hr] at hcall
        refine ⟨?_, hcall⟩
        simp only [Db.RightBy, fwd, seen, if_neg (show ¬ (true = false) by decide)]
        split
        · rename_i hnd
          subst hnd
          obtain ⟨-, k2, -⟩ := h.insert (env := env) hk hc
          rw [k2 l (by rw [hr])]
          exact .inl rfl
        · rename_i hnd
          have e : Ivf.insert env B nd rows mds f s = (.error .index, f, s) := by
            simp [Ivf.insert, hi, hnd]
          rw [hr] at e; simp at e
    | delete ids =>
      obtain ⟨f', s', e, -⟩ := Ivf.deleteLoop_spec ids true live f s h.core h.cl hc
      have e2 : Ivf.delete B ids f s =
          (.ok (Live.removeAll live ids).1, { f' with count := f'.ids.length }, s') := by
        simp [Ivf.delete, hi, e]
      simp only [Ivf.call, e2] at hcall
      simp only [ivfParts, e2]
      exact ⟨rfl, hcall⟩
    | update id v m =>
      simp only [ivfParts]
      rcases hr : Ivf.update env B id v m f s with ⟨e | b, t'⟩
      · simp only [Ivf.call, hr] at hcall
        refine ⟨?_, hcall⟩
        have := Ivf.update_error hr
        subst this
        simp only [Db.RightBy, fwd, seen, if_neg (show ¬ (true = false) by decide)]
        refine .inr ⟨?_, by trivial⟩
        by_contra hn
        obtain ⟨l, t2, e2⟩ := h.update_total (htot hn) v hc.1 hc.2
        rw [hr] at e2; simp at e2
      · simp only [Ivf.call, hr] at hcall
        refine ⟨?_, hcall⟩
        obtain ⟨-, k2, -⟩ := h.update (env := env) v hc.1 hc.2
        simp only [Db.RightBy, fwd, seen, if_neg (show ¬ (true = false) by decide)]
        rw [k2 b (by rw [hr])]
        exact .inl rfl
    | search nd q k =>
      simp only [ivfParts]
      rcases hr : Ivf.search env B nd q k f s with ⟨e | hits, t'⟩
      · simp only [Ivf.call, hr] at hcall
        refine ⟨?_, hcall⟩
        have := Ivf.search_error hr
        subst this
        simp only [Db.RightBy, fwd, seen, if_neg (show ¬ (true = false) by decide)]
        split
        · rename_i hnd
          subst hnd
          refine .inr ⟨?_, by trivial⟩
          by_contra hn
          obtain ⟨l, t2, e2⟩ := h.search_total (htot hn) q k
          rw [hr] at e2; simp at e2
        · trivial
      · simp only [Ivf.call, hr] at hcall
        refine ⟨?_, hcall⟩
        simp only [Db.RightBy, fwd, seen, if_neg (show ¬ (true = false) by decide)]
        split
        · rename_i hnd
          subst hnd
          refine .inl ⟨hits, rfl, ?_⟩
          obtain ⟨r, c, s', e, -, hrr⟩ := h.search (env := env) q k
          rw [hr] at e
          simp only [Prod.mk.injEq] at e
          obtain ⟨l, l1, l2, l3, l4, -, -⟩ := hrr hits e.1.symm hp
          cases hits with
          | nil => exact ⟨fun _ => by simp, fun _ => by simp⟩
          | cons a rest =>
            let dq : V → D := fun v => match env.dist q v with | .ok d => d | .error _ => a.dist
            have hq : Extends (env.dist q) dq := by intro v d hv; simp [dq, hv]
            refine ⟨fun hk0 => ?_, fun hk0 => (l4 hk0 dq hq).nodup⟩
            have ht := l4 hk0 dq hq
            refine ⟨?_, ht.sorted, ?_⟩
            · have := ht.length; omega
            · intro x hx
              obtain ⟨y, y1, y2, y3, y4⟩ := ht.sound x hx
              obtain ⟨d, hd⟩ := l3 y y1
              refine ⟨y, l2 y y1, y2, ?_, y4⟩
              rw [y3, hq _ _ hd]
              exact partialDist_some hd
        · rename_i hnd
          have e : Ivf.search env B nd q k f s = (.error .index, f, s) := by
            simp [Ivf.search, hi, hnd]
          rw [hr] at e; simp at e

theorem hnsw_opens {L : Lawful B okId okM} (env : HnswEnv V D) {f : Hnsw V} (hf : ∃ n, f = ⟨[], [], 0, 0, false, n⟩)
    {s : σ} (hs : L.inv s) :
    ∃ t live, Hnsw.init env B f s = (.ok (), t) ∧ Hnsw.Inv L live t ∧
      ∀ id, Live.find live id = L.content s id := by
  obtain ⟨n, rfl⟩ := hf
  obtain ⟨g, s', live, e, hinv, hfd⟩ := Flat.init_inv (L := L) (f := Flat.new) hs
    (fun id v v' m _ h => by simp [Flat.new] at h)
  simp only [Flat.init] at e
  rcases hl : B.list s none with ⟨_ | l, s1⟩
  · rw [hl] at e; simp at e
  · rw [hl] at e
    simp only [Prod.mk.injEq, true_and] at e
    obtain ⟨rfl, rfl⟩ := e
    have hids : l = Live.idsOf live := hinv.ids
    subst hids
    obtain ⟨f', s2, e2, g2, -⟩ := Hnsw.loadAll_spec (L := L) env hinv.nd live []
      (⟨[[]], [], 0, 0, true, n⟩ : Hnsw V) s1 rfl
      ⟨rfl, by simp, rfl, rfl, ⟨by simp [Hnsw.GraphOk.empty, Dict.keys], by simp [Dict.keys]⟩⟩
      hinv.st hinv.cont
    exact ⟨(f', s2), live, by simp only [Hnsw.init, hl, e2], g2, hfd⟩

theorem hnsw_serves [LinearOrder D] (L : Lawful B okId okM) (env : HnswEnv V D) :
    Serves L (hnswParts env B) (fun f => ∃ n, f = ⟨[], [], 0, 0, false, n⟩) (Hnsw.Inv L)
      (fun live c => ∃ q k, c = .search 1 q k ∧ ∃ y ∈ live, ∃ e, env.dist q y.vec = .error e)
      (Db.Honest (partialDist env.dist)) where
  sInit := rfl
  qInit := rfl
  pInit := rfl
  pClose := rfl
  qClose := rfl
  sClose := rfl
  opens := by intro x s hf hs; exact hnsw_opens env hf hs
  closes w := ⟨_, rfl, ⟨w.1.draws, rfl⟩⟩
  nd h := h.gr.nd
  st h := h.st
  cont h := h.cont
  mayPerm hp c := by rintro ⟨q, k, rfl, y, hy, e, he⟩; exact ⟨q, k, rfl, y, hp.mem_iff.1 hy, e, he⟩
  goodPerm h q k a ha := honest_perm h q k a ha
  request := by
    intro live t h c hc
    obtain ⟨f, s⟩ := t
    have hi : f.inited = true := h.gr.inited
    have hcall := (h.call (env := env) c hc).1
    cases c with
    | insert nd rows mds =>
      by_cases hnd : nd = 2
      · subst hnd
        obtain ⟨h1, h2, h3⟩ := hc
        obtain ⟨f', s', e, -⟩ := Hnsw.insertLoop_spec env mds h3 rows 0 live f s h h1 h2
        have e' : Hnsw.insert env B 2 rows mds f s = (.ok (rows.map Prod.fst), f', s') := by
          simp [Hnsw.insert, hi, e]
        simp only [Hnsw.call, e'] at hcall
        simp only [hnswParts, e']
        exact ⟨.inl rfl, hcall⟩
      · have e : Hnsw.insert env B nd rows mds f s = (.error .index, f, s) := by
          simp [Hnsw.insert, hi, hnd]
        simp only [Hnsw.call, e] at hcall
        simp only [hnswParts, e]
        refine ⟨?_, hcall⟩
        simp [Db.RightBy, hnd, fwd, seen]
    | delete ids =>
      obtain ⟨f', s', e, -⟩ := Hnsw.deleteLoop_spec ids true live f s h hc
      have e' : Hnsw.delete B ids f s = (.ok (Live.removeAll live ids).1, f', s') := by
        simp [Hnsw.delete, hi, e]
      simp only [Hnsw.call, e'] at hcall
      simp only [hnswParts, e']
      exact ⟨rfl, hcall⟩
    | update id v m =>
      obtain ⟨f', s', e, -⟩ := h.update v hc.1 hc.2
      simp only [Hnsw.call, e] at hcall
      simp only [hnswParts, e]
      exact ⟨.inl rfl, hcall⟩
    | search nd q k =>
      by_cases hnd : nd = 1
      · subst hnd
        obtain ⟨r, s', e, hinv, h1, h2, h3, h4⟩ := h.search (env := env) q k
        simp only [hnswParts, e]
        cases r with
        | error er =>
          have her : er = .index := by
            by_cases hl : live = []
            · have := h2 hl; cases this
            · cases hcd : Hnsw.candidates env q f with
              | error e2 => have := h3 hl e2 hcd; cases this; rfl
              | ok c => obtain ⟨_, hh⟩ := h4 c hcd; cases hh
          subst her
          refine ⟨.inr ⟨⟨q, k, rfl, ?_⟩, rfl⟩, hinv⟩
          by_contra hn
          push Not at hn
          obtain ⟨c, hcd⟩ := Hnsw.candidates_total (env := env) (q := q) h.gr (fun x hx => by
            cases hd : env.dist q x.vec with
            | ok d => exact ⟨d, rfl⟩
            | error e => exact absurd hd (hn x hx e))
          obtain ⟨_, hh⟩ := h4 c hcd
          cases hh
        | ok hits =>
          refine ⟨.inl ⟨hits, rfl, ?_⟩, hinv⟩
          intro hk0
          by_cases hl : live = []
          · have := h2 hl
            cases this
            simp
          · obtain ⟨c, hcd, rfl⟩ := h1 hits rfl hl
            have hsort := Valori.pySortBy_sorted (Prod.snd) c
            rw [sliceTo_nonneg _ (by omega)]
            refine ⟨?_, ?_, ?_⟩
            · simp only [attachMd, List.length_map, List.length_take]
              omega
            · simp only [attachMd, List.pairwise_map]
              exact hsort.sublist (List.take_sublist _ _)
            · intro x hx
              simp only [attachMd, List.mem_map] at hx
              obtain ⟨y, hy, rfl⟩ := hx
              have := (Valori.pySortBy_perm Prod.snd c).mem_iff.1 (List.mem_of_mem_take hy)
              obtain ⟨z, z1, z2, z3⟩ := Hnsw.candidates_spec h.gr.vec hcd y this
              refine ⟨z, z1, z2, partialDist_some z3, ?_⟩
              simp only
              rw [← z2, Live.find_mem h.gr.nd z1]; rfl
      · have e : Hnsw.search env B nd q k f s = (.error .index, f, s) := by
          simp [Hnsw.search, hi, hnd]
        simp only [Hnsw.call, e] at hcall
        simp only [hnswParts, e]
        refine ⟨?_, hcall⟩
        simp [Db.RightBy, hnd, fwd, seen]

/-- **C195** A client over an IVF index is an honest search database.  Over every storage that behaves as
a map, for every metric, every k-means that answers on non-empty input and every history in which
`initialize` is called on a closed client only: every answer is right for the abstract database that
started with what the storage held; a search may miss items but what it gives is live, distinct, ordered
and true; and a request with well-shaped arguments raises only if some distance is not defined. -/
theorem C195_ivf_database_partial [LinearOrder D] (L : Lawful B okId okM) (vol : Bool)
    (hR : Reopens L vol) (env : IvfEnv V D) (hk : Ivf.KMeansOk env)
    (hK : ∀ vs, vs ≠ [] → ∃ r, env.kmeans vs = .ok r) (hp : 0 ≤ env.nProbes) (s : σ)
    (live : List (Item V M)) (hn : (live.map Item.id).Nodup) (hs : L.inv (B.init s))
    (hl : ∀ id, L.content (B.init s) id = Live.find live id) (h : List (ClCall (IxCall V M)))
    (hok : Db.HistOk okId okM vol ⟨false, live⟩ h) (hop : Db.OpensClosed vol ⟨false, live⟩ h) :
    Db.AllRightBy vol (fun _ _ => ∃ a b e, env.dist a b = .error e)
      (HonestDistinct (partialDist env.dist)) ⟨false, live⟩ h
      ((Client.converse (ivfParts env B) ⟨(Ivf.new, s), false⟩ h).1.map seen) :=
  follows_all (ivf_serves L env hk hK hp) hR h ⟨false, live⟩ ⟨(Ivf.new, s), false⟩
    ⟨rfl, (fun h => by cases h), fun _ => ⟨rfl, hn, hs, hl⟩⟩ hok hop

/-- **C195** A client over an HNSW index is an honest search database, for every outcome of the random
choices; inserting and updating never raise, and a search raises only if the distance to some live item
is not defined. -/
theorem C195_hnsw_database_partial [LinearOrder D] (L : Lawful B okId okM) (vol : Bool)
    (hR : Reopens L vol) (env : HnswEnv V D) (s : σ) (live : List (Item V M))
    (hn : (live.map Item.id).Nodup) (hs : L.inv (B.init s))
    (hl : ∀ id, L.content (B.init s) id = Live.find live id) (h : List (ClCall (IxCall V M)))
    (hok : Db.HistOk okId okM vol ⟨false, live⟩ h) (hop : Db.OpensClosed vol ⟨false, live⟩ h) :
    Db.AllRightBy vol
      (fun live c => ∃ q k, c = .search 1 q k ∧ ∃ y ∈ live, ∃ e, env.dist q y.vec = .error e)
      (Db.Honest (partialDist env.dist)) ⟨false, live⟩ h
      ((Client.converse (hnswParts env B) ⟨(Hnsw.new, s), false⟩ h).1.map seen) :=
  follows_all (hnsw_serves L env) hR h ⟨false, live⟩ ⟨(Hnsw.new, s), false⟩
    ⟨rfl, (fun h => by cases h), fun _ => ⟨⟨0, rfl⟩, hn, hs, hl⟩⟩ hok hop

/-! Concrete data: natural numbers, absolute difference, all distances defined. -/

def exIvfAll : IvfEnv Nat Nat where
  nClusters := 2
  nProbes := 1
  dist a b := .ok ((a - b) + (b - a))
  kmeans vs := .ok ([10, 30], vs.map fun v => if v ≤ 20 then 0 else 1)

def exHnswAll : HnswEnv Nat Nat where
  efSearch := 50
  dist a b := .ok ((a - b) + (b - a))
  rnd _ := ⟨0, fun _ l => l.take 2⟩

/-- Opening, inserting, searching, deleting, searching again, closing, opening and searching. -/
def exApproxHist : List (ClCall (IxCall Nat Nat)) :=
  [.init, .request (.insert 2 [("a", 3), ("b", 8), ("c", 31)] (some [some 1])),
   .request (.search 1 5 5), .request (.delete ["a"]), .request (.update "b" 9 none),
   .request (.search 1 5 5), .close, .request (.search 1 5 5), .init, .request (.search 1 5 5)]

/-- The hypotheses hold for that history in memory. -/
example : Ivf.KMeansOk exIvfAll ∧ (∀ vs, vs ≠ [] → ∃ r, exIvfAll.kmeans vs = .ok r) ∧
    (∀ a b, ∃ d, exIvfAll.dist a b = .ok d) ∧
    Db.HistOk (fun _ => True) (fun _ => True) true (⟨false, []⟩ : Db Nat Nat) exApproxHist ∧
    Db.OpensClosed true (⟨false, []⟩ : Db Nat Nat) exApproxHist := by
  refine ⟨?_, fun vs _ => ⟨_, rfl⟩, fun a b => ⟨_, rfl⟩, ?_, ?_⟩
  · intro vs cs ls h
    simp only [exIvfAll, Except.ok.injEq, Prod.mk.injEq] at h
    obtain ⟨rfl, rfl⟩ := h
    refine ⟨by simp, ?_⟩
    intro l hl
    obtain ⟨v, _, rfl⟩ := List.mem_map.1 hl
    split <;> simp
  · simp [exApproxHist, Db.HistOk, Db.next, Live.CallOk, Live.next, Live.items, Live.has,
      Live.removeAll, Live.remove]
  · simp [exApproxHist, Db.OpensClosed, Db.next]

/-- The answers: IVF searches one of two clusters, HNSW finds all. -/
example :
    (Client.converse (ivfParts exIvfAll (memBackend Nat Nat)) ⟨(Ivf.new, Mem.new), false⟩
      exApproxHist).1.map seen =
      [.done, .ids ["a", "b", "c"], .hits [⟨"a", 2, some 1⟩, ⟨"b", 3, none⟩], .flag true, .flag true,
       .hits [⟨"b", 4, none⟩], .done, .refused, .done, .hits []] ∧
    (Client.converse (hnswParts exHnswAll (memBackend Nat Nat)) ⟨(Hnsw.new, Mem.new), false⟩
      exApproxHist).1.map seen =
      [.done, .ids ["a", "b", "c"], .hits [⟨"a", 2, some 1⟩, ⟨"b", 3, none⟩, ⟨"c", 26, none⟩],
       .flag true, .flag true, .hits [⟨"b", 4, none⟩, ⟨"c", 26, none⟩], .done, .refused, .done,
       .hits []] := by decide

/-- Two inserts with an `initialize` between them on the open client. -/
def exReinit : List (ClCall (IxCall Nat Nat)) :=
  [.init, .request (.insert 2 [("a", 3), ("b", 31)] none), .init,
   .request (.insert 2 [("c", 4)] none), .request (.search 1 5 5)]

theorem exReinit_ok :
    Db.HistOk (fun _ => True) (fun _ => True) true (⟨false, []⟩ : Db Nat Nat) exReinit := by
  simp [exReinit, Db.HistOk, Db.next, Live.CallOk, Live.next, Live.items, Live.has]

/-- **C195** is false of the code for IVF without the condition on `initialize`: memory storage empties
itself when it is initialised again, the index keeps its clusters and cached vectors
(ivf.py:40-56), and every search that probes such a cluster raises although all distances are
defined. -/
theorem C195_ivf_database_refuted :
    ¬ ∀ h : List (ClCall (IxCall Nat Nat)),
      Db.HistOk (fun _ => True) (fun _ => True) true ⟨false, []⟩ h →
      Db.AllRightBy true (fun _ _ => ∃ a b e, exIvfAll.dist a b = .error e)
        (HonestDistinct (partialDist exIvfAll.dist)) ⟨false, []⟩ h
        ((Client.converse (ivfParts exIvfAll (memBackend Nat Nat)) ⟨(Ivf.new, Mem.new), false⟩ h).1.map
          seen) := by
  intro hall
  have h := hall exReinit exReinit_ok
  have e : (Client.converse (ivfParts exIvfAll (memBackend Nat Nat)) ⟨(Ivf.new, Mem.new), false⟩
      exReinit).1.map seen = [.done, .ids ["a", "b"], .done, .ids ["c"], .raised] := by decide
  rw [e] at h
  obtain ⟨-, -, -, -, h5, -⟩ := h
  simp [Db.RightBy, Db.next, exIvfAll] at h5

/-- **C195** For HNSW the same history leaves a wrong count in the statistics: `initialize` empties the
levels but not the vectors (hnsw.py:43-61). -/
theorem C195_hnsw_count_refuted :
    ¬ ∀ h : List (ClCall (IxCall Nat Nat)),
      Db.HistOk (fun _ => True) (fun _ => True) true ⟨false, []⟩ h →
      (Client.converse (hnswParts exHnswAll (memBackend Nat Nat)) ⟨(Hnsw.new, Mem.new), false⟩
        h).2.w.1.statCount.getD 0 = (h.foldl (Db.next true) (⟨false, []⟩ : Db Nat Nat)).live.length := by
  intro hall
  have h := hall exReinit exReinit_ok
  revert h
  decide

end Valori.Props
