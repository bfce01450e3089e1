import Verif.Spec.SameAnswers
import Verif.Lemmas.TopK
import Verif.Props.ClientStats

/-!
# Property C225: equal content, equal answers
-/

namespace Valori.Props
open Valori Valori.Spec

variable {σ τ V M D : Type} {B : Backend σ V M} {C : Backend τ V M} {okId okId' : Id → Prop}
  {okM okM' : M → Prop}

theorem sim_nodup {L : Lawful B okId okM} {db : Db V M} {c : Client (Flat V × σ)} (h : Sim L db c) :
    (Live.idsOf db.live).Nodup := by
  obtain ⟨-, h2, h3⟩ := h
  cases ho : db.isOpen with
  | true =>
    obtain ⟨live, hp, hi⟩ := h2 ho
    exact (hp.map Item.id).nodup_iff.2 hi.nd
  | false => exact (h3 ho).2.1

theorem right_agree [LinearOrder D] (dist : V → V → D) (env : FlatEnv V D) {db db' : Db V M}
    (hn : (Live.idsOf db.live).Nodup) (ho : db.isOpen = db'.isOpen) (hp : db.live.Perm db'.live)
    {x : ClCall (IxCall V M)} {a b : DbAns D M} (ha : Db.Right dist (flatFails env) db x a)
    (hb : Db.Right dist (flatFails env) db' x b) : DbAns.Agree a b := by
  have refl : ∀ a b : DbAns D M, a = b → (∀ l, a ≠ .hits l) → DbAns.Agree a b := by
    rintro a b rfl h
    cases a with
    | hits l => exact absurd rfl (h l)
    | _ => rfl
  have hn' : (Live.idsOf db'.live).Nodup := (hp.map Item.id).nodup_iff.1 hn
  cases x with
  | init => exact refl a b (ha.trans hb.symm) (fun l e => by cases ha.symm.trans e)
  | close => exact refl a b (ha.trans hb.symm) (fun l e => by cases ha.symm.trans e)
  | request c =>
    simp only [Db.Right] at ha hb
    rw [← ho] at hb
    by_cases hop : db.isOpen = false
    · rw [if_pos hop] at ha hb
      exact refl a b (ha.trans hb.symm) (fun l e => by cases ha.symm.trans e)
    · rw [if_neg hop] at ha hb
      cases c with
      | insert nd rows mds =>
        simp only at ha hb
        refine refl a b (ha.trans hb.symm) (fun l e => ?_)
        rw [ha] at e; split at e <;> cases e
      | delete ids =>
        simp only at ha hb
        rw [← (removeAll_perm hp ids).1] at hb
        exact refl a b (ha.trans hb.symm) (fun l e => by cases ha.symm.trans e)
      | update id v m =>
        simp only at ha hb
        rw [← has_perm hp] at hb
        exact refl a b (ha.trans hb.symm) (fun l e => by cases ha.symm.trans e)
      | search nd q k =>
        simp only at ha hb
        rw [← flatFails_perm env hp, ← hp.length_eq] at hb
        by_cases hc : nd = 1 ∧ flatFails env db.live q = false
        · rw [if_pos hc] at ha hb
          obtain ⟨l, rfl, ha⟩ := ha
          obtain ⟨l', rfl, hb⟩ := hb
          refine ⟨IsTopK.dists_unique hn hp ha hb, ?_, ?_⟩
          · rintro x hx ⟨y, hy, hlt⟩; exact IsTopK.mem_of_lt hn hp ha hb hx hy hlt
          · rintro x hx ⟨y, hy, hlt⟩; exact IsTopK.mem_of_lt hn' hp.symm hb ha hx hy hlt
        · rw [if_neg hc] at ha hb
          exact refl a b (ha.trans hb.symm) (fun l e => by cases ha.symm.trans e)

/-- The environment with another way of sorting. -/
def FlatEnv.sorted (env : FlatEnv V D) (as : List D → List Nat) : FlatEnv V D := { env with argsort := as }

theorem agree_all [LinearOrder D] {L : Lawful B okId okM} {K : Lawful C okId' okM'} {vol vol' : Bool}
    (hR : Reopens L vol) (hQ : Reopens K vol') (env : FlatEnv V D) (ha : IsArgsort env.argsort)
    (as : List D → List Nat) (ha' : IsArgsort as) (g : List (ClCall (IxCall V M))) :
    ∀ (db db' : Db V M) (c : Client (Flat V × σ)) (c' : Client (Flat V × τ)), Sim L db c →
      Sim K db' c' → db.isOpen = db'.isOpen → db.live.Perm db'.live →
      (vol = vol' ∨ OnlyRequests g) → Db.HistOk okId okM vol db g → Db.HistOk okId' okM' vol' db' g →
      List.Forall₂ DbAns.Agree ((Client.converse (flatParts env B) c g).1.map seen)
        ((Client.converse (flatParts (FlatEnv.sorted env as) C) c' g).1.map seen) := by
  induction g with
  | nil => intro db db' c c' _ _ _ _ _ _ _; exact .nil
  | cons x g ih =>
    intro db db' c c' hs hs' ho hp hg hok hok'
    obtain ⟨a1, a2⟩ := sim_step hR env ha hs x hok.1
    obtain ⟨b1, b2⟩ := sim_step hQ (FlatEnv.sorted env as) ha' hs' x hok'.1
    refine .cons (right_agree env.dist env (sim_nodup hs) ho hp a1 b1)
      (ih _ _ _ _ a2 b2 ?_ ?_ (hg.imp id fun h y hy => h y (by simp [hy])) hok.2 hok'.2)
    · cases x <;> simp [Db.next, ho]
      split <;> simp [ho]
    · cases x with
      | request q =>
        simp only [Db.next, ho]
        split
        · exact next_perm hp q
        · exact hp
      | init =>
        rcases hg with rfl | hg
        · cases vol
          · exact hp
          · exact List.Perm.refl _
        · obtain ⟨q, hq⟩ := hg .init (by simp); cases hq
      | close =>
        rcases hg with rfl | hg
        · cases vol
          · exact hp
          · exact List.Perm.refl _
        · obtain ⟨q, hq⟩ := hg .close (by simp); cases hq

/-! Effects on the live items. -/

theorem remove_append_self {l m : List (Item V M)} (id : Id)
    (h : ∀ x ∈ l, x.id ≠ id) : Live.remove (l ++ m) id = l ++ Live.remove m id := by
  simp only [Live.remove, List.filter_append]
  congr 1
  rw [List.filter_eq_self]
  intro x hx
  simpa using h x hx

theorem removeAll_items (mds : Option (List (Option M))) (rows : List (Id × V)) :
    ∀ (i : Nat) (l : List (Item V M)), (rows.map Prod.fst).Nodup →
      (∀ r ∈ rows, Live.has l r.1 = false) →
      Live.removeAll (l ++ Live.items mds i rows) (rows.map Prod.fst) = (true, l) := by
  induction rows with
  | nil => intro i l _ _; simp [Live.items, Live.removeAll]
  | cons r rows ih =>
    intro i l hn hf
    obtain ⟨id, v⟩ := r
    simp only [List.map_cons, List.nodup_cons] at hn
    have hl : ∀ x ∈ l, x.id ≠ id := by
      intro x hx e
      have := hf (id, v) (by simp)
      simp only [Live.has, List.any_eq_false] at this
      exact this x hx (by simp [e])
    have hit : ∀ x ∈ Live.items mds (i + 1) rows, x.id ≠ id := by
      have : ∀ (rows : List (Id × V)) (j : Nat), id ∉ rows.map Prod.fst →
          ∀ x ∈ Live.items mds j rows, x.id ≠ id := by
        intro rows
        induction rows with
        | nil => intro j _ x hx; simp [Live.items] at hx
        | cons r rows ih =>
          intro j hj x hx
          obtain ⟨id', v'⟩ := r
          simp only [Live.items, List.mem_cons] at hx
          rcases hx with rfl | hx
          · intro e; exact hj (by simp [← e])
          · exact ih (j + 1) (fun h => hj (by simp [h])) x hx
      exact this rows (i + 1) hn.1
    have e1 : Live.remove (l ++ Live.items mds i ((id, v) :: rows)) id =
        l ++ Live.items mds (i + 1) rows := by
      rw [remove_append_self id hl]
      congr 1
      simp only [Live.items, Live.remove, List.filter_cons]
      simp only [ne_eq, not_true_eq_false, decide_false, Bool.false_eq_true, if_false]
      rw [List.filter_eq_self]
      intro x hx
      simpa using hit x hx
    have e2 := ih (i + 1) l hn.2 (fun r hr => hf r (by simp [hr]))
    simp only [List.map_cons, Live.removeAll, e1, e2]
    simp [Live.has, Live.items]

theorem hits_eq_of_dists (l : List (Hit D M)) : ∀ r : List (Hit D M),
    l.map Hit.dist = r.map Hit.dist → (∀ x ∈ l, ∀ y ∈ r, x.dist = y.dist → x = y) → l = r := by
  induction l with
  | nil =>
    intro r hdist _
    cases r with
    | nil => rfl
    | cons y r => simp at hdist
  | cons x l ih =>
    intro r hdist key
    cases r with
    | nil => simp at hdist
    | cons y r =>
      simp only [List.map_cons, List.cons.injEq] at hdist
      rw [key x (by simp) y (by simp) hdist.1, ih r hdist.2 fun x hx y hy =>
        key x (by simp [hx]) y (by simp [hy])]

section main
variable [LinearOrder D] (L : Lawful B okId okM) (vol : Bool) (hR : Reopens L vol) (env : FlatEnv V D)
  (ha : IsArgsort env.argsort) (s : σ) (live : List (Item V M)) (hn : (live.map Item.id).Nodup)
  (hs : L.inv (B.init s)) (hl : ∀ id, L.content (B.init s) id = Live.find live id)
  (K : Lawful C okId' okM') (vol' : Bool) (hQ : Reopens K vol') (as : List D → List Nat)
  (ha' : IsArgsort as) (t : τ) (live' : List (Item V M)) (hn' : (live'.map Item.id).Nodup)
  (ht : K.inv (C.init t)) (hl' : ∀ id, K.content (C.init t) id = Live.find live' id)

/-- The answers to `g` after `h`. -/
def answersAfter (env : FlatEnv V D) (B : Backend σ V M) (s : σ) (h g : List (ClCall (IxCall V M))) :
    List (DbAns D M) :=
  (Client.converse (flatParts env B)
    (Client.converse (flatParts env B) ⟨(Flat.new, s), false⟩ h).2 g).1.map seen

include hR ha hn hs hl hQ ha' hn' ht hl' in
/-- **C225** Two clients over flat indices, with the same metric, on any two storages and with any two
histories behind them: if they are both open or both closed and hold the same items, they give the same
answers from then on, whatever way numpy breaks ties. -/
theorem C225_equal_content (h h' g : List (ClCall (IxCall V M)))
    (hok : Db.HistOk okId okM vol ⟨false, live⟩ (h ++ g))
    (hok' : Db.HistOk okId' okM' vol' ⟨false, live'⟩ (h' ++ g)) (hg : vol = vol' ∨ OnlyRequests g)
    (ho : (Db.after vol ⟨false, live⟩ h).isOpen = (Db.after vol' ⟨false, live'⟩ h').isOpen)
    (hp : (Db.after vol ⟨false, live⟩ h).live.Perm (Db.after vol' ⟨false, live'⟩ h').live) :
    List.Forall₂ DbAns.Agree (answersAfter env B s h g)
      (answersAfter (FlatEnv.sorted env as) C t h' g) := by
  obtain ⟨o1, o2⟩ := histOk_append h g _ hok
  obtain ⟨p1, p2⟩ := histOk_append h' g _ hok'
  exact agree_all hR hQ env ha as ha' g _ _ _ _
    (sim_after_any hR env ha h ⟨false, live⟩ ⟨(Flat.new, s), false⟩
      ⟨rfl, (fun h => by cases h), fun _ => ⟨rfl, hn, hs, hl⟩⟩ o1)
    (sim_after_any hQ (FlatEnv.sorted env as) ha' h' ⟨false, live'⟩ ⟨(Flat.new, t), false⟩
      ⟨rfl, (fun h => by cases h), fun _ => ⟨rfl, hn', ht, hl'⟩⟩ p1) ho hp hg o2 p2

include hR ha hn hs hl hQ ha' hn' ht hl' in
/-- **C225** If no two live items are equally far from the query, the answers of the two clients to a
search are equal. -/
theorem C225_no_ties (h h' : List (ClCall (IxCall V M))) (q : V) (k : Int)
    (hok : Db.HistOk okId okM vol ⟨false, live⟩ h)
    (hok' : Db.HistOk okId' okM' vol' ⟨false, live'⟩ h')
    (ho : (Db.after vol ⟨false, live⟩ h).isOpen = (Db.after vol' ⟨false, live'⟩ h').isOpen)
    (hp : (Db.after vol ⟨false, live⟩ h).live.Perm (Db.after vol' ⟨false, live'⟩ h').live)
    (hd : NoTies (env.dist q) (Db.after vol ⟨false, live⟩ h).live) :
    answersAfter env B s h [.request (.search 1 q k)] =
      answersAfter (FlatEnv.sorted env as) C t h' [.request (.search 1 q k)] := by
  have s1 := sim_after_any hR env ha h ⟨false, live⟩ ⟨(Flat.new, s), false⟩
      ⟨rfl, (fun h => by cases h), fun _ => ⟨rfl, hn, hs, hl⟩⟩ hok
  have s2 := sim_after_any hQ (FlatEnv.sorted env as) ha' h' ⟨false, live'⟩ ⟨(Flat.new, t), false⟩
      ⟨rfl, (fun h => by cases h), fun _ => ⟨rfl, hn', ht, hl'⟩⟩ hok'
  have r1 := (sim_step hR env ha s1 (.request (.search 1 q k)) (fun _ => trivial)).1
  have r2 := (sim_step hQ (FlatEnv.sorted env as) ha' s2 (.request (.search 1 q k)) (fun _ => trivial)).1
  have hnd := sim_nodup s1
  have hag := right_agree env.dist env hnd ho hp r1 r2
  simp only [answersAfter, Client.converse, List.map_cons, List.map_nil, List.cons.injEq, and_true]
  revert r1 r2 hag
  generalize seen (Client.ask (flatParts env B) (Client.converse (flatParts env B)
    ⟨(Flat.new, s), false⟩ h).2 (.request (.search 1 q k))).1 = a
  generalize seen (Client.ask (flatParts (FlatEnv.sorted env as) C) (Client.converse
    (flatParts (FlatEnv.sorted env as) C) ⟨(Flat.new, t), false⟩ h').2
    (.request (.search 1 q k))).1 = b
  intro r1 r2 hag
  cases a with
  | hits l =>
    cases b with
    | hits l' =>
      simp only [Db.Right] at r1 r2
      rw [← ho] at r2
      by_cases hop : (Db.after vol ⟨false, live⟩ h).isOpen = false
      · rw [if_pos hop] at r1; cases r1
      rw [if_neg hop] at r1 r2
      split at r1
      · obtain ⟨m, e, k1⟩ := r1
        cases e
        split at r2
        · obtain ⟨m', e, k2⟩ := r2
          cases e
          have hdist := hag.1
          congr 1
          have key : ∀ x ∈ l, ∀ y ∈ l', x.dist = y.dist → x = y := by
            intro x hx y hy e
            obtain ⟨u, hu, u1, u2, u3⟩ := k1.sound x hx
            obtain ⟨w, hw, w1, w2, w3⟩ := k2.sound y hy
            have hw := hp.mem_iff.2 hw
            have w2 : y.dist = env.dist q w.vec := w2
            have := Live.eq_of_id hnd hu hw (hd u hu w hw (by rw [← u2, ← w2, e]))
            subst this
            cases x; cases y; simp_all
          exact hits_eq_of_dists l l' hdist key
        · cases r2
      · cases r1
    | _ => cases hag
  | _ => cases b <;> first | exact hag | cases hag

include hR ha hn hs hl in
/-- **C225** Inserting new vectors and deleting them again leaves no trace in later answers. -/
theorem C225_undo (h g : List (ClCall (IxCall V M))) (rows : List (Id × V))
    (mds : Option (List (Option M)))
    (hok : Db.HistOk okId okM vol ⟨false, live⟩
      ((h ++ [.request (.insert 2 rows mds), .request (.delete (rows.map Prod.fst))]) ++ g))
    (hok' : Db.HistOk okId okM vol ⟨false, live⟩ (h ++ g)) :
    List.Forall₂ DbAns.Agree
      (answersAfter env B s (h ++ [.request (.insert 2 rows mds),
        .request (.delete (rows.map Prod.fst))]) g)
      (answersAfter env B s h g) := by
  have hcall := (histOk_append h _ _ (histOk_append _ _ _ hok).1).2
  have e : Db.after vol ⟨false, live⟩ (h ++ [.request (.insert 2 rows mds),
      .request (.delete (rows.map Prod.fst))]) = Db.after vol ⟨false, live⟩ h := by
    simp only [Db.after, List.foldl_append, List.foldl_cons, List.foldl_nil] at hcall ⊢
    revert hcall
    generalize h.foldl (Db.next vol) ⟨false, live⟩ = db
    obtain ⟨o, l⟩ := db
    cases o with
    | false => intro _; rfl
    | true =>
      rintro ⟨h1, -⟩
      obtain ⟨h1, h2, -⟩ := h1 rfl
      simp [Db.next, Live.next, removeAll_items mds rows 0 l h1 fun r hr => (h2 r hr).2.2]
  exact C225_equal_content L vol hR env ha s live hn hs hl L vol hR env.argsort ha s live hn hs hl _ _ _
    hok hok' (.inl rfl) (by rw [e]) (by rw [e])

include hR ha hn hs hl in
/-- **C225** The order of two inserts does not matter for later answers. -/
theorem C225_order (h g : List (ClCall (IxCall V M))) (rows rows' : List (Id × V))
    (mds mds' : Option (List (Option M)))
    (hok : Db.HistOk okId okM vol ⟨false, live⟩
      ((h ++ [.request (.insert 2 rows mds), .request (.insert 2 rows' mds')]) ++ g))
    (hok' : Db.HistOk okId okM vol ⟨false, live⟩
      ((h ++ [.request (.insert 2 rows' mds'), .request (.insert 2 rows mds)]) ++ g)) :
    List.Forall₂ DbAns.Agree
      (answersAfter env B s (h ++ [.request (.insert 2 rows mds), .request (.insert 2 rows' mds')]) g)
      (answersAfter env B s (h ++ [.request (.insert 2 rows' mds'), .request (.insert 2 rows mds)]) g) := by
  have e : (Db.after vol ⟨false, live⟩ (h ++ [.request (.insert 2 rows mds),
        .request (.insert 2 rows' mds')])).isOpen =
      (Db.after vol ⟨false, live⟩ (h ++ [.request (.insert 2 rows' mds'),
        .request (.insert 2 rows mds)])).isOpen ∧
      (Db.after vol ⟨false, live⟩ (h ++ [.request (.insert 2 rows mds),
        .request (.insert 2 rows' mds')])).live.Perm
      (Db.after vol ⟨false, live⟩ (h ++ [.request (.insert 2 rows' mds'),
        .request (.insert 2 rows mds)])).live := by
    simp only [Db.after, List.foldl_append, List.foldl_cons, List.foldl_nil]
    generalize h.foldl (Db.next vol) ⟨false, live⟩ = db
    obtain ⟨o, l⟩ := db
    cases o with
    | false => exact ⟨rfl, List.Perm.refl _⟩
    | true =>
      refine ⟨rfl, ?_⟩
      simp only [Db.next, Live.next, if_true, List.append_assoc]
      exact List.perm_append_comm.append_left _
  exact C225_equal_content L vol hR env ha s live hn hs hl L vol hR env.argsort ha s live hn hs hl _ _ _
    hok hok' (.inl rfl) e.1 e.2

include hR ha hs hQ ha' ht in
/-- **C225** The storage backend can be exchanged: two empty databases on any two backends give the same
answers to every history of requests after `initialize`. -/
theorem C225_backends (hz : ∀ id, L.content (B.init s) id = none)
    (hz' : ∀ id, K.content (C.init t) id = none) (g : List (ClCall (IxCall V M)))
    (hg : OnlyRequests g) (hok : Db.HistOk okId okM vol ⟨false, []⟩ (.init :: g))
    (hok' : Db.HistOk okId' okM' vol' ⟨false, []⟩ (.init :: g)) :
    List.Forall₂ DbAns.Agree (answersAfter env B s [.init] g)
      (answersAfter (FlatEnv.sorted env as) C t [.init] g) :=
  C225_equal_content L vol hR env ha s [] List.nodup_nil hs (fun id => (hz id).trans rfl) K vol' hQ as ha' t
    [] List.nodup_nil ht (fun id => (hz' id).trans rfl) [.init] [.init] g hok hok' (.inr hg) rfl
    (by cases vol <;> cases vol' <;> exact List.Perm.refl _)

end main

/-- **C225** On storage that keeps its content, closing and opening in between leaves no trace in later
answers. -/
theorem C225_reopened [LinearOrder D] (L : Lawful B okId okM) (hR : Reopens L false) (env : FlatEnv V D)
    (ha : IsArgsort env.argsort) (s : σ) (live : List (Item V M)) (hn : (live.map Item.id).Nodup)
    (hs : L.inv (B.init s)) (hl : ∀ id, L.content (B.init s) id = Live.find live id)
    (h g : List (ClCall (IxCall V M))) (ho : (Db.after false ⟨false, live⟩ h).isOpen = true)
    (hok : Db.HistOk okId okM false ⟨false, live⟩ (h ++ g)) :
    List.Forall₂ DbAns.Agree (answersAfter env B s h g)
      (answersAfter env B s (h ++ [.close, .init]) g) := by
  have e : Db.after false ⟨false, live⟩ (h ++ [.close, .init]) = Db.after false ⟨false, live⟩ h := by
    simp only [Db.after, List.foldl_append, List.foldl_cons, List.foldl_nil] at ho ⊢
    revert ho
    generalize h.foldl (Db.next false) ⟨false, live⟩ = db
    obtain ⟨o, l⟩ := db
    rintro rfl
    rfl
  have hok' : Db.HistOk okId okM false ⟨false, live⟩ ((h ++ [.close, .init]) ++ g) := by
    have key : ∀ (h : List (ClCall (IxCall V M))) (db : Db V M),
        (Db.after false db h).isOpen = true → Db.HistOk okId okM false db (h ++ g) →
        Db.HistOk okId okM false db ((h ++ [.close, .init]) ++ g) := by
      intro h
      induction h with
      | nil =>
        rintro ⟨o, l⟩ ho hk
        obtain rfl : o = true := ho
        exact ⟨trivial, trivial, hk⟩
      | cons x h ih =>
        intro db ho hk
        exact ⟨hk.1, ih _ ho hk.2⟩
    exact key h _ ho hok
  exact C225_equal_content L false hR env ha s live hn hs hl L false hR env.argsort ha s live hn hs hl _ _
    _ hok hok' (.inl rfl) (by rw [e]) (by rw [e])

/-- Two inserts, a search, a delete and a search. -/
def exRequests : List (ClCall (IxCall Nat Nat)) :=
  [.request (.insert 2 [("b", 8), ("a", 3)] (some [some 1])), .request (.insert 2 [("c", 31)] none),
   .request (.search 1 5 2), .request (.delete ["a"]), .request (.search 1 5 2)]

/-- The hypotheses hold for these requests in memory and on disk, and the answers. -/
example :
    Db.HistOk (fun _ => True) (fun _ => True) true (⟨false, []⟩ : Db Nat Nat) (.init :: exRequests) ∧
    Db.HistOk (OwnName exEnv) (fun m => exEnv.picklable m = true) false (⟨false, []⟩ : Db Nat Nat)
      (.init :: exRequests) ∧ OnlyRequests exRequests ∧
    NoTies (exFlat.dist 5) (Db.after true (⟨false, []⟩ : Db Nat Nat) (.init :: exRequests)).live ∧
    answersAfter exFlat (memBackend Nat Nat) Mem.new [.init] exRequests =
      [.ids ["b", "a"], .ids ["c"], .hits [⟨"a", 2, none⟩, ⟨"b", 3, some 1⟩], .flag true,
       .hits [⟨"b", 3, some 1⟩, ⟨"c", 26, none⟩]] ∧
    answersAfter exFlat (diskBackend exEnv) (Disk.opened (emptyDir Nat Nat)) [.init] exRequests =
      answersAfter exFlat (memBackend Nat Nat) Mem.new [.init] exRequests := by
  refine ⟨?_, ?_, ?_, ?_, by decide +kernel, by decide +kernel⟩
  · simp [exRequests, Db.HistOk, Db.next, Live.CallOk, Live.next, Live.items, Live.has, Live.removeAll,
      Live.remove]
  · simp [exRequests, Db.HistOk, Db.next, Live.CallOk, Live.next, Live.items, Live.has, Live.removeAll,
      Live.remove, OwnName, Live.mdAt]
    decide +kernel
  · intro x hx
    simp only [exRequests, List.mem_cons, List.not_mem_nil, or_false] at hx
    rcases hx with rfl | rfl | rfl | rfl | rfl <;> exact ⟨_, rfl⟩
  · simp [exRequests, Db.after, NoTies, Db.next, Live.next, Live.items, Live.removeAll, Live.remove,
      exFlat]

end Valori.Props
