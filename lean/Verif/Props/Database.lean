import Verif.Model.ClientFull
import Verif.Spec.Database
import Verif.Props.ClientFull

/-!
# Property C194: a client over a flat index is an exact search database
-/

namespace Valori.Props
open Valori Valori.Spec

variable {σ V M D : Type} {B : Backend σ V M} {okId : Id → Prop} {okM : M → Prop}

/-- What the caller of a client sees: the value, or which kind of exception. -/
def seen : Client.Answer (FwdReply D M) → DbAns D M
  | .unit (.ok _) => .done
  | .unit (.error _) => .other
  | .reply (.ok (.ids l)) => .ids l
  | .reply (.ok (.flag b)) => .flag b
  | .reply (.ok (.hits l)) => .hits l
  | .reply (.error .valori) => .refused
  | .reply (.error .index) => .raised
  | .reply (.error _) => .other

/-- What opening and closing do to a storage: a volatile one is empty afterwards, the others keep
everything. -/
structure Reopens (L : Lawful B okId okM) (vol : Bool) : Prop where
  volatile : vol = true → ∀ s, L.inv (B.init s) ∧ ∀ id, L.content (B.init s) id = none
  again : vol = false → ∀ s, L.inv s → L.inv (B.init s) ∧ L.content (B.init s) = L.content s
  closed : vol = false → ∀ s, L.inv (B.init s) → L.inv (B.init (B.close s)) ∧
    L.content (B.init (B.close s)) = L.content (B.init s)

section perm
variable {l l' : List (Item V M)}

theorem has_perm (h : l.Perm l') (id : String) : Live.has l id = Live.has l' id := by
  rw [Bool.eq_iff_iff, Live.has_iff, Live.has_iff]
  exact (h.map Item.id).mem_iff

theorem removeAll_perm (h : l.Perm l') (ids : List String) :
    (Live.removeAll l ids).1 = (Live.removeAll l' ids).1 ∧
    (Live.removeAll l ids).2.Perm (Live.removeAll l' ids).2 := by
  induction ids generalizing l l' with
  | nil => exact ⟨rfl, h⟩
  | cons id ids ih =>
    obtain ⟨i1, i2⟩ := ih (h.filter (fun x : Item V M => decide (x.id ≠ id)))
    exact ⟨by simp only [Live.removeAll]; rw [has_perm h]; exact congrArg _ i1, i2⟩

theorem next_perm (h : l.Perm l') (c : IxCall V M) : (Live.next l c).Perm (Live.next l' c) := by
  cases c with
  | insert nd rows mds =>
    simp only [Live.next]
    split
    · exact h.append_right _
    · exact h
  | delete ids => exact (removeAll_perm h ids).2
  | update id v m => exact h.map _
  | search => exact h

theorem callOk_perm (h : l.Perm l') {c : IxCall V M} (hc : Live.CallOk okId okM l c) :
    Live.CallOk okId okM l' c := by
  cases c with
  | insert nd rows mds =>
    exact ⟨hc.1, fun r hr => by rw [← has_perm h]; exact hc.2.1 r hr, hc.2.2⟩
  | delete ids => exact hc
  | update id v m => exact hc
  | search => exact hc

theorem flatFails_perm (env : FlatEnv V D) (h : l.Perm l') (q : V) :
    flatFails env l q = flatFails env l' q := by
  unfold flatFails
  have e1 : l.isEmpty = l'.isEmpty := by
    rw [Bool.eq_iff_iff, List.isEmpty_iff_length_eq_zero, List.isEmpty_iff_length_eq_zero,
      h.length_eq]
  rw [e1, h.all_eq]

theorem isTopK_perm [LinearOrder D] {dist : V → D} (h : l.Perm l') {k : Nat} {a : List (Hit D M)}
    (ht : IsTopK dist l k a) : IsTopK dist l' k a :=
  ⟨by rw [← h.length_eq]; exact ht.length, ht.nodup, ht.sorted,
   fun x hx => by obtain ⟨y, hy, r⟩ := ht.sound x hx; exact ⟨y, h.mem_iff.1 hy, r⟩,
   fun x hx => ht.best x (h.mem_iff.2 hx)⟩

theorem find_perm_of_eq (hn : (Live.idsOf l).Nodup) (hn' : (Live.idsOf l').Nodup)
    (h : ∀ id, Live.find l id = Live.find l' id) : l.Perm l' := by
  have n1 : l.Nodup := List.Nodup.of_map _ hn
  have n2 : l'.Nodup := List.Nodup.of_map _ hn'
  rw [List.perm_ext_iff_of_nodup n1 n2]
  intro x
  have key : ∀ {l₁ l₂ : List (Item V M)}, (Live.idsOf l₁).Nodup →
      (∀ id, Live.find l₁ id = Live.find l₂ id) → x ∈ l₁ → x ∈ l₂ := by
    intro l₁ l₂ hn he hx
    have := Live.find_mem hn hx
    rw [he] at this
    exact Live.mem_of_find this
  exact ⟨key hn h, key hn' fun id => (h id).symm⟩

theorem find_of_perm (h : l.Perm l') (hn : (Live.idsOf l).Nodup) (id : String) :
    Live.find l id = Live.find l' id := by
  have hn' : (Live.idsOf l').Nodup := (h.map Item.id).nodup_iff.1 hn
  cases hf : Live.find l id with
  | none =>
    rw [Live.find_eq_none] at hf
    symm
    rw [Live.find_eq_none]
    exact fun hm => hf ((h.map Item.id).mem_iff.2 hm)
  | some x =>
    have := Live.find_mem hn' (h.mem_iff.1 (Live.mem_of_find hf))
    exact this.symm

end perm

/-- The client holds what the abstract database holds. -/
def Sim (L : Lawful B okId okM) (db : Db V M) (c : Client (Flat V × σ)) : Prop :=
  c.inited = db.isOpen ∧
  (db.isOpen = true → ∃ live, db.live.Perm live ∧ Flat.Inv L live c.w) ∧
  (db.isOpen = false → c.w.1.cache = [] ∧ (Live.idsOf db.live).Nodup ∧ L.inv (B.init c.w.2) ∧
    ∀ id, L.content (B.init c.w.2) id = Live.find db.live id)

/-- What opening needs: an index whose cache is right, on storage that opens. -/
theorem sim_init {L : Lawful B okId okM} (env : FlatEnv V D) {f : Flat V} {s : σ} {b : Bool}
    {live : List (Item V M)} (hn : (Live.idsOf live).Nodup) (hi : L.inv (B.init s))
    (hc : ∀ id, L.content (B.init s) id = Live.find live id)
    (hcache : ∀ id v v' m, Live.find live id = some (v, m) → f.cache.get? id = some v' → v' = v) :
    ∃ c, Client.init (flatParts env B) ⟨(f, s), b⟩ = (.ok (), c) ∧ Sim L ⟨true, live⟩ c := by
  obtain ⟨f', s', live', e, hinv, hf⟩ := Flat.init_inv (f := f) hi
    (fun id v v' m h1 h2 => hcache id v v' m (by rw [← hc]; exact h1) h2)
  refine ⟨⟨(f', s'), true⟩, ?_, rfl, fun _ => ⟨live', ?_, hinv⟩, fun h => by cases h⟩
  · simp only [Client.init, Client.steps, flatParts, e]
  · exact find_perm_of_eq hn hinv.nd fun id => by rw [hf, hc]

theorem toNat_min (k : Int) (n : Nat) {α : Type} (full : List α) (h : full.length = n) :
    sliceTo full (min k (n : Int)) = full.take (Db.wanted k n) := by
  unfold Db.wanted
  by_cases hk : 0 ≤ k
  · rw [if_pos hk, sliceTo_nonneg _ (by omega)]
    by_cases hle : k ≤ (n : Int)
    · rw [min_eq_left hle]
    · rw [min_eq_right (by omega), List.take_of_length_le (by omega),
        List.take_of_length_le (by omega)]
  · rw [if_neg hk, min_eq_left (by omega)]
    simp only [sliceTo, if_neg hk, h]
    congr 1
    omega

theorem sim_request [LinearOrder D] {L : Lawful B okId okM} (env : FlatEnv V D)
    (ha : IsArgsort env.argsort) {t : Flat V × σ} {live live' : List (Item V M)}
    (hp : live.Perm live') (h : Flat.Inv L live' t) (c : IxCall V M)
    (hc : Live.CallOk okId okM live c) :
    Db.Right env.dist (flatFails env) ⟨true, live⟩ (.request c)
      (seen (.reply ((flatParts env B).request c t).1)) ∧
    Flat.Inv L (Live.next live' c) ((flatParts env B).request c t).2 := by
  have hc' := callOk_perm hp hc
  obtain ⟨k1, k2⟩ := h.call ha c hc'
  rw [failsB_eq] at k1
  obtain ⟨f, s⟩ := t
  have hi : f.inited = true := h.inited
  cases c with
  | insert nd rows mds =>
    simp only [Flat.call, Live.reply, flatParts] at k1 k2 ⊢
    cases hr : Flat.insert B nd rows mds f s with
    | mk r t' =>
    rw [hr] at k1 k2
    cases r with
    | ok l =>
      simp only at k1 k2
      refine ⟨?_, by simpa [fwd] using k2⟩
      by_cases hnd : nd = 2
      · simp only [hnd, if_true, IxReply.ids.injEq] at k1
        simp [Db.Right, fwd, seen, hnd, k1]
      · rw [if_neg hnd] at k1; cases k1
    | error e =>
      simp only at k1 k2
      refine ⟨?_, by simpa [fwd] using k2⟩
      by_cases hnd : nd = 2
      · rw [if_pos hnd] at k1; cases k1
      · have : e = .index := by
          have e : Flat.insert B nd rows mds f s = (.error .index, f, s) := by
            simp [Flat.insert, hi, hnd]
          rw [e] at hr
          simpa using (congrArg Prod.fst hr).symm
        subst this
        simp [Db.Right, fwd, seen, hnd]
  | delete ids =>
    simp only [Flat.call, Live.reply, flatParts] at k1 k2 ⊢
    cases hr : Flat.delete B ids f s with
    | mk r t' =>
    rw [hr] at k1 k2
    cases r with
    | ok b =>
      simp only [IxReply.flag.injEq] at k1 k2
      refine ⟨?_, by simpa [fwd] using k2⟩
      simp [Db.Right, fwd, seen, k1, (removeAll_perm hp ids).1]
    | error e => simp at k1
  | update id v m =>
    simp only [Flat.call, Live.reply, flatParts] at k1 k2 ⊢
    cases hr : Flat.update B id v m f s with
    | mk r t' =>
    rw [hr] at k1 k2
    cases r with
    | ok b =>
      simp only [IxReply.flag.injEq] at k1 k2
      refine ⟨?_, by simpa [fwd] using k2⟩
      simp [Db.Right, fwd, seen, k1, has_perm hp]
    | error e => simp at k1
  | search nd q k =>
    by_cases hnd : nd = 1
    · subst hnd
      obtain ⟨r, f', s', e, hinv, hr⟩ := h.search ha q k
      have e2 : (flatParts env B).request (.search 1 q k) (f, s) =
          fwd .hits (r, (f', s')) := by simp only [flatParts, e]
      rw [e2]
      have hempty : flatFails env live q = (!live'.isEmpty &&
          !Flat.checkOk env q (live'.map Item.vec)) := by
        rw [flatFails_perm env hp, ← failsB_eq]; rfl
      by_cases hl : live' = []
      · rw [if_pos hl] at hr
        subst hr
        have hl0 : live = [] := by rw [hl] at hp; exact hp.eq_nil
        refine ⟨?_, hinv⟩
        simp only [Db.Right, fwd, seen, hl0]
        simp only [if_neg (show ¬ (true = false) by decide)]
        rw [if_pos ⟨trivial, by simp [flatFails]⟩]
        refine ⟨[], rfl, ⟨by simp, by simp, by simp, by simp, by simp⟩⟩
      · rw [if_neg hl] at hr
        have hemp : live'.isEmpty = false := by
          cases live' with
          | nil => exact absurd rfl hl
          | cons => rfl
        cases hck : Flat.checkOk env q (live'.map Item.vec)
        · rw [hck] at hr
          simp only [Bool.false_eq_true, if_false] at hr
          subst hr
          refine ⟨?_, hinv⟩
          simp only [Db.Right, fwd, seen]
          simp only [if_neg (show ¬ (true = false) by decide)]
          rw [if_neg (by rw [hempty, hemp, hck]; simp)]
          trivial
        · rw [hck] at hr
          simp only [if_true] at hr
          obtain ⟨full, hpf, hsd, rfl⟩ := hr
          refine ⟨?_, hinv⟩
          simp only [Db.Right, fwd, seen]
          simp only [if_neg (show ¬ (true = false) by decide)]
          rw [if_pos (by rw [hempty, hemp, hck]; simp)]
          have hlen : full.length = live'.length := by simpa using hpf.length_eq
          rw [toNat_min k live'.length full hlen]
          refine ⟨_, rfl, ?_⟩
          rw [hp.length_eq]
          exact isTopK_perm hp.symm (isTopK_of_sorted h.nd (env.dist q) hpf hsd _)
    · have e : Flat.search env B nd q k f s = (.error .index, f, s) := by
        simp [Flat.search, hi, hnd]
      have e2 : (flatParts env B).request (.search nd q k) (f, s) = (.error .index, (f, s)) := by
        simp only [flatParts, e, fwd]
      rw [e2]
      refine ⟨?_, h⟩
      simp [Db.Right, seen, hnd]

theorem sim_step [LinearOrder D] {L : Lawful B okId okM} {vol : Bool} (hR : Reopens L vol)
    (env : FlatEnv V D) (ha : IsArgsort env.argsort) {db : Db V M} {c : Client (Flat V × σ)}
    (h : Sim L db c) (x : ClCall (IxCall V M))
    (hx : match x with
      | .request q => db.isOpen = true → Live.CallOk okId okM db.live q
      | _ => True) :
    Db.Right env.dist (flatFails env) db x (seen (Client.ask (flatParts env B) c x).1) ∧
    Sim L (Db.next vol db x) (Client.ask (flatParts env B) c x).2 := by
  obtain ⟨⟨f, s⟩, b⟩ := c
  obtain ⟨o, live⟩ := db
  obtain ⟨h1, h2, h3⟩ := h
  simp only at h1 h2 h3
  subst h1
  have nodupIf : ∀ {l : List (Item V M)}, (Live.idsOf l).Nodup →
      (Live.idsOf (if vol then ([] : List (Item V M)) else l)).Nodup := by
    intro l hl; cases vol
    · exact hl
    · exact List.nodup_nil
  cases x with
  | request q =>
    cases b with
    | false =>
      have e : Client.ask (flatParts env B) ⟨(f, s), false⟩ (.request q) =
          (.reply (.error .valori), ⟨(f, s), false⟩) := rfl
      rw [e]
      exact ⟨rfl, rfl, h2, h3⟩
    | true =>
      obtain ⟨live', hp, hinv⟩ := h2 rfl
      obtain ⟨k1, k2⟩ := sim_request env ha hp hinv q (hx rfl)
      exact ⟨k1, rfl, fun _ => ⟨_, next_perm hp q, k2⟩, fun h => by cases h⟩
  | init =>
    have key : L.inv (B.init s) ∧ (Live.idsOf live).Nodup ∧
        (∀ id, L.content (B.init s) id =
          Live.find (if vol then ([] : List (Item V M)) else live) id) ∧
        ∀ id v v' m, Live.find live id = some (v, m) → f.cache.get? id = some v' → v' = v := by
      cases b with
      | false =>
        obtain ⟨c1, c2, c3, c4⟩ := h3 rfl
        refine ⟨c3, c2, ?_, ?_⟩
        · intro id
          cases vol
          · exact c4 id
          · exact (hR.volatile rfl s).2 id
        · intro id v v' m _ hg
          rw [c1] at hg
          simp [Dict.get?] at hg
      | true =>
        obtain ⟨live', hp, hinv⟩ := h2 rfl
        have hn : (Live.idsOf live).Nodup := (hp.map Item.id).nodup_iff.2 hinv.nd
        have hcont : L.content s = Live.find live' := hinv.cont
        refine ⟨?_, hn, ?_, ?_⟩
        · cases vol
          · exact (hR.again rfl s hinv.st).1
          · exact (hR.volatile rfl s).1
        · intro id
          cases vol
          · rw [(hR.again rfl s hinv.st).2, hcont]
            exact (find_of_perm hp hn id).symm
          · exact (hR.volatile rfl s).2 id
        · intro id v v' m hfd hg
          rw [find_of_perm hp hn] at hfd
          exact hinv.cache _ (Live.mem_of_find hfd) v' hg
    obtain ⟨k1, k2, k3, k4⟩ := key
    obtain ⟨c, e, hsim⟩ := sim_init (L := L) env (f := f) (s := s) (b := b) (nodupIf k2) k1 k3 (by
      intro id v v' m hfd hg
      cases vol
      · exact k4 id v v' m hfd hg
      · cases hfd)
    simp only [Client.ask, e]
    exact ⟨rfl, hsim⟩
  | close =>
    have e : Client.ask (flatParts env B) ⟨(f, s), b⟩ .close =
        (.unit (.ok ()), ⟨(Flat.close f, B.close s), false⟩) := rfl
    rw [e]
    refine ⟨rfl, rfl, (fun h => absurd h (by simp [Db.next])), fun _ => ⟨rfl, ?_, ?_⟩⟩
    · cases b with
      | false => exact nodupIf (h3 rfl).2.1
      | true =>
        obtain ⟨live', hp, hinv⟩ := h2 rfl
        exact nodupIf ((hp.map Item.id).nodup_iff.2 hinv.nd)
    · cases hv : vol with
      | true => exact hR.volatile hv (B.close s)
      | false =>
        cases b with
        | false =>
          obtain ⟨c1, c2, c3, c4⟩ := h3 rfl
          obtain ⟨r1, r2⟩ := hR.closed hv s c3
          exact ⟨r1, fun id => by simp only; rw [r2]; exact c4 id⟩
        | true =>
          obtain ⟨live', hp, hinv⟩ := h2 rfl
          obtain ⟨q1, q2⟩ := hR.again hv s hinv.st
          obtain ⟨r1, r2⟩ := hR.closed hv s q1
          have hcont : L.content s = Live.find live' := hinv.cont
          refine ⟨r1, fun id => ?_⟩
          simp only
          rw [r2, q2, hcont]
          exact (find_of_perm hp ((hp.map Item.id).nodup_iff.2 hinv.nd) id).symm

/-- From a client that holds what the abstract database holds, all answers are right. -/
theorem sim_history [LinearOrder D] {L : Lawful B okId okM} {vol : Bool} (hR : Reopens L vol)
    (env : FlatEnv V D) (ha : IsArgsort env.argsort) (h : List (ClCall (IxCall V M))) :
    ∀ (db : Db V M) (c : Client (Flat V × σ)), Sim L db c → Db.HistOk okId okM vol db h →
      Db.AllRight vol env.dist (flatFails env) db h
        ((Client.converse (flatParts env B) c h).1.map seen) := by
  induction h with
  | nil => intro db c _ _; trivial
  | cons x h ih =>
    intro db c hs hok
    obtain ⟨a1, a2⟩ := sim_step hR env ha hs x hok.1
    exact ⟨a1, ih _ _ a2 hok.2⟩

/-- **C194** A client over a flat index is an exact search database.  Over every storage that behaves as
a map, for every metric and every history of calls on the client (opening, closing, inserting,
searching, deleting and updating in any order and number): every answer is right for the abstract
database that started with what the storage held.  A closed client refuses; inserting, deleting and
updating answer truthfully; a search raises exactly when it has to and otherwise gives the exact nearest
neighbours; closing and opening again keep everything on disk and hybrid storage and forget everything
in memory. -/
theorem C194_exact_database [LinearOrder D] (L : Lawful B okId okM) (vol : Bool) (hR : Reopens L vol)
    (env : FlatEnv V D) (ha : IsArgsort env.argsort) (s : σ) (live : List (Item V M))
    (hn : (live.map Item.id).Nodup) (hs : L.inv (B.init s))
    (hl : ∀ id, L.content (B.init s) id = Live.find live id) (h : List (ClCall (IxCall V M)))
    (hok : Db.HistOk okId okM vol ⟨false, live⟩ h) :
    Db.AllRight vol env.dist (flatFails env) ⟨false, live⟩ h
      ((Client.converse (flatParts env B) ⟨(Flat.new, s), false⟩ h).1.map seen) := by
  exact sim_history hR env ha h ⟨false, live⟩ ⟨(Flat.new, s), false⟩
    ⟨rfl, (fun h => by cases h), fun _ => ⟨rfl, hn, hs, hl⟩⟩ hok

/-- **C194** The same with a quantizer and a persistence manager that start and stop. -/
theorem C194_exact_database_full [LinearOrder D] {Z P : Type} (E : Extras Z P) (hE : Extras.Quiet E)
    (z : Z) (p : P) (L : Lawful B okId okM) (vol : Bool) (hR : Reopens L vol) (env : FlatEnv V D)
    (ha : IsArgsort env.argsort) (s : σ) (live : List (Item V M)) (hn : (live.map Item.id).Nodup)
    (hs : L.inv (B.init s)) (hl : ∀ id, L.content (B.init s) id = Live.find live id)
    (h : List (ClCall (IxCall V M))) (hok : Db.HistOk okId okM vol ⟨false, live⟩ h) :
    Db.AllRight vol env.dist (flatFails env) ⟨false, live⟩ h
      ((Client.converse (Extras.parts (flatParts env B) E) ⟨((Flat.new, s), z, p), false⟩ h).1.map
        seen) := by
  rw [(C193_no_effect (B := flatParts env B) ⟨rfl, rfl, rfl, rfl⟩ hE (Flat.new, s) z p h).1]
  exact C194_exact_database L vol hR env ha s live hn hs hl h hok

section instances
variable [ByteSize V] [ByteSize M]

/-- **C194** In-memory storage is volatile. -/
theorem C194_memory : Reopens (memLawful (V := V) (M := M)) true where
  volatile _ s := C80_memory_reinit s
  again h := by cases h
  closed h := by cases h

omit [ByteSize V] [ByteSize M] in
/-- **C194** Disk storage keeps everything. -/
theorem C194_disk (denv : DiskEnv M) (hg : ∀ l, (denv.glob l).Perm l) :
    Reopens (diskLawful (V := V) denv hg) false where
  volatile h := by cases h
  again _ s := by
    intro ⟨h1, h2, h3, h4⟩
    have h1 : s.Inv := h1
    exact ⟨⟨⟨h1.ok, fun _ => rfl⟩, rfl, h3, h4⟩, rfl⟩
  closed _ s := by
    intro ⟨h1, h2, h3, h4⟩
    have h1 : ((diskBackend denv).init s).Inv := h1
    exact ⟨⟨⟨h1.ok, fun _ => rfl⟩, rfl, h3, h4⟩, rfl⟩

/-- **C194** Hybrid storage keeps everything. -/
theorem C194_hybrid (denv : DiskEnv M) (hg : ∀ l, (denv.glob l).Perm l) :
    Reopens (hybLawful (V := V) denv hg) false where
  volatile h := by cases h
  again _ s := by
    intro ⟨h1, h2, h3, h4⟩
    have h1 : Hyb.Inv denv (OwnName denv) s := h1
    refine ⟨⟨⟨Mem.Inv.empty true, ⟨h1.disk.ok, fun _ => rfl⟩, rfl, rfl, ?_⟩, rfl, h3, h4⟩, rfl⟩
    intro x y hx
    simp [hybBackend, Hyb.init, Mem.init, Mem.at', Mem.contentOf] at hx
  closed _ s := by
    intro ⟨h1, h2, h3, h4⟩
    have h1 : Hyb.Inv denv (OwnName denv) ((hybBackend denv).init s) := h1
    refine ⟨⟨⟨Mem.Inv.empty true, ⟨h1.disk.ok, fun _ => rfl⟩, rfl, rfl, ?_⟩, rfl, h3, h4⟩, rfl⟩
    intro x y hx
    simp [hybBackend, Hyb.init, Hyb.close, Mem.init, Mem.at', Mem.contentOf] at hx

end instances

/-- Calls before opening, two inserts, a search, closing, opening again, a delete and a search. -/
def exDbHist : List (ClCall (IxCall Nat Nat)) :=
  [.request (.search 1 5 1), .init, .request (.insert 2 [("a", 3), ("b", 8)] (some [some 1])),
   .request (.search 1 4 2), .close, .init, .request (.delete ["a"]), .request (.search 1 4 2)]

/-- On a new disk the hypotheses hold for that history and the answers are as expected. -/
example :
    let L := diskLawful (V := Nat) exEnv (fun _ => List.Perm.refl _)
    let s : Disk Nat Nat := Disk.opened (emptyDir Nat Nat)
    L.inv ((diskBackend exEnv).init s) ∧
    (∀ id, L.content ((diskBackend exEnv).init s) id = Live.find [] id) ∧
    (Client.converse (flatParts exFlat (diskBackend exEnv)) ⟨(Flat.new, s), false⟩
      exDbHist).1.map seen =
      [.refused, .done, .ids ["a", "b"], .hits [⟨"a", 1, some 1⟩, ⟨"b", 4, none⟩], .done, .done,
       .flag true, .hits [⟨"b", 4, none⟩]] := by
  refine ⟨⟨⟨emptyDir_ok, fun _ => rfl⟩, rfl, ⟨?_, ?_⟩, ?_⟩, fun _ => rfl, by decide⟩
  · simp [diskRefines, Disk.abs, emptyDir, Disk.init, Disk.opened, Dict.keys, diskBackend]
  · intro id
    simp [diskRefines, Disk.abs, emptyDir, Disk.init, Disk.opened, Dict.keys, Dir.content, Dict.get?,
      diskBackend]
  · intro id h
    simp [diskRefines, Disk.abs, emptyDir, Disk.init, Disk.opened, Dir.content, Dict.get?,
      diskBackend] at h

/-- The history meets the assumptions in memory. -/
example : Db.HistOk (fun _ => True) (fun _ => True) true (⟨false, []⟩ : Db Nat Nat) exDbHist := by
  simp [exDbHist, Db.HistOk, Db.next, Live.CallOk, Live.next, Live.items, Live.has, Live.removeAll,
    Live.remove]

end Valori.Props
