import Verif.Lemmas.Disk

/-! Hybrid storage: helper lemmas. -/

namespace Valori
open Spec (Call Reply Store put)

variable {V M : Type} [ByteSize V] [ByteSize M]

namespace Mem

/-- Memory content as a function. -/
abbrev at' (s : Mem V M) : Id → Option (V × Option M) := contentOf s.vectors s.metadata

omit [ByteSize V] [ByteSize M] in
theorem length_set_le (vs : Dict Id V) (id : Id) (v : V) :
    (vs.set id v).length ≤ vs.length + 1 := by
  rw [← Dict.length_keys, ← Dict.length_keys, Dict.keys_set]
  split <;> simp

omit [ByteSize V] [ByteSize M] in
theorem length_pop {vs : Dict Id V} {id : Id} (h : id ∈ vs.keys) :
    (vs.pop id).length = vs.length - 1 := by
  rw [← Dict.length_keys, ← Dict.length_keys, Dict.keys_pop, List.length_erase_of_mem h]

end Mem

namespace Hyb

/-- `_evict_from_memory` on an open memory backend: it succeeds, forgets at most one id,
and frees a slot when there was one to free. -/
theorem evict_spec (m : Mem V M) (hm : m.Inv) (hi : m.inited = true) :
    ∃ m', evict m = (.ok (), m') ∧ m'.Inv ∧ m'.inited = true ∧
      (∀ x y, m'.at' x = some y → m.at' x = some y) ∧
      m'.vectors.length = m.vectors.length - 1 := by
  cases hv : m.vectors with
  | nil =>
    refine ⟨m, ?_, hm, hi, fun _ _ h => h, by simp [hv]⟩
    simp [evict, Mem.list, hi, hv, Dict.keys, sliceTo]
  | cons e vs =>
    obtain ⟨a, b⟩ := e
    have hk : a ∈ m.vectors.keys := by rw [hv]; simp [Dict.keys]
    have hmem : m.vectors.mem a = true := by rw [Dict.mem_keys] at hk; exact hk
    refine ⟨⟨m.vectors.pop a, m.metadata.pop a, (m.vectors.pop a).length,
      Mem.usageOf (m.vectors.pop a) (m.metadata.pop a), true⟩, ?_, hm.erase a true, rfl, ?_, ?_⟩
    · have hl : m.list (some 1) = (.ok [a], m) := by
        simp [Mem.list, hi, hv, Dict.keys, sliceTo]
      simp only [evict, hl, Mem.delete_ready hi hmem]
    · intro x y h
      simp only [Mem.at', Mem.content_erase hm.vnd hm.mnd, put] at h
      split at h
      · cases h
      · exact h
    · simp only; rw [Mem.length_pop hk, hv]

/-- `remember` on an open memory backend. -/
theorem remember_spec (m : Mem V M) (hm : m.Inv) (hi : m.inited = true) (limit : Int)
    (id : Id) (v : V) (md : Option M) :
    ∃ m', remember m limit id v md = (.ok (), m') ∧ m'.Inv ∧ m'.inited = true ∧
      (∀ x y, m'.at' x = some y → (x = id ∧ y = (v, md)) ∨
        ((x ≠ id ∨ id = "") ∧ m.at' x = some y)) ∧
      ((m.vectors.length : Int) ≤ max limit 1 → (m'.vectors.length : Int) ≤ max limit 1) := by
  have hc : m.statCount.getD 0 = m.vectors.length := by simp [Mem.statCount, hi, hm.cnt]
  by_cases hid : id = ""
  · have hst : ∀ n : Mem V M, n.store id v md = (.ok false, n) := by
      intro n; simp [Mem.store, hid]
    by_cases hl : ((m.statCount.getD 0 : Nat) : Int) < limit
    · exact ⟨m, by simp only [remember, if_pos hl, hst], hm, hi,
        fun _ _ h => .inr ⟨.inr hid, h⟩, fun h => h⟩
    · obtain ⟨m', he, h1, h2, h3, h4⟩ := evict_spec m hm hi
      refine ⟨m', by simp only [remember, if_neg hl, he, hst], h1, h2,
        fun x y h => .inr ⟨.inr hid, h3 x y h⟩, fun h => ?_⟩
      rw [h4]; omega
  · have key : ∀ n : Mem V M, n.Inv → n.inited = true → ∃ n', n.store id v md = (.ok true, n') ∧
        n'.Inv ∧ n'.inited = true ∧
        (∀ x y, n'.at' x = some y → (x = id ∧ y = (v, md)) ∨ (x ≠ id ∧ n.at' x = some y)) ∧
        n'.vectors.length ≤ n.vectors.length + 1 := by
      intro n hn hni
      refine ⟨_, Mem.store_ready hni hid v md, hn.write id v md true, rfl, ?_,
        Mem.length_set_le _ _ _⟩
      intro x y h
      simp only [Mem.at', Mem.content_write _ hn.mnd, put] at h
      split at h
      · next e => left; exact ⟨e, (Option.some.inj h).symm⟩
      · next e => right; exact ⟨e, h⟩
    by_cases hl : ((m.statCount.getD 0 : Nat) : Int) < limit
    · obtain ⟨m', he, h1, h2, h3, h4⟩ := key m hm hi
      refine ⟨m', by simp only [remember, if_pos hl, he], h1, h2, ?_, fun _ => ?_⟩
      · intro x y hx
        rcases h3 x y hx with h | h
        · exact .inl h
        · exact .inr ⟨.inl h.1, h.2⟩
      · rw [hc] at hl; omega
    · obtain ⟨m₁, he₁, h1₁, h2₁, h3₁, h4₁⟩ := evict_spec m hm hi
      obtain ⟨m', he, h1, h2, h3, h4⟩ := key m₁ h1₁ h2₁
      refine ⟨m', by simp only [remember, if_neg hl, he₁, he], h1, h2, ?_, fun h => ?_⟩
      · intro x y hx
        rcases h3 x y hx with h | h
        · exact .inl h
        · exact .inr ⟨.inl h.1, h3₁ x y h.2⟩
      · omega

omit [ByteSize V] [ByteSize M] in
theorem eta {s : Hyb V M} (hi : s.inited = true) :
    ({ mem := s.mem, disk := s.disk, limit := s.limit, inited := true } : Hyb V M) = s := by
  cases s; simp_all

variable {env : DiskEnv M}

/-- Everything in memory is on disk. -/
structure Inv (env : DiskEnv M) (P : Id → Prop) (s : Hyb V M) : Prop where
  mem : s.mem.Inv
  disk : s.disk.Inv
  mi : s.mem.inited = s.inited
  di : s.disk.inited = s.inited
  coh : ∀ x y, s.mem.at' x = some y → P x ∧ s.disk.dir.content (sanitize env x) = some y

def abs (s : Hyb V M) : Store V M := ⟨s.inited, s.disk.dir.content, s.disk.dir.vec.keys⟩

theorem step (P : Id → Prop)
    (hinj : ∀ x y, P x → P y → sanitize env x = sanitize env y → x = y)
    (s : Hyb V M) (c : Call V M) (hs : s.Inv env P) (hid' : ∀ i ∈ c.ids, P i)
    (hpk : ∀ m ∈ c.metas, env.picklable m = true) :
    Inv env P ((hybBackend env).call s c).2 ∧
      (((hybBackend env).call s c).1, abs ((hybBackend env).call s c).2) =
        Store.step false env.glob (abs s) (c.mapId (sanitize env)) := by
  obtain ⟨hmem, hdisk, hmi, hdi, hcoh⟩ := hs
  cases c with
  | init =>
    refine ⟨⟨Mem.Inv.empty true, ⟨hdisk.ok, fun _ => rfl⟩, rfl, rfl, ?_⟩, rfl⟩
    intro x y h; simp [Backend.call, hybBackend, init, Mem.init, Mem.at', Mem.contentOf] at h
  | close =>
    refine ⟨⟨Mem.Inv.empty false, ⟨hdisk.ok, fun h => by cases h⟩, rfl, rfl, ?_⟩, rfl⟩
    intro x y h; simp [Backend.call, hybBackend, close, Mem.close, Mem.at', Mem.contentOf] at h
  | store id v m =>
    have hp : ∀ x, m = some x → env.picklable x = true := by
      rintro x rfl; exact hpk x (by simp [Call.metas])
    have hPid : P id := hid' id (by simp [Call.ids])
    simp only [Backend.call, hybBackend, Store.step, Call.mapId]
    by_cases hid : id = ""
    · rw [if_pos ((sanitize_eq_empty id).2 hid),
        show s.store env id v m = (.ok false, s) by simp [store, hid]]
      exact ⟨⟨hmem, hdisk, hmi, hdi, hcoh⟩, rfl⟩
    · rw [if_neg (fun h => hid ((sanitize_eq_empty id).1 h))]
      cases hi : s.inited
      · rw [show s.store env id v m = (.error .storage, s) by simp [store, hid, hi]]
        exact ⟨⟨hmem, hdisk, hmi, hdi, hcoh⟩, by simp [abs, hi, Backend.wrap]⟩
      · rw [hi] at hmi hdi
        obtain ⟨m', he, h1, h2, h3, -⟩ := remember_spec s.mem hmem hmi s.limit id v m
        have hst : s.store env id v m = (.ok true, { s with
            disk := ⟨s.disk.dir.written (sanitize env id) v m,
              (s.disk.dir.written (sanitize env id) v m).vec.length, true⟩, mem := m' }) := by
          simp [store, hid, hi, Disk.store_ready hdi hid v m hp, he]
        rw [hst]
        refine ⟨⟨h1, ⟨hdisk.ok.written _ v m, fun _ => rfl⟩, by simp [Backend.wrap, h2, hi],
          by simp [Backend.wrap, hi], ?_⟩, ?_⟩
        · intro x y hx
          simp only [Backend.wrap] at hx ⊢
          rw [Dir.content_written hdisk.ok.pnd, put]
          rcases h3 x y hx with ⟨rfl, rfl⟩ | ⟨hne, h⟩
          · simp [hPid]
          · obtain ⟨hPx, hc⟩ := hcoh x y h
            refine ⟨hPx, ?_⟩
            rw [if_neg (fun e => ?_)]
            · exact hc
            · rcases hne with hne | hne
              · exact hne (hinj x id hPx hPid e)
              · exact hid hne
        · simp [abs, hi, Backend.wrap, Dir.content_written hdisk.ok.pnd, Dir.written_vec,
            Dict.keys_set]
  | update id v m =>
    have hp : ∀ x, m = some x → env.picklable x = true := by
      rintro x rfl; exact hpk x (by simp [Call.metas])
    have hPid : P id := hid' id (by simp [Call.ids])
    simp only [Backend.call, hybBackend, Store.step, Call.mapId]
    cases hi : s.inited
    · rw [show s.update env id v m = (.error .storage, s) by simp [update, hi]]
      exact ⟨⟨hmem, hdisk, hmi, hdi, hcoh⟩, by simp [abs, hi, Backend.wrap]⟩
    · rw [hi] at hmi hdi
      cases hm : s.disk.dir.vec.mem (sanitize env id)
      · rw [show s.update env id v m = (.ok false, s) by
          simp [update, hi, Disk.update_absent hdi hm, eta hi]]
        exact ⟨⟨hmem, hdisk, hmi.trans hi.symm, hdi.trans hi.symm, hcoh⟩,
          by simp [abs, hi, Backend.wrap, Dir.content_isSome hdisk.ok, hm]⟩
      · have hk : sanitize env id ∈ s.disk.dir.vec.keys := by rw [Dict.mem_keys]; exact hm
        -- what happens to the memory layer
        obtain ⟨b, m', he, h1, h2, h3⟩ : ∃ b m', s.mem.update id v m = (.ok b, m') ∧ m'.Inv ∧
            m'.inited = true ∧
            (∀ x y, m'.at' x = some y → (x = id ∧ y = (v, m)) ∨
              (x ≠ id ∧ s.mem.at' x = some y)) := by
          cases hmm : s.mem.vectors.mem id
          · refine ⟨false, s.mem, Mem.update_absent hmi hmm v m, hmem, hmi, ?_⟩
            intro x y hx
            right
            refine ⟨?_, hx⟩
            rintro rfl
            have := Mem.content_isSome s.mem.vectors s.mem.metadata x
            rw [hmm] at this
            rw [Mem.at'] at hx
            rw [hx] at this; cases this
          · refine ⟨true, _, Mem.update_ready hmi hmm v m, ?_, rfl, ?_⟩
            · refine ⟨Dict.nodup_set hmem.vnd id v, Mem.putMeta_nodup hmem.mnd id m,
                Mem.sub_write id v m hmem.mnd hmem.sub, ?_, rfl⟩
              simp only; rw [Mem.length_set hmm]; exact hmem.cnt
            · intro x y h
              simp only [Mem.at', Mem.content_write _ hmem.mnd, put] at h
              split at h
              · next e => left; exact ⟨e, (Option.some.inj h).symm⟩
              · next e => right; exact ⟨e, h⟩
        have hst : s.update env id v m = (.ok true, { s with
            disk := ⟨s.disk.dir.written (sanitize env id) v m, s.disk.count, true⟩,
            mem := m' }) := by
          simp [update, hi, Disk.update_ready hdi hm v m hp, he]
        rw [hst]
        refine ⟨⟨h1, ⟨hdisk.ok.written _ v m, fun _ => ?_⟩, by simp [Backend.wrap, h2, hi],
          by simp [Backend.wrap, hi], ?_⟩, ?_⟩
        · simp only [Backend.wrap, Dir.written]
          rw [Mem.length_set hm]; exact hdisk.cnt hdi
        · intro x y hx
          simp only [Backend.wrap] at hx ⊢
          rw [Dir.content_written hdisk.ok.pnd, put]
          rcases h3 x y hx with ⟨rfl, rfl⟩ | ⟨hne, h⟩
          · simp [hPid]
          · obtain ⟨hPx, hc⟩ := hcoh x y h
            exact ⟨hPx, by rw [if_neg (fun e => hne (hinj x id hPx hPid e))]; exact hc⟩
        · simp [abs, hi, Backend.wrap, Dir.content_isSome hdisk.ok, hm,
            Dir.content_written hdisk.ok.pnd, Dir.written_vec, Dict.keys_set, hk]
  | delete id =>
    have hPid : P id := hid' id (by simp [Call.ids])
    simp only [Backend.call, hybBackend, Store.step, Call.mapId]
    cases hi : s.inited
    · rw [show s.delete env id = (.error .storage, s) by simp [delete, hi]]
      exact ⟨⟨hmem, hdisk, hmi, hdi, hcoh⟩, by simp [abs, hi, Backend.wrap]⟩
    · rw [hi] at hmi hdi
      obtain ⟨b, m', he, h1, h2, h3, h4⟩ : ∃ b m', s.mem.delete id = (.ok b, m') ∧ m'.Inv ∧
          m'.inited = true ∧
          (∀ x y, m'.at' x = some y → x ≠ id ∧ s.mem.at' x = some y) ∧
          (b = true → ∃ y, s.mem.at' id = some y) := by
        have hsome := Mem.content_isSome s.mem.vectors s.mem.metadata id
        cases hmm : s.mem.vectors.mem id
        · refine ⟨false, s.mem, Mem.delete_absent hmi hmm, hmem, hmi, ?_, by simp⟩
          intro x y hx
          refine ⟨?_, hx⟩
          rintro rfl
          rw [hmm] at hsome
          rw [Mem.at'] at hx
          rw [hx] at hsome; cases hsome
        · refine ⟨true, _, Mem.delete_ready hmi hmm, hmem.erase id true, rfl, ?_, fun _ => ?_⟩
          · intro x y h
            simp only [Mem.at', Mem.content_erase hmem.vnd hmem.mnd, put] at h
            split at h
            · cases h
            · next e => exact ⟨e, h⟩
          · rw [hmm] at hsome; exact Option.isSome_iff_exists.1 hsome
      have hcoh' : ∀ x y, m'.at' x = some y → P x ∧
          (s.disk.dir.erased (sanitize env id)).content (sanitize env x) = some y := by
        intro x y hx
        obtain ⟨hne, hy⟩ := h3 x y hx
        obtain ⟨hPx, hc⟩ := hcoh x y hy
        refine ⟨hPx, ?_⟩
        rw [Dir.content_erased hdisk.ok, put, if_neg (fun e => hne (hinj x id hPx hPid e))]
        exact hc
      cases hm : s.disk.dir.vec.mem (sanitize env id)
      · have hb : b = false := by
          cases b with
          | false => rfl
          | true =>
            obtain ⟨y, hy⟩ := h4 rfl
            have hc := (hcoh id y hy).2
            have := Dir.content_isSome hdisk.ok (sanitize env id)
            rw [hm, hc] at this; cases this
        have hst : s.delete env id = (.ok false, { s with
            mem := m', disk := ⟨s.disk.dir.erased (sanitize env id), s.disk.count, true⟩ }) := by
          simp [delete, hi, he, hb, Disk.delete_absent hdi hm]
        have hea := Disk.erased_absent hdisk.ok hm
        rw [hst]
        refine ⟨⟨h1, ⟨hdisk.ok.erased _, fun _ => ?_⟩, by simp [Backend.wrap, h2, hi],
          by simp [Backend.wrap, hi], hcoh'⟩, ?_⟩
        · simp only [Backend.wrap]; rw [hea.2]; exact hdisk.cnt hdi
        · simp [abs, hi, Backend.wrap, Dir.content_isSome hdisk.ok, hm, hea.1, hea.2]
      · have hst : s.delete env id = (.ok true, { s with
            mem := m', disk := ⟨s.disk.dir.erased (sanitize env id),
              (s.disk.dir.erased (sanitize env id)).vec.length, true⟩ }) := by
          simp [delete, hi, he, Disk.delete_ready hdi hm]
        rw [hst]
        refine ⟨⟨h1, ⟨hdisk.ok.erased _, fun _ => rfl⟩, by simp [Backend.wrap, h2, hi],
          by simp [Backend.wrap, hi], hcoh'⟩, ?_⟩
        simp [abs, hi, Backend.wrap, Dir.content_isSome hdisk.ok, hm,
          Dir.content_erased hdisk.ok, Dir.erased_vec, Dict.keys_pop]
  | retrieve id =>
    have hPid : P id := hid' id (by simp [Call.ids])
    simp only [Backend.call, hybBackend, Store.step, Call.mapId]
    cases hi : s.inited
    · rw [show s.retrieve env id = (.error .storage, s) by simp [retrieve, hi]]
      exact ⟨⟨hmem, hdisk, hmi, hdi, hcoh⟩, by simp [abs, hi, Backend.wrap]⟩
    · rw [hi] at hmi hdi
      cases hat : s.mem.at' id with
      | some r =>
        have hr : s.mem.retrieve id = (.ok (some r), s.mem) := by
          rw [Mem.retrieve_ready hmi]; rw [Mem.at'] at hat; rw [hat]
        rw [show s.retrieve env id = (.ok (some r), s) by simp [retrieve, hi, hr, eta hi]]
        refine ⟨⟨hmem, hdisk, hmi.trans hi.symm, hdi.trans hi.symm, hcoh⟩, ?_⟩
        simp [abs, hi, Backend.wrap, (hcoh id r hat).2]
      | none =>
        have hr : s.mem.retrieve id = (.ok none, s.mem) := by
          rw [Mem.retrieve_ready hmi]; rw [Mem.at'] at hat; rw [hat]
        have hd := Disk.retrieve_ready (env := env) hdi hdisk.ok id
        cases hc : s.disk.dir.content (sanitize env id) with
        | none =>
          rw [show s.retrieve env id = (.ok none, s) by simp [retrieve, hi, hr, hd, hc, eta hi]]
          refine ⟨⟨hmem, hdisk, hmi.trans hi.symm, hdi.trans hi.symm, hcoh⟩, ?_⟩
          simp [abs, hi, Backend.wrap, hc]
        | some r =>
          obtain ⟨v, m⟩ := r
          obtain ⟨m', he, h1, h2, h3, -⟩ := remember_spec s.mem hmem hmi s.limit id v m
          rw [show s.retrieve env id = (.ok (some (v, m)), { s with mem := m' }) by
            simp [retrieve, hi, hr, hd, hc, he]]
          refine ⟨⟨h1, hdisk, by simp [Backend.wrap, h2, hi], by simp [Backend.wrap, hdi, hi],
            ?_⟩, by simp [abs, hi, Backend.wrap, hc]⟩
          intro x y hx
          rcases h3 x y hx with ⟨rfl, rfl⟩ | ⟨-, h⟩
          · exact ⟨hPid, hc⟩
          · exact hcoh x y h
  | list l =>
    simp only [Backend.call, hybBackend, Store.step, Call.mapId]
    cases hi : s.inited
    · rw [show s.list env (l.map Int.ofNat) = (.error .storage, s) by simp [list, hi]]
      exact ⟨⟨hmem, hdisk, hmi, hdi, hcoh⟩, by simp [abs, hi, Backend.wrap]⟩
    · rw [hi] at hdi
      cases l with
      | none => exact ⟨by simpa [list, hi, hdi, Disk.list, Backend.wrap, eta hi] using
                            (⟨hmem, hdisk, hmi, hdi.trans hi.symm, hcoh⟩ : Inv env P s),
                       by simp [list, Disk.list, abs, hi, hdi, Backend.wrap]⟩
      | some n => exact ⟨by simpa [list, hi, hdi, Disk.list, Backend.wrap, eta hi] using
                            (⟨hmem, hdisk, hmi, hdi.trans hi.symm, hcoh⟩ : Inv env P s),
                         by simp [list, Disk.list, abs, hi, hdi, Backend.wrap, sliceTo]⟩
  | count =>
    refine ⟨⟨hmem, hdisk, hmi, hdi, hcoh⟩, ?_⟩
    cases hi : s.inited
    · simp [Backend.call, hybBackend, hi, Store.step, abs, Call.mapId]
    · rw [hi] at hdi
      simp [Backend.call, hybBackend, hi, Store.step, abs, Call.mapId, Disk.statCount, hdi,
        hdisk.cnt hdi, Dict.length_keys]

/-- The memory layer alone: its size stays bounded, for every id string. -/
structure Bounded (s : Hyb V M) : Prop where
  mem : s.mem.Inv
  mi : s.mem.inited = s.inited
  le : (s.mem.vectors.length : Int) ≤ max s.limit 1

theorem bounded_step (s : Hyb V M) (c : Call V M) (hs : s.Bounded) :
    Bounded ((hybBackend env).call s c).2 ∧
      ((hybBackend env).call s c).2.limit = s.limit := by
  obtain ⟨hmem, hmi, hle⟩ := hs
  cases c with
  | init => exact ⟨⟨Mem.Inv.empty true, rfl, by
      simp only [Backend.call, hybBackend, init, Mem.init, List.length_nil]; omega⟩, rfl⟩
  | close => exact ⟨⟨Mem.Inv.empty false, rfl, by
      simp only [Backend.call, hybBackend, close, Mem.close, List.length_nil]; omega⟩, rfl⟩
  | store id v m =>
    simp only [Backend.call, hybBackend, store]
    split
    · exact ⟨⟨hmem, hmi, hle⟩, rfl⟩
    cases hi : s.inited
    · exact ⟨⟨hmem, hmi, hle⟩, rfl⟩
    rw [hi] at hmi
    obtain ⟨m', he, h1, h2, -, h4⟩ := remember_spec s.mem hmem hmi s.limit id v m
    rcases hd : s.disk.store env id v m with ⟨r, d⟩
    cases r with
    | error e => exact ⟨⟨hmem, hmi, hle⟩, rfl⟩
    | ok b =>
      cases b
      · exact ⟨⟨hmem, hmi, hle⟩, rfl⟩
      · simp only [he, Backend.wrap]
        exact ⟨⟨h1, h2, h4 hle⟩, rfl⟩
  | update id v m =>
    simp only [Backend.call, hybBackend, update]
    cases hi : s.inited
    · exact ⟨⟨hmem, hmi, hle⟩, rfl⟩
    rw [hi] at hmi
    rcases hd : s.disk.update env id v m with ⟨r, d⟩
    cases r with
    | error e => exact ⟨⟨hmem, hmi, hle⟩, rfl⟩
    | ok b =>
      cases b
      · exact ⟨⟨hmem, hmi, hle⟩, rfl⟩
      · cases hmm : s.mem.vectors.mem id
        · simp only [Mem.update_absent hmi hmm, Backend.wrap]
          exact ⟨⟨hmem, hmi, hle⟩, rfl⟩
        · simp only [Mem.update_ready hmi hmm, Backend.wrap]
          refine ⟨⟨⟨Dict.nodup_set hmem.vnd id v, Mem.putMeta_nodup hmem.mnd id m,
            Mem.sub_write id v m hmem.mnd hmem.sub, ?_, rfl⟩, rfl, ?_⟩, rfl⟩
          · simp only [Bool.not_true, Bool.false_eq_true, if_false]
            rw [Mem.length_set hmm]; exact hmem.cnt
          · simp only [Bool.not_true, Bool.false_eq_true, if_false]
            rw [Mem.length_set hmm]; exact hle
  | delete id =>
    simp only [Backend.call, hybBackend, delete]
    cases hi : s.inited
    · exact ⟨⟨hmem, hmi, hle⟩, rfl⟩
    rw [hi] at hmi
    obtain ⟨b, m', he, h1, h2, h3⟩ : ∃ b m', s.mem.delete id = (.ok b, m') ∧ m'.Inv ∧
        m'.inited = true ∧ m'.vectors.length ≤ s.mem.vectors.length := by
      cases hmm : s.mem.vectors.mem id
      · exact ⟨false, s.mem, Mem.delete_absent hmi hmm, hmem, hmi, Nat.le_refl _⟩
      · refine ⟨true, _, Mem.delete_ready hmi hmm, hmem.erase id true, rfl, ?_⟩
        have hk : id ∈ s.mem.vectors.keys := by rw [Dict.mem_keys]; exact hmm
        simp only; rw [Mem.length_pop hk]; omega
    rcases hd : s.disk.delete env id with ⟨r, d⟩
    cases r with
    | error e =>
      simp only [he, Backend.wrap]
      exact ⟨⟨h1, h2, by
        simp only [Bool.not_true, Bool.false_eq_true, if_false]; omega⟩, rfl⟩
    | ok b =>
      simp only [he, Backend.wrap]
      exact ⟨⟨h1, h2, by
        simp only [Bool.not_true, Bool.false_eq_true, if_false]; omega⟩, rfl⟩
  | retrieve id =>
    simp only [Backend.call, hybBackend, retrieve]
    cases hi : s.inited
    · exact ⟨⟨hmem, hmi, hle⟩, rfl⟩
    rw [hi] at hmi
    rw [Mem.retrieve_ready hmi]
    cases hat : Mem.contentOf s.mem.vectors s.mem.metadata id with
    | some r => exact ⟨⟨hmem, hmi, hle⟩, rfl⟩
    | none =>
      rcases hd : s.disk.retrieve env id with ⟨r, d⟩
      cases r with
      | error e => exact ⟨⟨hmem, hmi, hle⟩, rfl⟩
      | ok o =>
        cases o with
        | none => exact ⟨⟨hmem, hmi, hle⟩, rfl⟩
        | some p =>
          obtain ⟨v, m⟩ := p
          obtain ⟨m', he, h1, h2, -, h4⟩ := remember_spec s.mem hmem hmi s.limit id v m
          simp only [he, Backend.wrap]
          exact ⟨⟨h1, h2, h4 hle⟩, rfl⟩
  | list l =>
    simp only [Backend.call, hybBackend, list]
    cases hi : s.inited
    · exact ⟨⟨hmem, hmi, hle⟩, rfl⟩
    rw [hi] at hmi
    rcases hd : s.disk.list env (l.map Int.ofNat) with ⟨r, d⟩
    cases r <;> exact ⟨⟨hmem, hmi, hle⟩, rfl⟩
  | count => exact ⟨⟨hmem, hmi, hle⟩, rfl⟩

theorem bounded_run (s : Hyb V M) (h : List (Call V M)) (hs : s.Bounded) :
    Bounded ((hybBackend env).run s h).2 ∧ ((hybBackend env).run s h).2.limit = s.limit := by
  induction h generalizing s with
  | nil => exact ⟨hs, rfl⟩
  | cons c h ih =>
    have h1 := bounded_step (env := env) s c hs
    have h2 := ih _ h1.1
    exact ⟨h2.1, h2.2.trans h1.2⟩

end Hyb

/-- Hybrid storage refines the durable store keyed by file name, for ids whose file names
are pairwise different. -/
def hybRefines (env : DiskEnv M) (P : Id → Prop)
    (hinj : ∀ x y, P x → P y → sanitize env x = sanitize env y → x = y) :
    Refines (hybBackend (V := V) env) false env.glob (sanitize env) P
      (fun m => env.picklable m = true) where
  inv := Hyb.Inv env P
  abs := Hyb.abs
  step s c hs hi hm := Hyb.step P hinj s c hs hi hm

end Valori
