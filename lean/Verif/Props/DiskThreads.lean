import Verif.Lemmas.DiskThreads

/-!
# C198, C199: threads sharing one `DiskStorage`
-/

namespace Valori.Props

open Valori Spec DProg

variable {V M : Type}

theorem same_retrieve (env : DiskEnv M) {T : String → Prop} {s s' : Disk V M} (h : Same T s s') {id : Id}
    (hid : T (sanitize env id)) : (s.retrieve env id).1 = (s'.retrieve env id).1 := by
  obtain ⟨h1, h2⟩ := h
  obtain ⟨h3, h4⟩ := h2 _ hid
  unfold Disk.retrieve
  dsimp only
  rw [h1, h3, h4]
  by_cases hi : s'.inited = true
  · rcases s'.dir.vec.get? (sanitize env id) with _ | ⟨v⟩ | _
    · simp [hi]
    · rcases s'.dir.pkl.get? (sanitize env id) with _ | ⟨m⟩ | _ <;> simp [hi]
    · simp [hi]
  · simp [hi]

/-- **C198** Threads sharing a disk storage and working on different files do not disturb each other.
Whatever the schedule: a thread that has finished got the replies it would have got if it had been the
only one; its vectors can be retrieved as if it had been the only one, even while others are still at
work; and vectors whose files no thread works on are as before. -/
theorem C198_threads_apart (env : DiskEnv M) (s : Disk V M) (hs : Neat s) (progs : Nat → List (DCall V M))
    (hd : ∀ t u, t ≠ u → ∀ c ∈ progs t, ∀ c' ∈ progs u, sanitize env c.id ≠ sanitize env c'.id)
    (sched : List Nat) :
    let e := (DSys.begin env s progs).run sched
    (∀ t got, (e.thr t).2 = .ret got →
      got = (oneByOne (diskSeq env) s (progs t)).1 ∧
      ∀ c ∈ progs t, (e.disk.retrieve env c.id).1 =
        ((oneByOne (diskSeq env) s (progs t)).2.retrieve env c.id).1) ∧
    ∀ id, (∀ t, ∀ c ∈ progs t, sanitize env c.id ≠ sanitize env id) →
      (e.disk.retrieve env id).1 = (s.retrieve env id).1 := by
  intro e
  obtain ⟨-, h2, h3⟩ := threads_apart s hs (fun t f => ∃ c ∈ progs t, sanitize env c.id = f)
    (fun t => sessionProg env (progs t) []) (fun t => own_session env _ (fun c hc => ⟨c, hc, rfl⟩) _)
    (by
      rintro t u f ⟨c, hc, rfl⟩ ⟨c', hc', h⟩
      by_contra htu
      exact hd t u htu c hc c' hc' h.symm) sched
  refine ⟨fun t got hr => ?_, fun id hid => ?_⟩
  · obtain ⟨a1, a2, -, -⟩ := h2 t
    have ha := alone_solo (sched.count t) s 0 (sessionProg env (progs t) [])
    rw [alone_session, ← a1] at ha
    change alone _ _ (e.thr t).2 = _ at ha
    rw [hr] at ha
    simp only [alone, List.nil_append, Prod.mk.injEq] at ha
    refine ⟨ha.1, fun c hc => ?_⟩
    rw [← ha.2]
    exact same_retrieve env a2 ⟨c, hc, rfl⟩
  · refine (same_retrieve env (h3 (fun f => f = sanitize env id) ?_) rfl).symm
    rintro t f rfl ⟨c, hc, h⟩
    exact hid t c hc h

/-- **C198** No thread waits for another: after a number of own steps that does not depend on the schedule,
a thread has finished. -/
theorem C198_no_waiting (env : DiskEnv M) (s : Disk V M) (hs : Neat s) (progs : Nat → List (DCall V M))
    (hd : ∀ t u, t ≠ u → ∀ c ∈ progs t, ∀ c' ∈ progs u, sanitize env c.id ≠ sanitize env c'.id) (t : Nat) :
    ∃ n, ∀ sched : List Nat, n ≤ sched.count t →
      ∃ got, (((DSys.begin env s progs).run sched).thr t).2 = .ret got := by
  obtain ⟨n, r, hn⟩ := solo_ends (sessionProg env (progs t) []) s 0
  refine ⟨n, fun sched hc => ⟨r, ?_⟩⟩
  obtain ⟨-, h2, -⟩ := threads_apart s hs (fun t f => ∃ c ∈ progs t, sanitize env c.id = f)
    (fun t => sessionProg env (progs t) []) (fun t => own_session env _ (fun c hc => ⟨c, hc, rfl⟩) _)
    (by
      rintro t u f ⟨c, hc, rfl⟩ ⟨c', hc', h⟩
      by_contra htu
      exact hd t u htu c hc c' hc' h.symm) sched
  refine (h2 t).1.trans ?_
  obtain ⟨j, hj⟩ := Nat.exists_eq_add_of_le hc
  rw [hj, solo_add, hn, solo_ret]

/-- A file system whose `isalnum` knows the letters, and metadata that can all be pickled. -/
def thrEnv : DiskEnv Nat := ⟨Char.isAlphanum, fun _ => true, id⟩

/-- An empty open storage. -/
def thrEmpty : Disk Nat Nat := ⟨⟨[], []⟩, 0, true⟩

/-- Two threads storing under different ids and reading back, the second one also overwriting. -/
def apartProgs : Nat → List (DCall Nat Nat)
  | 0 => [.store "a" 1 (some 10), .retrieve "a"]
  | 1 => [.store "b" 2 none, .update "b" 3 (some 30), .retrieve "b", .delete "b"]
  | _ => []

/-- The threads take turns. -/
def turns : List Nat := (List.replicate 30 [0, 1]).flatten

example : Neat thrEmpty := by decide

example : ∀ t u, t ≠ u → ∀ c ∈ apartProgs t, ∀ c' ∈ apartProgs u,
    sanitize thrEnv c.id ≠ sanitize thrEnv c'.id := by
  have ha : sanitize thrEnv "a" = "a" := by decide
  have hb : sanitize thrEnv "b" = "b" := by decide
  intro t u htu c hc c' hc'
  rcases t with _ | _ | t <;> rcases u with _ | _ | u <;>
    simp [apartProgs] at htu hc hc'
  · rcases hc with rfl | rfl <;> rcases hc' with rfl | rfl | rfl | rfl <;> simp [DCall.id, ha, hb]
  · rcases hc with rfl | rfl | rfl | rfl <;> rcases hc' with rfl | rfl <;> simp [DCall.id, ha, hb]

/-- The replies of a thread that has finished. -/
def gotBy {R : Type} (e : DSys V M R) (t : Nat) : Option R :=
  match (e.thr t).2 with
  | .ret r => some r
  | _ => none

theorem gotBy_some {R : Type} {e : DSys V M R} {t : Nat} {r : R} (h : gotBy e t = some r) :
    (e.thr t).2 = .ret r := by
  unfold gotBy at h
  split at h
  · rename_i h'; rw [h']; injection h with h; rw [h]
  · cases h

example : gotBy ((DSys.begin thrEnv thrEmpty apartProgs).run turns) 1 =
    some [.bool true, .bool true, .found (some (3, some 30)), .bool true] := by decide

/-! ## Threads working on the same id -/

/-- What C163 says of `MemoryStorage`, for a disk storage: once all threads have finished, their replies
and what can be retrieved are those of making the calls one after the other in some order. -/
def Orderly (env : DiskEnv M) (s : Disk V M) (progs : Nat → List (DCall V M)) (sched : List Nat) : Prop :=
  ∀ got : Nat → List (MReply V M), (∀ t, (((DSys.begin env s progs).run sched).thr t).2 = .ret (got t)) →
    ∃ s' log, Explains (diskSeq env) s s' progs (fun _ => []) got log ∧
      ∀ id, (((DSys.begin env s progs).run sched).disk.retrieve env id).1 = (s'.retrieve env id).1

/-- The calls in an explanation are calls of the programs. -/
theorem explained_calls {σ C R : Type} {call : σ → C → R × σ} {x x' : σ} {progs todo : Nat → List C}
    {got : Nat → List R} {log : List (Nat × C × R)} (h : Explains call x x' progs todo got log) :
    ∀ e ∈ log, e.2.1 ∈ progs e.1 := by
  intro e he
  rw [← h.order e.1]
  refine List.mem_append_left _ (List.mem_map.2 ⟨e.2, ?_, rfl⟩)
  exact List.mem_map.2 ⟨e, by simp [he], rfl⟩

/-- Two threads store under the same id. -/
def sameId : Nat → List (DCall Nat Nat)
  | 0 => [.store "a" 1 (some 10)]
  | 1 => [.store "a" 2 (some 20)]
  | _ => []

/-- The first thread writes its vector, then the second one does everything, then the first one goes on. -/
def mixing : List Nat := List.replicate 3 0 ++ List.replicate 7 1 ++ List.replicate 4 0

/-- The state of the storage after calls of `sameId` made one after the other. -/
def OneOfTwo (s : Disk Nat Nat) : Prop :=
  s.inited = true ∧ (s.retrieve thrEnv "a").1 ≠ .ok (some (2, some 10))

theorem sameId_orders (cs : List (DCall Nat Nat))
    (hcs : ∀ c ∈ cs, c = .store "a" 1 (some 10) ∨ c = .store "a" 2 (some 20)) :
    ∀ s : Disk Nat Nat, OneOfTwo s → OneOfTwo (oneByOne (diskSeq thrEnv) s cs).2 := by
  induction cs with
  | nil => intro s h; exact h
  | cons c cs ih =>
    intro s hs
    refine ih (fun c hc => hcs c (List.mem_cons_of_mem _ hc)) _ ?_
    have ha : sanitize thrEnv "a" = "a" := by decide
    have hi := hs.1
    rcases hcs c List.mem_cons_self with rfl | rfl <;>
      simp [diskSeq, Disk.store, hi, OneOfTwo, Disk.writeSteps, thrEnv, runSteps, FsStep.run, Disk.retrieve]

/-- **C199 (refuted).** Two threads store under the same id and both are told that it worked.  Afterwards the
vector is that of one thread and the metadata those of the other, which no order of the calls explains. -/
theorem C199_orderly_refuted : ¬ ∀ (s : Disk Nat Nat) (progs : Nat → List (DCall Nat Nat)) (sched : List Nat),
    Neat s → s.inited = true → Orderly thrEnv s progs sched := by
  intro h
  have h0 : gotBy ((DSys.begin thrEnv thrEmpty sameId).run mixing) 0 = some [.bool true] := by decide
  have h1 : gotBy ((DSys.begin thrEnv thrEmpty sameId).run mixing) 1 = some [.bool true] := by decide
  obtain ⟨s', log, hl, hc⟩ := h thrEmpty sameId mixing (by decide) rfl
    (fun t => if t < 2 then [.bool true] else []) (by
      intro t
      rcases t with _ | _ | t
      · exact gotBy_some h0
      · exact gotBy_some h1
      · have : ¬ (t + 1 + 1 < 2) := by omega
        simp only [this, if_false]
        rfl)
  have ho := sameId_orders (log.map fun e => e.2.1) (by
    intro c hc
    obtain ⟨e, he, rfl⟩ := List.mem_map.1 hc
    have hp := explained_calls hl e he
    rcases ht : e.1 with _ | _ | n
    · rw [ht] at hp; exact .inl (by simpa [sameId] using hp)
    · rw [ht] at hp; exact .inr (by simpa [sameId] using hp)
    · rw [ht] at hp; simp [sameId] at hp) thrEmpty ⟨rfl, by decide⟩
  rw [hl.replies] at ho
  refine ho.2 ?_
  rw [← hc "a"]
  decide

/-- A storage holding one vector under `"a"`. -/
def thrOne : Disk Nat Nat := (thrEmpty.store thrEnv "a" 1 none).2

/-- One thread updates it, another one deletes it. -/
def updDel : Nat → List (DCall Nat Nat)
  | 0 => [.update "a" 2 none]
  | 1 => [.delete "a"]
  | _ => []

/-- The first thread sees that the vector exists, then the second one deletes it, then the first one goes
on. -/
def reviving : List Nat := List.replicate 2 0 ++ List.replicate 6 1 ++ List.replicate 4 0

theorem updDel_absent (cs : List (DCall Nat Nat))
    (hcs : ∀ c ∈ cs, c = .update "a" 2 none ∨ c = .delete "a") :
    ∀ s : Disk Nat Nat, s.inited = true → s.dir.vec.mem "a" = false →
      (oneByOne (diskSeq thrEnv) s cs).2.dir.vec.mem "a" = false := by
  have ha : sanitize thrEnv "a" = "a" := by decide
  induction cs with
  | nil => intro s _ h; exact h
  | cons c cs ih =>
    intro s hi hs
    have key : (diskSeq thrEnv s c).2.inited = true ∧ (diskSeq thrEnv s c).2.dir.vec.mem "a" = false := by
      rcases hcs c List.mem_cons_self with rfl | rfl
      · simp [diskSeq, Disk.update, hi, ha, hs]
      · by_cases hp : s.dir.pkl.mem "a" = true <;>
          simp [diskSeq, Disk.delete, hi, ha, hs, Disk.deleteSteps, hp, runSteps, FsStep.run]
    exact ih (fun c hc => hcs c (List.mem_cons_of_mem _ hc)) _ key.1 key.2

theorem updDel_deleted (cs : List (DCall Nat Nat))
    (hcs : ∀ c ∈ cs, c = .update "a" 2 none ∨ c = .delete "a") (hd : DCall.delete "a" ∈ cs) :
    ∀ s : Disk Nat Nat, s.inited = true → Neat s →
      (oneByOne (diskSeq thrEnv) s cs).2.dir.vec.mem "a" = false := by
  have ha : sanitize thrEnv "a" = "a" := by decide
  induction cs with
  | nil => simp at hd
  | cons c cs ih =>
    intro s hi hs
    have hcs' : ∀ c ∈ cs, c = .update "a" 2 none ∨ c = .delete "a" :=
      fun c hc => hcs c (List.mem_cons_of_mem _ hc)
    rcases hcs c List.mem_cons_self with rfl | rfl
    · have hd' : DCall.delete "a" ∈ cs := by simpa using hd
      refine ih hcs' hd' _ ?_ ?_
      · by_cases hv : s.dir.vec.mem "a" = true
        · by_cases hp : s.dir.pkl.mem "a" = true <;>
            simp [diskSeq, Disk.update, hi, ha, hv, Disk.writeSteps, hp, runSteps, FsStep.run]
        · simp [diskSeq, Disk.update, hi, ha, hv]
      · by_cases hv : s.dir.vec.mem "a" = true
        · by_cases hp : s.dir.pkl.mem "a" = true <;>
            simp only [diskSeq, Disk.update, hi, ha, hv, Disk.writeSteps, hp]
          · exact ⟨Dict.nodup_set (Dict.nodup_set hs.1 _ _) _ _, Dict.nodup_pop hs.2 _⟩
          · exact ⟨Dict.nodup_set (Dict.nodup_set hs.1 _ _) _ _, hs.2⟩
        · simpa [diskSeq, Disk.update, hi, ha, hv] using hs
    · have key : (diskSeq thrEnv s (.delete "a")).2.inited = true ∧
          (diskSeq thrEnv s (.delete "a")).2.dir.vec.mem "a" = false := by
        by_cases hv : s.dir.vec.mem "a" = true <;> by_cases hp : s.dir.pkl.mem "a" = true <;>
          simp [diskSeq, Disk.delete, hi, ha, hv, Disk.deleteSteps, hp, runSteps, FsStep.run, Dict.mem_eq,
            Dict.get?_pop hs.1]
      exact updDel_absent cs hcs' _ key.1 key.2

/-- **C199 (refuted).** One thread updates a vector while another one deletes it; both are told that it
worked, and yet the deleted vector is there.  No order of the calls explains this. -/
theorem C199_delete_refuted :
    let e := (DSys.begin thrEnv thrOne updDel).run reviving
    gotBy e 0 = some [.bool true] ∧ gotBy e 1 = some [.bool true] ∧
      (e.disk.retrieve thrEnv "a").1 = .ok (some (2, none)) ∧
      ∀ s' got log, Explains (diskSeq thrEnv) thrOne s' updDel (fun _ => []) got log →
        (s'.retrieve thrEnv "a").1 = .ok none := by
  refine ⟨by decide, by decide, by decide, fun s' got log hl => ?_⟩
  have hcalls : ∀ c ∈ log.map (fun e => e.2.1), c = .update "a" 2 none ∨ c = .delete "a" := by
    intro c hc
    obtain ⟨e, he, rfl⟩ := List.mem_map.1 hc
    have hp := explained_calls hl e he
    rcases ht : e.1 with _ | _ | n
    · rw [ht] at hp; exact .inl (by simpa [updDel] using hp)
    · rw [ht] at hp; exact .inr (by simpa [updDel] using hp)
    · rw [ht] at hp; simp [updDel] at hp
  have hdel : DCall.delete "a" ∈ log.map fun e => e.2.1 := by
    have h1 := hl.order 1
    simp only [List.append_nil] at h1
    have : DCall.delete "a" ∈ (ofThread 1 log).map fun e => e.1 := by rw [h1]; simp [updDel]
    simp only [ofThread, List.map_map, List.mem_map, List.mem_filter, Function.comp_apply] at this ⊢
    obtain ⟨e, ⟨he, -⟩, h2⟩ := this
    exact ⟨e, he, h2⟩
  have hab := updDel_deleted _ hcalls hdel thrOne rfl (by decide)
  have hin : ∀ (cs : List (DCall Nat Nat)), (∀ c ∈ cs, c = .update "a" 2 none ∨ c = .delete "a") →
      ∀ s : Disk Nat Nat, (oneByOne (diskSeq thrEnv) s cs).2.inited = s.inited := by
    intro cs
    induction cs with
    | nil => intro _ s; rfl
    | cons c cs ih =>
      intro h s
      refine (ih (fun c hc => h c (List.mem_cons_of_mem _ hc)) _).trans ?_
      rcases h c List.mem_cons_self with rfl | rfl
      · simp only [diskSeq, Disk.update]; split_ifs <;> rfl
      · simp only [diskSeq, Disk.delete]; split_ifs <;> rfl
  have hi := hin _ hcalls thrOne
  rw [hl.replies] at hab hi
  simp only at hab hi
  have ha : sanitize thrEnv "a" = "a" := by decide
  have hi' : s'.inited = true := hi
  rw [Dict.mem_eq] at hab
  rcases hg : s'.dir.vec.get? "a" with _ | f
  · simp [Disk.retrieve, ha, hg, hi']
  · rw [hg] at hab; simp at hab

/-- A reader and a writer. -/
def readUpd : Nat → List (DCall Nat Nat)
  | 0 => [.retrieve "a"]
  | 1 => [.update "a" 2 none]
  | _ => []

/-- **C199 (refuted).** Reading a vector while another thread updates it may raise: the file has been
truncated by the writer and not been written yet.  In either order of the two calls nothing is raised. -/
theorem C199_read_refuted :
    ∃ sched, gotBy ((DSys.begin thrEnv thrOne readUpd).run sched) 0 = some [.raised .storage] ∧
      ∀ cs : List (DCall Nat Nat), cs = readUpd 1 ++ readUpd 0 ∨ cs = readUpd 0 ++ readUpd 1 → ∀ e, MReply.raised e ∉ (oneByOne (diskSeq thrEnv) thrOne cs).1 := by
  refine ⟨[1, 1, 1, 0, 0, 0], by decide, fun cs hcs e => ?_⟩
  rcases hcs with rfl | rfl
  · have : (oneByOne (diskSeq thrEnv) thrOne (readUpd 1 ++ readUpd 0)).1 =
        [.bool true, .found (some (2, none))] := by decide
    rw [this]; simp
  · have : (oneByOne (diskSeq thrEnv) thrOne (readUpd 0 ++ readUpd 1)).1 =
        [.found (some (1, none)), .bool true] := by decide
    rw [this]; simp

/-- Two threads store one vector each. -/
def twoStores : Nat → List (DCall Nat Nat)
  | 0 => [.store "a" 1 none]
  | 1 => [.store "b" 2 none]
  | _ => []

/-- The first thread lists the directory, then the second one stores its vector, then the first one keeps the
number it found. -/
def stale : List Nat := List.replicate 5 0 ++ List.replicate 7 1 ++ List.replicate 2 0

/-- **C199 (refuted).** Even when the threads store under different ids, the number of vectors in `get_stats`
is wrong after they have finished: there are two and it says one. -/
theorem C199_count_refuted :
    let e := (DSys.begin thrEnv thrEmpty twoStores).run stale
    gotBy e 0 = some [.bool true] ∧ gotBy e 1 = some [.bool true] ∧
      e.disk.statCount = some 1 ∧ (e.disk.list thrEnv none).1 = .ok ["a", "b"] := by
  refine ⟨by decide, by decide, by decide, by decide⟩

/-- Making the calls of several lists one after the other. -/
theorem oneByOne_append {σ C R : Type} (call : σ → C → R × σ) (l l' : List C) : ∀ x : σ,
    oneByOne call x (l ++ l') = ((oneByOne call x l).1 ++ (oneByOne call (oneByOne call x l).2 l').1,
      (oneByOne call (oneByOne call x l).2 l').2) := by
  induction l with
  | nil => intro x; rfl
  | cons c l ih => intro x; simp [oneByOne, ih]

theorem oneByOne_length {σ C R : Type} (call : σ → C → R × σ) (l : List C) : ∀ x : σ,
    (oneByOne call x l).1.length = l.length := by
  induction l with
  | nil => intro x; rfl
  | cons c l ih => intro x; simp [oneByOne, ih]

/-- The calls of thread `t` with their replies. -/
def block (env : DiskEnv M) (s : Disk V M) (progs : Nat → List (DCall V M)) (t : Nat) :
    List (Nat × DCall V M × MReply V M) :=
  ((progs t).zip (oneByOne (diskSeq env) s (progs t)).1).map fun e => (t, e)

/-- The calls of the first `n` threads, one thread after the other. -/
def blocks (env : DiskEnv M) (s : Disk V M) (progs : Nat → List (DCall V M)) (n : Nat) :
    List (Nat × DCall V M × MReply V M) :=
  (List.range n).flatMap (block env s progs)

theorem blocks_succ (env : DiskEnv M) (s : Disk V M) (progs : Nat → List (DCall V M)) (n : Nat) :
    blocks env s progs (n + 1) = blocks env s progs n ++ block env s progs n := by
  simp [blocks, List.range_succ, List.flatMap_append]

theorem block_calls (env : DiskEnv M) (s : Disk V M) (progs : Nat → List (DCall V M)) (t : Nat) :
    ((block env s progs t).map fun e => e.2.1) = progs t ∧
      ((block env s progs t).map fun e => e.2.2) = (oneByOne (diskSeq env) s (progs t)).1 := by
  have h := oneByOne_length (diskSeq env) (progs t) s
  constructor
  · simp only [block, List.map_map]
    exact List.map_fst_zip (by omega)
  · simp only [block, List.map_map]
    exact List.map_snd_zip (by omega)

theorem blocks_of (env : DiskEnv M) (s : Disk V M) (progs : Nat → List (DCall V M)) (t n : Nat) :
    ofThread t (blocks env s progs n) =
      if t < n then (progs t).zip (oneByOne (diskSeq env) s (progs t)).1 else [] := by
  induction n with
  | zero => simp [blocks, ofThread]
  | succ n ih =>
    have happ : ∀ l l' : List (Nat × DCall V M × MReply V M),
        ofThread t (l ++ l') = ofThread t l ++ ofThread t l' := by
      intro l l'; simp [ofThread]
    rw [blocks_succ, happ, ih]
    by_cases h : t = n
    · subst h
      rw [if_neg (Nat.lt_irrefl t), if_pos (Nat.lt_succ_self t), List.nil_append]
      simp [ofThread, block, List.filter_map, Function.comp_def]
    · have hb : ofThread t (block env s progs n) = [] := by
        simp only [ofThread, block, List.filter_map, Function.comp_def]
        rw [List.filter_eq_nil_iff.2 (by intro a _; simpa using fun e => h e.symm)]
        rfl
      rw [hb, List.append_nil]
      by_cases h' : t < n
      · rw [if_pos h', if_pos (by omega)]
      · rw [if_neg h', if_neg (by omega)]

/-- **C199 (partial).** Threads whose files are different get replies and leave vectors as if the calls had
been made one after the other: the calls of thread 0 first, then those of thread 1, and so on.  Missing for
the full claim: threads working on the same id, where it is false, and the number of vectors. -/
theorem C199_orderly_partial (env : DiskEnv M) (s : Disk V M) (hs : Neat s) (progs : Nat → List (DCall V M))
    (hd : ∀ t u, t ≠ u → ∀ c ∈ progs t, ∀ c' ∈ progs u, sanitize env c.id ≠ sanitize env c'.id)
    (n : Nat) (hn : ∀ t, n ≤ t → progs t = []) (sched : List Nat) : Orderly env s progs sched := by
  intro got hgot
  let T : Nat → String → Prop := fun t f => ∃ c ∈ progs t, sanitize env c.id = f
  have hT : ∀ t u, t ≠ u → ∀ f, T t f → ¬ T u f := by
    rintro t u htu f ⟨c, hc, rfl⟩ ⟨c', hc', h⟩
    exact hd t u htu c hc c' hc' h.symm
  have key : ∀ k, ∃ s', oneByOne (diskSeq env) s ((blocks env s progs k).map fun e => e.2.1) =
        ((blocks env s progs k).map fun e => e.2.2, s') ∧ Neat s' ∧
      (∀ t, t < k → Same (T t) s' (oneByOne (diskSeq env) s (progs t)).2) ∧
      (∀ U : String → Prop, (∀ t, t < k → ∀ f, U f → ¬ T t f) → Same U s' s) := by
    intro k
    induction k with
    | zero => exact ⟨s, rfl, hs, fun t h => absurd h (Nat.not_lt_zero t), fun U _ => .refl _ _⟩
    | succ k ih =>
      obtain ⟨s', a1, a2, a3, a4⟩ := ih
      have hk : Same (T k) s' s := a4 _ fun t ht f hf => hT k t (by omega) f hf
      obtain ⟨b1, b2, b3⟩ := seq_same env (progs k) (T := T k) (fun c hc => ⟨c, hc, rfl⟩) a2 hs hk
      obtain ⟨c1, c2⟩ := block_calls env s progs k
      refine ⟨(oneByOne (diskSeq env) s' (progs k)).2, ?_, b3, fun t ht => ?_, fun U hU => ?_⟩
      · rw [blocks_succ, List.map_append, List.map_append, oneByOne_append, a1]
        simp only [c1, c2, b1]
      · by_cases htk : t = k
        · subst htk; exact b2
        · exact (seq_frame env (progs k) (T := T k) (fun c hc => ⟨c, hc, rfl⟩) (hT t k htk) s').symm.trans
            (a3 t (by omega))
      · exact (seq_frame env (progs k) (T := T k) (fun c hc => ⟨c, hc, rfl⟩)
          (hU k (Nat.lt_succ_self k)) s').symm.trans (a4 U fun t ht => hU t (by omega))
  obtain ⟨s', a1, -, a3, a4⟩ := key n
  obtain ⟨d1, d2⟩ := C198_threads_apart env s hs progs hd sched
  refine ⟨s', blocks env s progs n, ⟨a1, fun t => ?_, fun t => ?_⟩, fun id => ?_⟩
  · rw [blocks_of, List.append_nil]
    by_cases h : t < n
    · rw [if_pos h, List.map_fst_zip (by rw [oneByOne_length])]
    · rw [if_neg h, hn t (by omega)]; rfl
  · rw [blocks_of, (d1 t _ (hgot t)).1]
    by_cases h : t < n
    · rw [if_pos h, List.map_snd_zip (by rw [oneByOne_length])]
    · rw [if_neg h, hn t (by omega)]; rfl
  · by_cases h : ∃ t, T t (sanitize env id)
    · obtain ⟨t, c, hc, hcid⟩ := h
      have htn : t < n := by
        by_contra hlt
        rw [hn t (by omega)] at hc
        cases hc
      have h1 := (d1 t _ (hgot t)).2 c hc
      have hsan : ∀ x : Disk V M, (x.retrieve env id).1 = (x.retrieve env c.id).1 := by
        intro x; unfold Disk.retrieve; rw [hcid]
      rw [hsan, hsan, h1]
      exact (same_retrieve env (a3 t htn) ⟨c, hc, rfl⟩).symm
    · have h1 := d2 id fun t c hc e => h ⟨t, c, hc, e⟩
      rw [h1]
      refine (same_retrieve env (a4 (fun f => f = sanitize env id) ?_) rfl).symm
      rintro t - f rfl hf
      exact h ⟨t, hf⟩

end Valori.Props
