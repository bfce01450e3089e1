import Verif.Lemmas.Threads
import Verif.Props.Storage

/-!
# C163: threads sharing one `MemoryStorage`
-/

namespace Valori.Props

open Valori Spec

variable {V M : Type} [ByteSize V] [ByteSize M]

/-- Calls that neither open nor close the storage. -/
def isPlainCall : MCall V M → Prop
  | .setup => False
  | .close => False
  | _ => True

/-- What the unlocked part answers while the storage is open. -/
def openAnswer : MCall V M → Option (MReply V M)
  | .store id _ _ => if id = "" then some (.bool false) else none
  | _ => none

theorem mem_lockOk : LockOk (memLock : LockObj (Mem V M) (MCall V M) (MReply V M)) memSeq
    (fun s => s.inited = true) isPlainCall openAnswer := by
  refine ⟨?_, ?_, ?_, ?_⟩
  · intro s c hs hc
    cases c <;> simp [memLock, memCheck, openAnswer, hs]
    all_goals rfl
  · intro s c r hs hc h
    cases c <;> simp [openAnswer] at h
    obtain ⟨rfl, rfl⟩ := h
    simp [memSeq, Mem.store, asReply]
  · intro s c hs hc h
    obtain ⟨vs, ms, n, u, i⟩ := s
    simp only at hs
    subst hs
    cases c with
    | store id v m =>
      have hid : id ≠ "" := by
        intro e; simp [openAnswer, e] at h
      simp [memLock, memBody, memSeq, Mem.store, asReply, hid]
    | retrieve id =>
      cases hg : vs.get? id <;>
        simp [memLock, memBody, memSeq, Mem.retrieve, asReply, hg]
    | delete id =>
      cases hg : vs.mem id <;>
        simp [memLock, memBody, memSeq, Mem.delete, asReply, hg, whenTrue]
    | update id v m =>
      cases hg : vs.mem id <;>
        simp [memLock, memBody, memSeq, Mem.update, asReply, hg, whenTrue]
    | list l => cases l <;> simp [memLock, memBody, memSeq, Mem.list, asReply]
    | stats => simp [memLock, memBody, memSeq, Mem.statCount, Mem.statUsage]
    | setup => exact hc.elim
    | close => exact hc.elim
  · intro c hc f hf p hp
    obtain ⟨s, r⟩ := p
    simp only at hp
    cases c with
    | setup => exact hc.elim
    | close => exact hc.elim
    | store id v m =>
      simp only [memLock, memBody, List.mem_cons, List.not_mem_nil, or_false] at hf
      rcases hf with rfl | rfl | rfl | rfl | rfl <;> exact hp
    | retrieve id =>
      simp only [memLock, memBody, List.mem_cons, List.not_mem_nil, or_false] at hf
      rcases hf with rfl | rfl
      · exact hp
      · simp only; split <;> exact hp
    | delete id =>
      simp only [memLock, memBody, List.mem_cons, List.not_mem_nil, or_false] at hf
      rcases hf with rfl | rfl | rfl | rfl | rfl
      · exact hp
      all_goals (unfold whenTrue; simp only; split <;> exact hp)
    | update id v m =>
      simp only [memLock, memBody, List.mem_cons, List.not_mem_nil, or_false] at hf
      rcases hf with rfl | rfl | rfl | rfl
      · exact hp
      all_goals (unfold whenTrue; simp only; split <;> exact hp)
    | list l =>
      simp only [memLock, memBody, List.mem_cons, List.not_mem_nil, or_false] at hf
      rcases hf with rfl | rfl
      · exact hp
      · simp only; split <;> exact hp
    | stats =>
      simp only [memLock, memBody, List.mem_cons, List.not_mem_nil, or_false] at hf
      rcases hf with rfl | rfl
      · exact hp
      · simp only; split <;> exact hp

/-- **C163 (partial).** Any number of threads may use an open in-memory storage at once.  Whatever the
schedule, every thread gets the replies it would get if the calls were made one after the other, in the
order in which they were completed, which respects the program of each thread; and the content is that of
this sequence of calls whenever no thread is inside a call.  Missing for the full claim: calls of `close`
and `initialize` by one of the threads. -/
theorem C163_memory_threads_partial (s : Mem V M) (hs : s.inited = true) (progs : Nat → List (MCall V M))
    (hp : ∀ t, ∀ c ∈ progs t, isPlainCall c) (sched : List Nat) :
    let e := (Sys.begin s progs).run memLock sched
    ∃ s', Explains memSeq s s' progs (fun t => (e.thr t).todo) (fun t => (e.thr t).got) e.log ∧
      ((∀ t k r, (e.thr t).pc ≠ .inside k r) → e.obj = s') := by
  intro e
  obtain ⟨m, h⟩ := lock_run mem_lockOk s hs progs hp sched
  refine ⟨m, h.expl, fun hn => h.free ?_⟩
  rcases hl : ((Sys.begin s progs).run memLock sched).lock with _ | t
  · rfl
  · obtain ⟨_, _, k, r, -, h2, -⟩ := h.held t hl
    exact absurd h2 (hn t k r)

/-- **C163** A thread that nobody interrupts, whatever it calls (`initialize` and `close` included) and
whatever the state of the storage, gets through its program with the replies and the final content of a
single caller. -/
theorem C163_alone (s : Mem V M) (progs : Nat → List (MCall V M)) (t : Nat) :
    ∃ n, let e := (Sys.begin s progs).run memLock (List.replicate n t)
      (e.thr t).todo = [] ∧ (e.thr t).got = (oneByOne memSeq s (progs t)).1 ∧
      e.obj = (oneByOne memSeq s (progs t)).2 := by
  obtain ⟨n, s', h1, -, h2, h3⟩ := alone_run (memLock : LockObj (Mem V M) (MCall V M) (MReply V M)) memSeq
    (by
      rintro ⟨vs, ms, n, u, i⟩ c r h
      cases c <;> cases i <;> simp [memLock, memCheck] at h
      all_goals (try obtain ⟨h, rfl⟩ := h)
      all_goals (try subst h)
      all_goals simp_all [memSeq, Mem.store, Mem.retrieve, Mem.delete, Mem.update, Mem.list, Mem.statCount,
        Mem.statUsage, asReply]
      all_goals (split at h <;> simp_all))
    (by
      intro s c h
      cases c with
      | setup => simp [memLock, memBody, memSeq, Mem.init]
      | close => simp [memLock, memBody, memSeq, Mem.close]
      | _ =>
        have hs : s.inited = true := by
          by_contra hc
          rw [Bool.not_eq_true] at hc
          simp [memLock, memCheck, hc] at h
          try (split at h <;> cases h)
        refine mem_lockOk.body s _ hs trivial ?_
        refine (mem_lockOk.check s _ hs ?_).symm.trans h
        trivial)
    t (progs t) (Sys.begin s progs) [] rfl rfl
  refine ⟨n, ?_⟩
  rw [h1]
  exact ⟨by rw [h2], by rw [h2]; rfl, h3⟩

/-- **C163** No thread waits for ever: if some thread has something left to do, then some thread can make
a step that changes something. -/
theorem C163_no_deadlock (s : Mem V M) (hs : s.inited = true) (progs : Nat → List (MCall V M))
    (hp : ∀ t, ∀ c ∈ progs t, isPlainCall c) (sched : List Nat) (t : Nat)
    (ht : (((Sys.begin s progs).run memLock sched).thr t).todo ≠ []) :
    let e := (Sys.begin s progs).run memLock sched
    ∃ t', (e.step memLock t').thr t' ≠ e.thr t' := by
  intro e
  obtain ⟨m, h⟩ := lock_run mem_lockOk s hs progs hp sched
  change LockInv memLock memSeq _ _ s progs e m at h
  change (e.thr t).todo ≠ [] at ht
  rcases hl : e.lock with _ | o
  · refine ⟨t, ?_⟩
    obtain ⟨c, rest, htodo⟩ := List.exists_cons_of_ne_nil ht
    unfold Sys.step
    rw [htodo]
    simp only
    rcases hpc : (e.thr t).pc with _ | _ | ⟨k, r⟩
    · simp only
      split
      · simp only [Sys.finish, Function.update_self]
        intro h'
        have := congrArg Thr.todo h'
        rw [htodo] at this
        have := congrArg List.length this
        simp at this
      · simp only [Function.update_self]
        intro h'
        have := congrArg Thr.pc h'
        rw [hpc] at this
        simp at this
    · simp only [hl, Function.update_self]
      intro h'
      have := congrArg Thr.pc h'
      rw [hpc] at this
      simp at this
    · rw [h.inside t k r hpc] at hl
      simp at hl
  · refine ⟨o, ?_⟩
    obtain ⟨c, rest, k, r, h1, h2, -, -⟩ := h.held o hl
    unfold Sys.step
    rw [h1]
    simp only [h2]
    split
    · simp only [Function.update_self]
      intro h'
      have := congrArg Thr.pc h'
      rw [h2] at this
      simp at this
    · simp only [Sys.finish, Function.update_self]
      intro h'
      have := congrArg Thr.pc h'
      rw [h2] at this
      simp at this

/-! With `close`. -/

/-- An open storage holding one vector under `"a"`. -/
def oneStored : Mem Nat Nat := (Mem.new.init.store "a" 7 none).2

/-- One thread reads it, another closes the storage. -/
def readAndClose : Nat → List (MCall Nat Nat)
  | 0 => [.retrieve "a"]
  | 1 => [.close]
  | _ => []

/-- The reader looks at `_initialized`, then the other thread closes the storage, then the reader goes
on. -/
def unlucky : List Nat := [0] ++ List.replicate 8 1 ++ List.replicate 4 0

theorem rc_replies (cs : List (MCall Nat Nat)) (hcs : ∀ c ∈ cs, c = .retrieve "a" ∨ c = .close) :
    ∀ s, s = oneStored ∨ s = oneStored.close → MReply.found none ∉ (oneByOne memSeq s cs).1 := by
  induction cs with
  | nil => intro s _; simp [oneByOne]
  | cons c cs ih =>
    intro s hs
    have hr : memSeq s c = (.found (some (7, none)), s) ∨ memSeq s c = (.raised .storage, s) ∨
        memSeq s c = (.done, oneStored.close) := by
      rcases hs with rfl | rfl <;> rcases hcs c List.mem_cons_self with rfl | rfl <;> decide
    have hih := ih (fun c hc => hcs c (List.mem_cons_of_mem _ hc))
    simp only [oneByOne, List.mem_cons, not_or]
    rcases hr with h | h | h <;> rw [h]
    · exact ⟨by simp, hih s hs⟩
    · exact ⟨by simp, hih s hs⟩
    · exact ⟨by simp, hih _ (.inr rfl)⟩

/-- **C163 (refuted).** With a thread that closes the storage the claim is false: the other thread is told
that the vector does not exist, although it was there until the storage was closed.  No order of the two
calls explains this answer: before `close` the vector is found, after it the call raises. -/
theorem C163_memory_threads_refuted :
    ¬ ∀ (s : Mem Nat Nat) (progs : Nat → List (MCall Nat Nat)) (sched : List Nat), s.inited = true →
      ∃ s' log, Explains memSeq s s' progs
        (fun t => (((Sys.begin s progs).run memLock sched).thr t).todo)
        (fun t => (((Sys.begin s progs).run memLock sched).thr t).got) log := by
  intro h
  obtain ⟨s', log, h⟩ := h oneStored readAndClose unlucky rfl
  have hgot : (((Sys.begin oneStored readAndClose).run memLock unlucky).thr 0).got = [.found none] := by
    decide
  have h0 := h.seen 0
  rw [hgot] at h0
  have hmem : MReply.found none ∈ log.map fun e => e.2.2 := by
    have : MReply.found none ∈ (ofThread 0 log).map fun e => e.2 := by rw [h0]; simp
    simp only [ofThread, List.map_map, List.mem_map, List.mem_filter, Function.comp_apply] at this ⊢
    obtain ⟨e, ⟨he, -⟩, h1⟩ := this
    exact ⟨e, he, h1⟩
  have hcalls : ∀ c ∈ log.map (fun e => e.2.1), c = .retrieve "a" ∨ c = .close := by
    intro c hc
    obtain ⟨e, he, rfl⟩ := List.mem_map.1 hc
    have hp : e.2.1 ∈ readAndClose e.1 := by
      rw [← h.order e.1]
      refine List.mem_append_left _ (List.mem_map.2 ⟨e.2, ?_, rfl⟩)
      exact List.mem_map.2 ⟨e, by simp [he], rfl⟩
    rcases ht : e.1 with _ | _ | n
    · rw [ht] at hp; exact .inl (by simpa [readAndClose] using hp)
    · rw [ht] at hp; exact .inr (by simpa [readAndClose] using hp)
    · rw [ht] at hp; simp [readAndClose] at hp
  have := rc_replies _ hcalls oneStored (.inl rfl)
  rw [h.replies] at this
  exact this hmem

/-- Two threads storing, with a switch in the middle of the first call: nothing is lost. -/
example : (((Sys.begin (Mem.new.init : Mem Nat Nat) fun t =>
      if t = 0 then [.store "a" 1 none] else if t = 1 then [.store "b" 2 none, .stats] else []).run memLock
      [0, 0, 0, 1, 1, 1, 0, 0, 0, 0, 0, 1, 1, 1, 1, 1, 1, 1, 1, 1, 1, 1, 1]).thr 1).got =
    [.bool true, .stats (some (2, 3))] := by decide

end Valori.Props
