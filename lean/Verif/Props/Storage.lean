import Verif.Lemmas.Hybrid
import Verif.Lemmas.DiskCrash

/-!
# Properties C01 - C12, C81: storage backends
-/

namespace Valori.Props
open Valori Spec

variable {V M : Type} [ByteSize V] [ByteSize M]

/-- Sizes used in the examples. -/
instance exSize : ByteSize Nat := ⟨fun n => n⟩

/-- An environment for the examples: ASCII `isalnum`, everything picklable, scan in order. -/
def exEnv : DiskEnv Nat := ⟨Char.isAlphanum, fun _ => true, fun l => l⟩

/-- The empty data directory. -/
def emptyDir (V M : Type) : Dir V M := ⟨[], []⟩

/-- The freshly created directory is fine. -/
theorem emptyDir_ok : (emptyDir V M).Ok :=
  ⟨List.nodup_nil, List.nodup_nil, by simp [emptyDir], by simp [emptyDir]⟩

/-! ## C01, C02: memory -/

/-- **C01** Every history of calls on a new in-memory backend gets exactly the replies of
the abstract volatile map. -/
theorem C01_memory_is_map (h : List (Call V M)) :
    ((memBackend V M).run Mem.new h).1 = (Store.run true (fun l => l) (Store.empty false) h).1 := by
  have := memRefines.run (Mem.new : Mem V M) h (Mem.Inv.empty false) (by simp) (by simp)
  have e : h.map (Call.mapId fun x => x) = h := by
    rw [List.map_congr_left (g := fun c => c)]
    · simp
    · intro c _; cases c <;> rfl
  rw [e] at this
  have e2 : memRefines.abs (Mem.new : Mem V M) = Store.empty false := rfl
  rw [e2] at this
  rw [← this.2]

/-- A call that can change what `id` retrieves. -/
def touches (id : String) : Call V M → Prop
  | .init => True
  | .close => True
  | .store i _ _ => i = id
  | .update i _ _ => i = id
  | .delete i => i = id
  | _ => False

/-- **C01**, read out directly: whatever happened before, after a store and any calls that
do not touch the id, retrieve returns exactly what was stored. -/
theorem C01_last_write_wins (h h' : List (Call V M)) (id : String) (v : V) (m : Option M)
    (hid : id ≠ "") (hopen : ((memBackend V M).run Mem.new h).2.inited = true)
    (hq : ∀ c ∈ h', ¬ touches id c) :
    let s := ((memBackend V M).run Mem.new (h ++ [Call.store id v m] ++ h')).2
    ((memBackend V M).retrieve s id).1 = .ok (some (v, m)) := by
  have key : ∀ (h' : List (Call V M)) (s : Mem V M), s.Inv → s.inited = true →
      s.at' id = some (v, m) → (∀ c ∈ h', ¬ touches id c) →
      (((memBackend V M).run s h').2).inited = true ∧
      (((memBackend V M).run s h').2).at' id = some (v, m) := by
    intro h'
    induction h' with
    | nil => intro s _ h1 h2 _; exact ⟨h1, h2⟩
    | cons c cs ih =>
      intro s hs hi hc hq
      have hst := Mem.step s c hs
      have h1 := hst.2
      have hn := hq c (by simp)
      have hopen' : (Mem.abs s).isOpen = true := hi
      have hcont : (Mem.abs s).content id = some (v, m) := hc
      have : (Store.step true (fun l => l) (Mem.abs s) c).2.isOpen = true ∧
          (Store.step true (fun l => l) (Mem.abs s) c).2.content id = some (v, m) := by
        cases c with
        | init => exact absurd trivial hn
        | close => exact absurd trivial hn
        | store i w n =>
          have hne : id ≠ i := fun e => hn e.symm
          simp only [Store.step]; split
          · exact ⟨hopen', hcont⟩
          · simp [hopen', put, hne, hcont]
        | update i w n =>
          have hne : id ≠ i := fun e => hn e.symm
          simp only [Store.step, hopen', if_true]; split
          · simp [hopen', put, hne, hcont]
          · exact ⟨hopen', hcont⟩
        | delete i =>
          have hne : id ≠ i := fun e => hn e.symm
          simp only [Store.step, hopen', if_true]; split
          · simp [hopen', put, hne, hcont]
          · exact ⟨hopen', hcont⟩
        | retrieve i => simp [Store.step, hopen', hcont]
        | list l => simp [Store.step, hopen', hcont]
        | count => simp [Store.step, hopen', hcont]
      rw [← h1] at this
      exact ih _ hst.1 this.1 this.2 (fun c' hc' => hq c' (by simp [hc']))
  have happ : ∀ (a b : List (Call V M)) (s : Mem V M),
      ((memBackend V M).run s (a ++ b)).2 =
        ((memBackend V M).run ((memBackend V M).run s a).2 b).2 := by
    intro a b
    induction a with
    | nil => intro s; rfl
    | cons c cs ih => intro s; simp only [List.cons_append, Backend.run]; exact ih _
  intro s
  have hinv : (((memBackend V M).run Mem.new h).2).Inv :=
    (memRefines.run (Mem.new : Mem V M) h (Mem.Inv.empty false) (by simp) (by simp)).1
  have hs : s = ((memBackend V M).run (((memBackend V M).store
      ((memBackend V M).run Mem.new h).2 id v m).2) h').2 := by
    simp only [s, happ, List.append_assoc, List.singleton_append, Backend.run, Backend.call]
    congr 2
    generalize hgen : (memBackend V M).store ((memBackend V M).run Mem.new h).2 id v m = r
    obtain ⟨r, s'⟩ := r
    cases r <;> rfl
  have hst : (memBackend V M).store ((memBackend V M).run Mem.new h).2 id v m = _ :=
    Mem.store_ready hopen hid v m
  rw [hst] at hs
  have hk := key h' _ (hinv.write id v m true) rfl (by
    simp only [Mem.at', Mem.content_write _ hinv.mnd, put]; simp) hq
  rw [hs]
  simp only [memBackend] at hk ⊢
  rw [Mem.retrieve_ready hk.1]
  exact congrArg Except.ok hk.2

/-- A history that stores two ids, drops metadata, deletes and retrieves. -/
example : ((memBackend Nat Nat).run Mem.new
    [.init, .store "a" 1 (some 5), .store "b" 2 none, .update "a" 3 none, .delete "b",
     .retrieve "a", .retrieve "b", .list none, .count]).1 =
    [.done, .flag true, .flag true, .flag true, .flag true, .found (some (3, none)),
     .found none, .ids ["a"], .num 1] := by decide

example : ∃ h h' : List (Call Nat Nat), ((memBackend Nat Nat).run Mem.new h).2.inited = true ∧
    ("a" ≠ "") ∧ (∀ c ∈ h', ¬ touches "a" c) ∧ h' ≠ [] :=
  ⟨[.init, .store "a" 0 (some 1)], [.store "b" 2 none, .delete "b"], by decide, by decide,
    by simp [touches], by decide⟩

/-- **C02** After any history of an open in-memory backend: the listing has no repetition,
lists exactly the ids that retrieve something, a limit gives the prefix, and the reported
count is the length of the listing. -/
theorem C02_memory_listing (h : List (Call V M))
    (hopen : ((memBackend V M).run Mem.new h).2.inited = true) :
    let s := ((memBackend V M).run Mem.new h).2
    ∃ l, ((memBackend V M).list s none).1 = .ok l ∧ l.Nodup ∧
      (∀ id, id ∈ l ↔ ∃ r, ((memBackend V M).retrieve s id).1 = .ok (some r)) ∧
      (∀ n : Nat, ((memBackend V M).list s (some n)).1 = .ok (l.take n)) ∧
      (memBackend V M).count s = some l.length ∧
      l = (Store.run true (fun l => l) (Store.empty false) h).2.order := by
  intro s
  have hr := memRefines.run (Mem.new : Mem V M) h (Mem.Inv.empty false) (by simp) (by simp)
  have e : h.map (Call.mapId fun x => x) = h := by
    rw [List.map_congr_left (g := fun c => c)]
    · simp
    · intro c _; cases c <;> rfl
  rw [e] at hr
  have e2 : memRefines.abs (Mem.new : Mem V M) = Store.empty false := rfl
  rw [e2] at hr
  have hinv : s.Inv := hr.1
  have hopen : s.inited = true := hopen
  refine ⟨s.vectors.keys, by simp [memBackend, Mem.list, hopen], hinv.vnd, ?_, ?_, ?_, ?_⟩
  · intro id
    have e3 : ((memBackend V M).retrieve s id).1 =
        .ok (Mem.contentOf s.vectors s.metadata id) := by
      show (s.retrieve id).1 = _
      rw [Mem.retrieve_ready hopen]
    rw [e3]
    rw [Dict.mem_keys]
    have := Mem.content_isSome s.vectors s.metadata id
    rw [← Dict.mem_eq, ← this, Option.isSome_iff_exists]
    simp
  · intro n; simp [memBackend, Mem.list, hopen, sliceTo]
  · simp [memBackend, Mem.statCount, hopen, hinv.cnt, Dict.length_keys]
  · have := congrArg (fun p => p.2.order) hr.2
    exact this

example : ((memBackend Nat Nat).run Mem.new
    [.init, .store "b" 1 none, .store "a" 2 none, .store "b" 3 none, .list none, .list (some 1),
      .delete "b", .store "b" 4 none, .list none, .count]).1 =
    [.done, .flag true, .flag true, .flag true, .ids ["b", "a"], .ids ["b"], .flag true,
      .flag true, .ids ["a", "b"], .num 2] := by decide

/-! ## C03: lifetime -/

/-- A call other than `init`, `close`, `count`, and other than storing the empty id. -/
def isWork : Call V M → Prop
  | .store id _ _ => id ≠ ""
  | .update .. => True
  | .delete _ => True
  | .retrieve _ => True
  | .list _ => True
  | _ => False

/-- **C03** A backend that is not open refuses all work and does not change. -/
theorem C03_refuses (env : DiskEnv M) (c : Call V M) (hc : isWork c) :
    (∀ s : Mem V M, s.inited = false → (memBackend V M).call s c = (.raised, s)) ∧
    (∀ s : Disk V M, s.inited = false → (diskBackend env).call s c = (.raised, s)) ∧
    (∀ s : Hyb V M, s.inited = false → (hybBackend env).call s c = (.raised, s)) := by
  refine ⟨?_, ?_, ?_⟩ <;> intro s hs <;> cases c <;>
    simp_all [isWork, Backend.call, memBackend, diskBackend, hybBackend, Backend.wrap,
      Mem.store, Mem.update, Mem.delete, Mem.retrieve, Mem.list,
      Disk.store, Disk.update, Disk.delete, Disk.retrieve, Disk.list,
      Hyb.store, Hyb.update, Hyb.delete, Hyb.retrieve, Hyb.list]

/-- **C03** New and closed backends are not open; the empty id is refused in every state. -/
theorem C03_not_open (env : DiskEnv M) (d : Dir V M) (limit : Int) (v : V) (m : Option M) :
    (Mem.new : Mem V M).inited = false ∧ (Disk.opened d).inited = false ∧
    (Hyb.opened d limit).inited = false ∧
    (∀ s : Mem V M, ((memBackend V M).close s).inited = false ∧
      (memBackend V M).call s (.store "" v m) = (.flag false, s)) ∧
    (∀ s : Disk V M, ((diskBackend env).close s).inited = false ∧
      (diskBackend env).call s (.store "" v m) = (.flag false, s)) ∧
    (∀ s : Hyb V M, ((hybBackend env).close s).inited = false ∧
      (hybBackend env).call s (.store "" v m) = (.flag false, s)) := by
  refine ⟨rfl, rfl, rfl, ?_, ?_, ?_⟩ <;> intro s <;> exact ⟨rfl, rfl⟩

example : isWork (.store "x" 1 none : Call Nat Nat) ∧
    ((diskBackend exEnv).close (⟨emptyDir Nat Nat, 0, true⟩)).inited = false := by
  simp [isWork, diskBackend, Disk.close]

/-! ## C04 - C06: disk -/

/-- **C04** Every history of calls on a disk backend opened on a readable directory gets
exactly the replies of the abstract durable map keyed by file name. -/
theorem C04_disk_is_map (env : DiskEnv M) (d : Dir V M) (hd : d.Ok) (h : List (Call V M))
    (hp : ∀ c ∈ h, ∀ m ∈ c.metas, env.picklable m = true) :
    ((diskBackend env).run (Disk.opened d) h).1 =
      (Store.run false env.glob ⟨false, d.content, d.vec.keys⟩
        (h.map (Call.mapId (sanitize env)))).1 := by
  have := (diskRefines env).run (Disk.opened d) h ⟨hd, fun h => by cases h⟩ (by simp) hp
  have e2 : (diskRefines env).abs (Disk.opened d) = ⟨false, d.content, d.vec.keys⟩ := rfl
  rw [e2] at this
  rw [← this.2]

/-- **C04** Ids made of safe characters are their own file names, so they never alias. -/
theorem C04_safe_ids_distinct (env : DiskEnv M) (a b : Id)
    (ha : ∀ c ∈ a.toList, env.isalnum c = true ∨ c = '.' ∨ c = '_' ∨ c = '-')
    (hb : ∀ c ∈ b.toList, env.isalnum c = true ∨ c = '.' ∨ c = '_' ∨ c = '-')
    (hab : a ≠ b) : sanitize env a ≠ sanitize env b := by
  have fix : ∀ x : Id, (∀ c ∈ x.toList, env.isalnum c = true ∨ c = '.' ∨ c = '_' ∨ c = '-') →
      sanitize env x = x := by
    intro x hx
    unfold sanitize
    rw [List.map_congr_left (g := fun c => c)]
    · simp
    · intro c hc
      have := hx c hc
      rw [if_pos]
      simp only [Bool.or_eq_true, beq_iff_eq]
      tauto
  rw [fix a ha, fix b hb]; exact hab

example : (emptyDir Nat Nat).Ok ∧ ((diskBackend exEnv).run (Disk.opened (emptyDir Nat Nat))
    [.init, .store "a/b" 1 (some 5), .retrieve "a_b", .list none, .close, .init,
      .retrieve "a/b", .count]).1 =
    [.done, .flag true, .found (some (1, some 5)), .ids ["a_b"], .done, .done,
      .found (some (1, some 5)), .num 1] := ⟨emptyDir_ok, by decide⟩

/-- **C05** After any history, a new backend opened on the files is in exactly the state of
the old one: no later call can tell whether a restart happened. -/
theorem C05_disk_durable (env : DiskEnv M) (d : Dir V M) (hd : d.Ok) (h h' : List (Call V M))
    (hp : ∀ c ∈ h, ∀ m ∈ c.metas, env.picklable m = true)
    (hopen : ((diskBackend env).run (Disk.opened d) h).2.inited = true) :
    let s := ((diskBackend env).run (Disk.opened d) h).2
    let s' := ((diskBackend env).run (Disk.opened ((diskBackend env).close s).dir) [.init]).2
    ((diskBackend env).run s h').1 = ((diskBackend env).run s' h').1 ∧
    ∃ l, ((diskBackend env).list s' none).1 = .ok l ∧
      ((env.glob s'.dir.vec.keys).length = s'.dir.vec.keys.length →
        (diskBackend env).count s' = some l.length) := by
  intro s s'
  have hr := (diskRefines env).run (Disk.opened d) h ⟨hd, fun h => by cases h⟩ (by simp) hp
  have hinv : s.Inv := hr.1
  have hopen : s.inited = true := hopen
  have hs : s' = s := by
    have hc := hinv.cnt hopen
    show (⟨s.dir, s.dir.vec.length, true⟩ : Disk V M) = s
    rcases s with ⟨d, n, i⟩
    simp_all
  refine ⟨by rw [hs], env.glob s'.dir.vec.keys, by simp [hs, diskBackend, Disk.list, hopen], ?_⟩
  intro hl
  rw [hl]
  rw [hs]
  simp [diskBackend, Disk.statCount, hopen, hinv.cnt hopen, Dict.length_keys]

example : ((diskBackend exEnv).run (Disk.opened (emptyDir Nat Nat))
    [.init, .store "a" 1 (some 5), .delete "zz"]).2.inited = true := by decide

/-- **C06** (refuted) Two different ids can share a file: a store under one changes what the
other retrieves. -/
theorem C06_disk_isolation_refuted (env : DiskEnv Nat) (hslash : env.isalnum '/' = false)
    (hab : env.isalnum 'a' = true ∧ env.isalnum 'b' = true) :
    ∃ (s : Disk Nat Nat) (a b : Id), a ≠ b ∧
      (s.retrieve env a).1 = .ok (some (1, none)) ∧
      ((s.store env b 2 none).2.retrieve env a).1 = .ok (some (2, none)) := by
  have e1 : sanitize env "a/b" = "a_b" := by
    simp [sanitize, hslash, hab.1, hab.2]
  have e2 : sanitize env "a_b" = "a_b" := by
    simp [sanitize, hab.1, hab.2]
  refine ⟨⟨⟨[("a_b", .good 1)], []⟩, 1, true⟩, "a/b", "a_b", by decide, ?_, ?_⟩
  · simp [Disk.retrieve, e1, Dict.get?]
  · simp [Disk.retrieve, Disk.store, Disk.writeSteps, e1, e2, Dict.get?, runSteps, FsStep.run,
      Dict.set, Dict.mem]

example : exEnv.isalnum '/' = false ∧ exEnv.isalnum 'a' = true ∧ exEnv.isalnum 'b' = true := by
  decide

/-- **C06** (partial: only ids with different file names) A write under one id never changes
what another id retrieves, whatever the state of the files. -/
theorem C06_disk_isolation_partial (env : DiskEnv M) (s : Disk V M) (w : Disk.Write V M) (a : Id)
    (hne : sanitize env a ≠ sanitize env w.id) :
    ((w.exec env s).2.retrieve env a).1 = (s.retrieve env a).1 := by
  cases hi : s.inited
  · rw [Disk.exec_not_open s w hi]
  · have he := Disk.Write.exec_dir (env := env) s w hi
    refine Disk.retrieve_congr (by rw [he.2, hi]) ?_
    rw [he.1]
    exact runSteps_other _ _ (fun st hst => by rw [Disk.Write.steps_stem _ w st hst]; exact hne)

example : sanitize exEnv "a" ≠ sanitize exEnv (Disk.Write.store "b" 1 (some 2) : Disk.Write Nat Nat).id := by
  decide

/-! ## C07, C08: crashes inside a disk operation -/

/-- What a reader sees after the process died during call `w`, having completed the first
`k` file steps, and a new backend was opened on the directory. -/
def afterCrash (env : DiskEnv M) (s : Disk V M) (w : Disk.Write V M) (k : Nat) : Disk V M :=
  Disk.init (Disk.opened (runSteps s.dir ((w.steps env s.dir).take k)))

/-- **C07** A crash at any point of a store, update or delete leaves every id with another
file name as it was: same retrieve result, same presence in the listing. -/
theorem C07_crash_isolation (env : DiskEnv M) (hg : ∀ l, (env.glob l).Perm l) (s : Disk V M)
    (hopen : s.inited = true) (w : Disk.Write V M) (k : Nat) (a : Id)
    (hne : sanitize env a ≠ sanitize env w.id) :
    ((afterCrash env s w k).retrieve env a).1 = (s.retrieve env a).1 ∧
    (∃ l l', ((afterCrash env s w k).list env none).1 = .ok l ∧ (s.list env none).1 = .ok l' ∧
      ∀ x, x ≠ sanitize env w.id → (x ∈ l ↔ x ∈ l')) := by
  have hfiles : ∀ x, x ≠ sanitize env w.id →
      (afterCrash env s w k).dir.files x = s.dir.files x := by
    intro x hx
    exact runSteps_other _ _ (fun st hst => by
      rw [Disk.Write.steps_stem _ w st (List.mem_of_mem_take hst)]; exact hx)
  refine ⟨Disk.retrieve_congr hopen.symm (hfiles _ hne), _, env.glob s.dir.vec.keys, rfl, ?_, ?_⟩
  · simp [Disk.list, hopen]
  · intro x hx
    rw [(hg _).mem_iff, (hg _).mem_iff, Dict.mem_keys, Dict.mem_keys]
    have := congrArg Prod.fst (hfiles x hx)
    simp only [Dir.files] at this
    rw [this]

example : (∀ l, (exEnv.glob l).Perm l) ∧
    sanitize exEnv "a" ≠ sanitize exEnv (Disk.Write.delete "b" : Disk.Write Nat Nat).id :=
  ⟨fun _ => List.Perm.refl _, by decide⟩

/-- **C07** A crashed id can always be repaired: a later completed store makes it readable,
whatever the files contained. -/
theorem C07_store_repairs (env : DiskEnv M) (d : Dir V M) (hd : d.pkl.keys.Nodup) (id : Id)
    (hid : id ≠ "") (v : V) (m : Option M) (hp : ∀ x, m = some x → env.picklable x = true) :
    let r := (Disk.init (Disk.opened d)).store env id v m
    r.1 = .ok true ∧ (r.2.retrieve env id).1 = .ok (some (v, m)) := by
  intro r
  have hr : r = _ := Disk.store_ready (s := Disk.init (Disk.opened d)) rfl hid v m hp
  rw [hr]
  refine ⟨rfl, ?_⟩
  have hc := congrFun (Dir.content_written (d := d) hd (sanitize env id) v m) (sanitize env id)
  have hd' : (Disk.init (Disk.opened d)).dir = d := rfl
  rw [hd']
  simp only [Disk.retrieve, Dir.written, Dict.get?_set_self, Mem.get?_putMeta hd]
  cases m <;> simp

/-- **C08** Delete is atomic: after a crash at any point the id has its old value or none. -/
theorem C08_delete_atomic (env : DiskEnv M) (s : Disk V M) (hopen : s.inited = true)
    (hd : s.dir.vec.keys.Nodup) (id : Id) (k : Nat) :
    ((afterCrash env s (.delete id) k).retrieve env id).1 = (s.retrieve env id).1 ∨
    ((afterCrash env s (.delete id) k).retrieve env id).1 = .ok none := by
  rcases k with _ | k
  · left; exact Disk.retrieve_congr hopen.symm rfl
  cases hm : s.dir.vec.mem (sanitize env id)
  · right
    have h1 : (afterCrash env s (.delete id) (k+1)).dir.vec.get? (sanitize env id) = none := by
      have hnone : s.dir.vec.get? (sanitize env id) = none := by
        simpa [Dict.mem] using hm
      cases hp : s.dir.pkl.mem (sanitize env id) <;>
        simp [afterCrash, Disk.init, Disk.opened, Disk.Write.steps, Disk.deleteSteps, hm, hp,
          runSteps, FsStep.run, hnone]
    simp [Disk.retrieve, h1, afterCrash, Disk.init] at *
  · right
    have h1 : (afterCrash env s (.delete id) (k+1)).dir.vec.get? (sanitize env id) = none := by
      have hnone : (s.dir.vec.pop (sanitize env id)).get? (sanitize env id) = none := by
        rw [Dict.get?_pop hd]; simp
      cases hp : s.dir.pkl.mem (sanitize env id) <;> cases k <;>
        simp [afterCrash, Disk.init, Disk.opened, Disk.Write.steps, Disk.deleteSteps, hm, hp,
          runSteps, FsStep.run, hnone]
    simp [Disk.retrieve, afterCrash, Disk.init] at *
    simp [h1]

example : ((afterCrash exEnv ⟨⟨[("a", .good 1)], [("a", .good 2)]⟩, 1, true⟩ (.delete "a") 1).retrieve
    exEnv "a").1 = (.ok none : Except Err (Option (Nat × Option Nat))) := by decide

/-- **C08** (refuted for store) A crash during a store that replaces vector and metadata can
leave the new vector with the old metadata, and can leave the id unreadable. -/
theorem C08_store_atomic_refuted :
    ∃ (s : Disk Nat Nat) (w : Disk.Write Nat Nat) (k k' : Nat), s.inited = true ∧ s.dir.Ok ∧
      (s.retrieve exEnv "a").1 = .ok (some (1, some 10)) ∧
      ((w.exec exEnv s).2.retrieve exEnv "a").1 = .ok (some (2, some 20)) ∧
      ((afterCrash exEnv s w k).retrieve exEnv "a").1 = .ok (some (2, some 10)) ∧
      ((afterCrash exEnv s w k').retrieve exEnv "a").1 = .error .storage := by
  refine ⟨⟨⟨[("a", .good 1)], [("a", .good 10)]⟩, 1, true⟩, .store "a" 2 (some 20), 2, 1,
    rfl, ⟨by decide, by decide, ?_, ?_⟩, by decide, by decide, by decide, by decide⟩
  · intro x; simp only [Dict.get?]; split <;> simp
  · intro x _; simp only [Dict.get?]; split <;> simp

omit [ByteSize V] [ByteSize M] in
/-- **C08** (partial: the four possible outcomes instead of two) After a crash at any point of
a store or update of an existing id, the id shows its old pair, its new pair, the new vector
with the old metadata, or raises; nothing else. -/
theorem C08_store_outcomes_partial (env : DiskEnv M) (s : Disk V M) (hopen : s.inited = true)
    (hd : s.dir.Ok) (id : Id) (hid : id ≠ "") (v : V) (m : Option M)
    (hp : ∀ x, m = some x → env.picklable x = true) (v₀ : V) (m₀ : Option M)
    (hold : (s.retrieve env id).1 = .ok (some (v₀, m₀)))
    (w : Disk.Write V M) (hw : w = .store id v m ∨ w = .update id v m) (k : Nat) :
    let r := ((afterCrash env s w k).retrieve env id).1
    r = .ok (some (v₀, m₀)) ∨ r = .ok (some (v, m)) ∨ r = .ok (some (v, m₀)) ∨
      r = .error .storage := by
  have hold' := Disk.retrieve_ready (env := env) hopen hd id
  rw [hold'] at hold
  have hc : s.dir.content (sanitize env id) = some (v₀, m₀) := Except.ok.inj hold
  have hm : s.dir.vec.mem (sanitize env id) = true := by
    rw [← Dir.content_isSome hd, hc]; rfl
  have hsteps : w.steps env s.dir = (Disk.writeSteps env s.dir (sanitize env id) v m).1 := by
    rcases hw with rfl | rfl
    · simp [Disk.Write.steps, hid]
    · simp [Disk.Write.steps, hm]
  obtain ⟨hv, hpk⟩ : s.dir.vec.get? (sanitize env id) = some (.good v₀) ∧
      s.dir.pkl.get? (sanitize env id) = m₀.map .good := by
    simp only [Dir.content] at hc
    have hpg := hd.pgood _ hm
    cases hv : s.dir.vec.get? (sanitize env id) with
    | none => simp [hv] at hc
    | some fl =>
      cases fl with
      | torn => simp [hv] at hc
      | good x =>
        simp only [hv, Option.some.injEq, Prod.mk.injEq] at hc
        obtain ⟨rfl, hm0⟩ := hc
        refine ⟨rfl, ?_⟩
        cases hpp : s.dir.pkl.get? (sanitize env id) with
        | none => simp [hpp] at hm0; simp [← hm0]
        | some fl =>
          cases fl with
          | torn => exact absurd hpp hpg
          | good y => simp [hpp] at hm0; simp [← hm0]
  intro r
  have hr : r = ((Disk.init (Disk.opened (runSteps s.dir
      ((Disk.writeSteps env s.dir (sanitize env id) v m).1.take k)))).retrieve env id).1 := by
    simp only [r, afterCrash, hsteps]
  rw [hr]
  cases m with
  | some x =>
    have hx := hp x rfl
    rcases k with _ | _ | _ | _ | k <;>
      simp [Disk.writeSteps, hx, runSteps, FsStep.run, Disk.retrieve, Disk.init, Disk.opened,
        hv, hpk] <;> cases m₀ <;> simp
  | none =>
    cases hpm : s.dir.pkl.mem (sanitize env id)
    · have hp0 : m₀ = none := by
        cases m₀ with
        | none => rfl
        | some y => simp [Dict.mem, hpk] at hpm
      subst hp0
      rcases k with _ | _ | k <;>
        simp [Disk.writeSteps, hpm, runSteps, FsStep.run, Disk.retrieve, Disk.init, Disk.opened,
          hv, hpk]
    · rcases k with _ | _ | _ | k <;>
        simp [Disk.writeSteps, hpm, runSteps, FsStep.run, Disk.retrieve, Disk.init, Disk.opened,
          hv, hpk, Dict.get?_pop hd.pnd] <;> cases m₀ <;> simp

example : ∃ s : Disk Nat Nat, s.inited = true ∧ s.dir.Ok ∧
    (s.retrieve exEnv "a").1 = .ok (some (1, some 10)) := by
  refine ⟨⟨⟨[("a", .good 1)], [("a", .good 10)]⟩, 1, true⟩,
    rfl, ⟨by decide, by decide, ?_, ?_⟩, by decide⟩
  · intro x; simp only [Dict.get?]; split <;> simp
  · intro x _; simp only [Dict.get?]; split <;> simp

/-! ## C09 - C12: hybrid -/

/-- **C09** For ids with pairwise different file names, every history on a hybrid backend gets
exactly the replies of the abstract durable map, for every memory limit. -/
theorem C09_hybrid_is_map (env : DiskEnv M) (d : Dir V M) (hd : d.Ok) (limit : Int)
    (h : List (Call V M))
    (hp : ∀ c ∈ h, ∀ m ∈ c.metas, env.picklable m = true)
    (hinj : ∀ x ∈ h.flatMap Call.ids, ∀ y ∈ h.flatMap Call.ids,
      sanitize env x = sanitize env y → x = y) :
    ((hybBackend env).run (Hyb.opened d limit) h).1 =
      (Store.run false env.glob ⟨false, d.content, d.vec.keys⟩
        (h.map (Call.mapId (sanitize env)))).1 := by
  have R := hybRefines (V := V) env (fun x => x ∈ h.flatMap Call.ids)
    (fun x y hx hy => hinj x hx y hy)
  have := (hybRefines (V := V) env (fun x => x ∈ h.flatMap Call.ids)
    (fun x y hx hy => hinj x hx y hy)).run (Hyb.opened d limit) h
    ⟨Mem.Inv.empty false, ⟨hd, fun h => by cases h⟩, rfl, rfl, by
      intro x y hx; simp [Hyb.opened, Mem.new, Mem.at', Mem.contentOf] at hx⟩
    (fun c hc i hi => List.mem_flatMap.2 ⟨c, hc, hi⟩) hp
  exact congrArg Prod.fst this.2

/-- With a limit of one every store evicts; a retrieve promotes again. -/
example : ((hybBackend exEnv).run (Hyb.opened (emptyDir Nat Nat) 1)
    [.init, .store "a" 1 (some 5), .store "b" 2 none, .retrieve "a", .update "a" 7 none,
     .retrieve "a", .retrieve "b", .delete "a", .retrieve "a", .list none]).1 =
    [.done, .flag true, .flag true, .found (some (1, some 5)), .flag true,
     .found (some (7, none)), .found (some (2, none)), .flag true, .found none,
     .ids ["b"]] := by decide

/-- **C10** At any moment of any history over any id strings, at most `max memory_limit 1`
vectors are held in memory. -/
theorem C10_hybrid_memory_bound (env : DiskEnv M) (d : Dir V M) (limit : Int)
    (h : List (Call V M)) :
    let s := ((hybBackend env).run (Hyb.opened d limit) h).2
    ((s.mem.statCount.getD 0 : Nat) : Int) ≤ max limit 1 ∧
    (s.mem.vectors.length : Int) ≤ max limit 1 := by
  intro s
  have hb := Hyb.bounded_run (env := env) (Hyb.opened d limit) h
    ⟨Mem.Inv.empty false, rfl, by simp only [Hyb.opened, Mem.new, List.length_nil]; omega⟩
  have hlim : s.limit = limit := hb.2
  have hle := hb.1.le
  rw [show ((hybBackend env).run (Hyb.opened d limit) h).2 = s from rfl, hlim] at hle
  refine ⟨?_, hle⟩
  have hmem : s.mem.Inv := hb.1.mem
  unfold Mem.statCount
  split
  · simp only [Option.getD_some, hmem.cnt]; exact hle
  · simp only [Option.getD_none]; omega

example : (((hybBackend exEnv).run (Hyb.opened (emptyDir Nat Nat) (-3))
    [.init, .store "a" 1 none, .store "b" 2 none]).2).mem.statCount = some 1 := by decide

/-- **C11** After any history (ids with pairwise different file names), a new hybrid backend
on the same directory, with any memory limit, gives the same replies to every continuation;
the listing has exactly the file names that hold something. -/
theorem C11_hybrid_restart (env : DiskEnv M) (hg : ∀ l, (env.glob l).Perm l)
    (d : Dir V M) (hd : d.Ok) (limit limit' : Int) (h h' : List (Call V M))
    (hp : ∀ c ∈ h ++ h', ∀ m ∈ c.metas, env.picklable m = true)
    (hinj : ∀ x ∈ (h ++ h').flatMap Call.ids, ∀ y ∈ (h ++ h').flatMap Call.ids,
      sanitize env x = sanitize env y → x = y)
    (hopen : ((hybBackend env).run (Hyb.opened d limit) h).2.inited = true) :
    let s := ((hybBackend env).run (Hyb.opened d limit) h).2
    let s' := Hyb.init (Hyb.opened ((hybBackend env).close s).disk.dir limit')
    ((hybBackend env).run s h').1 = ((hybBackend env).run s' h').1 ∧
    ∃ l, ((hybBackend env).list s none).1 = .ok l ∧ l.Nodup ∧
      ∀ x, x ∈ l ↔ (s.disk.dir.content x).isSome = true := by
  intro s s'
  let P : Id → Prop := fun x => x ∈ (h ++ h').flatMap Call.ids
  let R := hybRefines (V := V) env P (fun x y hx hy => hinj x hx y hy)
  have h1 := R.run (Hyb.opened d limit) h
    ⟨Mem.Inv.empty false, ⟨hd, fun h => by cases h⟩, rfl, rfl, by
      intro x y hx; simp [Hyb.opened, Mem.new, Mem.at', Mem.contentOf] at hx⟩
    (fun c hc i hi => List.mem_flatMap.2 ⟨c, by simp [hc], hi⟩)
    (fun c hc => hp c (by simp [hc]))
  have hinv : Hyb.Inv env P s := h1.1
  have hopen : s.inited = true := hopen
  have hinv' : Hyb.Inv env P s' :=
    ⟨Mem.Inv.empty true, ⟨hinv.disk.ok, fun _ => rfl⟩, rfl, rfl, by
      intro x y hx
      simp [s', Hyb.init, Hyb.opened, Mem.init, Mem.at', Mem.contentOf] at hx⟩
  have habs : R.abs s' = R.abs s := by
    show (⟨true, s.disk.dir.content, s.disk.dir.vec.keys⟩ : Store V M) =
      ⟨s.inited, s.disk.dir.content, s.disk.dir.vec.keys⟩
    rw [hopen]
  have hids : ∀ c ∈ h', ∀ i ∈ c.ids, P i :=
    fun c hc i hi => List.mem_flatMap.2 ⟨c, by simp [hc], hi⟩
  have hpk : ∀ c ∈ h', ∀ m ∈ c.metas, env.picklable m = true :=
    fun c hc => hp c (by simp [hc])
  have r1 := R.run s h' hinv hids hpk
  have r2 := R.run s' h' hinv' hids hpk
  refine ⟨?_, env.glob s.disk.dir.vec.keys, ?_, ?_, ?_⟩
  · have e1 := congrArg Prod.fst r1.2
    have e2 := congrArg Prod.fst r2.2
    rw [habs] at e2
    exact e1.trans e2.symm
  · have hdi := hinv.di
    rw [hopen] at hdi
    simp [hybBackend, Hyb.list, hopen, Disk.list, hdi]
  · exact ((hg _).nodup_iff).2 hinv.disk.ok.vnd
  · intro x
    rw [(hg _).mem_iff, Dict.mem_keys, Dir.content_isSome hinv.disk.ok, Dict.mem_eq]

example : ((hybBackend exEnv).run (Hyb.opened (emptyDir Nat Nat) 2)
    [.init, .store "a" 1 none, .store "b" 2 none, .store "c" 3 (some 1)]).2.inited = true := by
  decide

/-- **C12** (refuted) With ids that share a file name, hybrid and disk storage differ: after
deleting the alias the hybrid backend still returns the deleted vector. -/
theorem C12_hybrid_eq_disk_refuted :
    ∃ h : List (Call Nat Nat),
      ((hybBackend exEnv).run (Hyb.opened (emptyDir Nat Nat) 10) h).1 ≠
        ((diskBackend exEnv).run (Disk.opened (emptyDir Nat Nat)) h).1 ∧
      ((hybBackend exEnv).run (Hyb.opened (emptyDir Nat Nat) 10) h).1.getLast? =
        some (.found (some (1, none))) ∧
      ((diskBackend exEnv).run (Disk.opened (emptyDir Nat Nat)) h).1.getLast? =
        some (.found none) :=
  ⟨[.init, .store "a/b" 1 none, .delete "a_b", .retrieve "a/b"], by decide, by decide,
    by decide⟩

/-- **C12** (partial: ids with pairwise different file names) Hybrid storage answers every
history exactly like a plain disk backend. -/
theorem C12_hybrid_eq_disk_partial (env : DiskEnv M) (d : Dir V M) (hd : d.Ok) (limit : Int)
    (h : List (Call V M))
    (hp : ∀ c ∈ h, ∀ m ∈ c.metas, env.picklable m = true)
    (hinj : ∀ x ∈ h.flatMap Call.ids, ∀ y ∈ h.flatMap Call.ids,
      sanitize env x = sanitize env y → x = y) :
    ((hybBackend env).run (Hyb.opened d limit) h).1 =
      ((diskBackend env).run (Disk.opened d) h).1 := by
  rw [C09_hybrid_is_map env d hd limit h hp hinj, C04_disk_is_map env d hd h hp]

example : ∀ x ∈ ([.init, .store "a/b" 1 none, .store "c" 2 none, .retrieve "a/b"] :
    List (Call Nat Nat)).flatMap Call.ids,
    ∀ y ∈ ([.init, .store "a/b" 1 none, .store "c" 2 none, .retrieve "a/b"] :
      List (Call Nat Nat)).flatMap Call.ids, sanitize exEnv x = sanitize exEnv y → x = y := by
  decide

/-! ## C81: memory accounting -/

/-- Bytes an entry of the abstract map stands for. -/
def entryBytes : Option (V × Option M) → Nat
  | none => 0
  | some (v, none) => ByteSize.bytes v
  | some (v, some m) => ByteSize.bytes v + ByteSize.bytes m

theorem sum_meta (ms : Dict Id M) (hm : ms.keys.Nodup) (K : List Id) (hK : K.Nodup)
    (hsub : ∀ k ∈ ms.keys, k ∈ K) :
    (K.map fun k => match ms.get? k with | none => 0 | some m => ByteSize.bytes m).sum =
      (ms.vals.map ByteSize.bytes).sum := by
  induction ms generalizing K with
  | nil => simp [Dict.vals]
  | cons e ms ih =>
    obtain ⟨k, a⟩ := e
    simp only [Dict.keys, List.map_cons, List.nodup_cons] at hm
    have hk : k ∈ K := hsub k (by simp [Dict.keys])
    have hperm := List.perm_cons_erase hk
    rw [List.Perm.sum_nat (hperm.map _)]
    simp only [List.map_cons, List.sum_cons, Dict.get?, if_true, Dict.vals]
    congr 1
    have hnot : k ∉ K.erase k := hK.not_mem_erase
    rw [← Dict.vals, ← ih hm.2 (K.erase k) (hK.erase k) ?_]
    · congr 1
      apply List.map_congr_left
      intro x hx
      have : k ≠ x := by rintro rfl; exact hnot hx
      rw [if_neg this]
    · intro x hx
      have hne : x ≠ k := by rintro rfl; exact hm.1 hx
      rw [List.mem_erase_of_ne hne]
      exact hsub x (by simp only [Dict.keys, List.map_cons, List.mem_cons]; right; exact hx)

/-- **C81** After any history the reported memory usage is the sum, over the ids listed, of the
sizes of their current vector and metadata. -/
theorem C81_memory_usage (h : List (Call V M))
    (hopen : ((memBackend V M).run Mem.new h).2.inited = true) :
    let s := ((memBackend V M).run Mem.new h).2
    ∃ l, (s.list none).1 = .ok l ∧
      s.statUsage = some ((l.map fun id =>
        match (s.retrieve id).1 with | .ok r => entryBytes r | .error _ => 0).sum) := by
  intro s
  have hinv : s.Inv :=
    (memRefines.run (Mem.new : Mem V M) h (Mem.Inv.empty false) (by simp) (by simp)).1
  have hopen : s.inited = true := hopen
  refine ⟨s.vectors.keys, by simp [Mem.list, hopen], ?_⟩
  simp only [Mem.statUsage, hopen, if_true, hinv.use, Mem.usageOf]
  congr 1
  rw [← sum_meta s.metadata hinv.mnd s.vectors.keys hinv.vnd hinv.sub]
  have hv : (s.vectors.vals.map ByteSize.bytes).sum =
      (s.vectors.keys.map fun k => match s.vectors.get? k with
        | none => 0 | some v => ByteSize.bytes v).sum :=
    (sum_meta s.vectors hinv.vnd s.vectors.keys hinv.vnd (fun _ h => h)).symm
  rw [hv]
  have hall : ∀ k ∈ s.vectors.keys, ∃ v, s.vectors.get? k = some v := by
    intro k hk; rw [Dict.mem_keys] at hk; exact Option.isSome_iff_exists.1 hk
  clear hv
  generalize s.vectors.keys = K at hall
  induction K with
  | nil => rfl
  | cons k K ih =>
    obtain ⟨v, hv⟩ := hall k (by simp)
    have ih := ih (fun x hx => hall x (by simp [hx]))
    have hk : (s.retrieve k).1 = .ok (some (v, s.metadata.get? k)) := by
      simp [Mem.retrieve_ready hopen, Mem.contentOf, hv]
    simp only [List.map_cons, List.sum_cons, ← ih, hk, hv]
    cases s.metadata.get? k with
    | none => simp only [entryBytes]; omega
    | some m =>
      show _ = (ByteSize.bytes v + ByteSize.bytes m) + _
      simp only []
      omega

example : (((memBackend Nat Nat).run Mem.new
    [.init, .store "a" 10 (some 5), .store "b" 7 none, .update "a" 1 none]).2).statUsage =
    some 8 := by decide

end Valori.Props
