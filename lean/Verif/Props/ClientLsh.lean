import Verif.Model.ClientLsh
import Verif.Model.Backend
import Verif.Model.Memory
import Verif.Props.Lsh
import Verif.Props.IndexContract
import Verif.Props.Storage

/-!
# Property C196: a client over an LSH index is a database for one session
-/

namespace Valori.Props
open Valori Valori.Spec Valori.Lsh

variable {σ V S M : Type} [LinearOrder S]

/-- What the caller sees of an answer. -/
def seenSs : Client.Answer (LsReply S M) → SsAns S M
  | .unit (.ok _) => .done
  | .unit (.error _) => .other
  | .reply (.ok (.ids l)) => .ids l
  | .reply (.ok (.flag b)) => .flag b
  | .reply (.ok (.hits l)) => .hits l
  | .reply (.ok (.count n)) => .count n
  | .reply (.error .valori) => .refused
  | .reply (.error _) => .raised

/-- A fresh, closed client over a fresh index; `new` leaves the fields like this. -/
def lshClient (s : σ) : Client (Lsh V M × σ) := ⟨(⟨[], none, [], [], 0, false⟩, s), false⟩

/-- The client holds what the session holds. -/
def LshFollows (env : LshEnv V S M) (x : Session V M) (c : Client (Lsh V M × σ)) : Prop :=
  c.inited = x.isOpen ∧
  (x.isOpen = true → Inv env x.slots c.w.1) ∧
  (x.isOpen = false → x.slots.slots = [] ∧ c.w.1.dimension = x.slots.dim ∧ c.w.1.vectors = [] ∧
    c.w.1.metadata = [] ∧ c.w.1.nextId = 0)

omit [LinearOrder S] in
theorem lsh_count {env : LshEnv V S M} {a : Slots V M} {f : Lsh V M} (h : Inv env a f) :
    statCount f = a.count := by
  simp only [statCount, Slots.count, h.vec, List.filter_map, List.length_map]
  congr 2
  funext x
  cases x <;> rfl

omit [LinearOrder S] in
theorem lsh_refuses {env : LshEnv V S M} {a : Slots V M} {f : Lsh V M} (h : Inv env a f)
    (nd cols : Nat) (rows : List V) (mds : Option (List (Option M)))
    (ha : a.accepts (storable env) nd cols rows mds = false) (hr : rows ≠ []) :
    ∃ e, (Lsh.insert env nd cols rows mds f).1 = .error e ∧ e ≠ .valori := by
  obtain ⟨h1, h2, h3, h4⟩ := C140_lsh_insert_errors env f h.inited nd cols rows mds
  by_cases e1 : Slots.aligned rows mds = true
  · by_cases e2 : nd < 2
    · exact ⟨_, congrArg Prod.fst (h2 e1 e2), by simp⟩
    · by_cases e3 : ∀ d, f.dimension = some d → d = cols
      · have : (∃ v ∈ rows, nd ≠ 2 ∨ storable env cols v = false) := by
          by_contra hno
          have hall : ∀ v ∈ rows, nd = 2 ∧ storable env cols v = true := by
            intro v hv
            constructor
            · by_contra hne; exact hno ⟨v, hv, .inl hne⟩
            · by_contra hne; exact hno ⟨v, hv, .inr (by simpa using hne)⟩
          obtain ⟨v, hv⟩ := List.exists_mem_of_ne_nil rows hr
          have hnd := (hall v hv).1
          have hdim : (a.dim.getD cols == cols) = true := by
            rw [h.dim] at e3
            cases hd : a.dim with
            | none => simp
            | some d => simp [e3 d hd]
          simp only [Slots.accepts, e1, hnd, hdim, Bool.and_true, Bool.true_and, BEq.rfl,
            List.all_eq_false] at ha
          obtain ⟨w, hw, hw'⟩ := ha
          exact hw' (hall w hw).2
        exact ⟨_, h4 e1 (by omega) e3 this, by simp⟩
      · push Not at e3
        obtain ⟨d, hd, hne⟩ := e3
        exact ⟨_, congrArg Prod.fst (h3 e1 (by omega) d hd hne), by simp⟩
  · exact ⟨_, congrArg Prod.fst (h1 (by simpa using e1)), by simp⟩

/-- A search in any represented state: sound, and vectors equal to the query are considered. -/
theorem lsh_answer {env : LshEnv V S M} (hc : env.hashSize ≤ env.numProj) (ht : 0 < env.numTables)
    (hset : SetLike env.setOrder) (hsim : ∀ q v, ∃ s, env.sim q v = .ok s) {a : Slots V M}
    {f : Lsh V M} (hI : Inv env a f) (q : V) (k : Int) :
    (a.dim = none → Lsh.search env q k none f = .ok []) ∧
    (∀ d, a.dim = some d → storable env d q = false →
      Lsh.search env q k none f = .error .validation) ∧
    (∀ d, a.dim = some d → storable env d q = true →
      ∃ l, Lsh.search env q k none f = .ok l ∧
        ∀ n : Nat, k = n → Slots.IsAnswer (env.sim q) (fun v => v = q) env.threshold n a l) := by
  refine ⟨?_, ?_, ?_⟩
  · intro hd
    simp [Lsh.search, hI.inited, hI.dim, hd]
  · intro d hd hs
    have hv : Lsh.valid env d q = false := hs
    simp [Lsh.search, hI.inited, hI.dim, hd, hv]
  · intro d hd hs
    have hv : Lsh.valid env d q = true := hs
    have hdq : a.dim = some (env.dim q) := by rw [hd, valid_dim hv]
    have hex : ∃ l, Lsh.search env q k none f = .ok l := by
      simp only [Lsh.search, hI.inited]
      rw [if_neg (by simp), hI.dim, hd]
      simp only
      rw [if_neg (by simp [hv]), hI.hash hc hdq, hd]
      simp only [Option.getD_some, Option.getD_none]
      obtain ⟨l, hl⟩ := hI.score_total q env.threshold (env.setOrder
        (if (exactCands f.tables
          ((List.range f.tables.length).map fun t => codeOf env d t q)).isEmpty = true
          then relaxedCands f.tables
            ((List.range f.tables.length).map fun t => codeOf env d t q)
          else exactCands f.tables
            ((List.range f.tables.length).map fun t => codeOf env d t q))) (by
        intro i hi
        rw [(hset _).2] at hi
        split at hi
        · obtain ⟨n, v, m, e1, e2, -⟩ := (hI.relaxed hd q i).1 hi
          exact ⟨n, v, m, e1, e2, hsim q v⟩
        · obtain ⟨n, v, m, e1, e2, -⟩ := (hI.exact hd q i).1 hi
          exact ⟨n, v, m, e1, e2, hsim q v⟩)
      rw [hl]
      exact ⟨_, rfl⟩
    obtain ⟨l, hl⟩ := hex
    refine ⟨l, hl, ?_⟩
    rintro n rfl
    have hA := lsh_search hc hset hI q n none hl
    refine ⟨hA.length, hA.nodup, hA.sorted, hA.sound, ?_⟩
    rintro n' v m s h1 rfl h3 h4
    refine hA.best n' v m s h1 (.inl ?_) h3 h4
    exact (sameBucket_iff hc hI hdq rfl rfl).2 ⟨0, ht, rfl⟩

section
variable {env : LshEnv V S M} {B : Backend σ V M}

theorem lshFollows_step (hc : env.hashSize ≤ env.numProj) (ht : 0 < env.numTables)
    (hset : SetLike env.setOrder) (hsim : ∀ q v, ∃ s, env.sim q v = .ok s)
    {x : Session V M} {c : Client (Lsh V M × σ)} (h : LshFollows env x c) (y : ClCall (SsReq V M))
    (hy : match y with
      | .request q => x.isOpen = true → Session.ReqOk env.parse env.dim x.slots q
      | .init => x.isOpen = false
      | .close => True) :
    Session.Right env.parse (storable env) env.sim env.threshold x y
      (seenSs (Client.ask (lshParts env B) c y).1) ∧
    LshFollows env (Session.next env.parse (storable env) env.emptyMd x y)
      (Client.ask (lshParts env B) c y).2 := by
  obtain ⟨⟨f, s⟩, b⟩ := c
  obtain ⟨o, a⟩ := x
  obtain ⟨h1, h2, h3⟩ := h
  simp only at h1 h2 h3
  subst h1
  cases y with
  | init =>
    have hb : b = false := hy
    subst hb
    obtain ⟨c1, c2, c3, c4, c5⟩ := h3 rfl
    refine ⟨rfl, rfl, fun _ => ?_, fun h => by cases h⟩
    have e : a = ⟨a.dim, []⟩ := by cases a; simp_all
    show Inv env a (Lsh.init env f)
    refine ⟨rfl, c2, ?_, ?_, ?_, by simp [Lsh.init], ?_, ?_⟩
    · simp [Lsh.init, c3, c1]
    · simp [Lsh.init, c4, c1]
    · simp [Lsh.init, c5, c1]
    · intro n v m hh; rw [e] at hh; simp [Slots.at?] at hh
    · have e' : cur a = fun _ => none := by funext n; rw [e]; simp [cur, Slots.at?]
      rw [e']; exact TablesOk.empty _ _
  | close =>
    refine ⟨rfl, rfl, (fun h => by cases h), fun _ => ⟨rfl, ?_, rfl, rfl, rfl⟩⟩
    show f.dimension = a.dim
    cases b with
    | false => exact (h3 rfl).2.1
    | true => exact (h2 rfl).dim
  | request q =>
    cases b with
    | false => exact ⟨rfl, rfl, h2, h3⟩
    | true =>
      have hI := h2 rfl
      have hq := hy rfl
      have open_ : ∀ (r : Client.Answer (LsReply S M)) (a' : Slots V M) (f' : Lsh V M),
          Inv env a' f' → LshFollows env ⟨true, a'⟩ (⟨(f', s), true⟩ : Client (Lsh V M × σ)) :=
        fun _ a' f' hh => ⟨rfl, fun _ => hh, fun h => by cases h⟩
      cases q with
      | insert nd cols rows mds =>
        obtain ⟨k1, k2, -⟩ := hI.insert hc nd cols rows mds hq
        have k3 := lsh_refuses hI nd cols rows mds
        have hask : Client.ask (lshParts env B) ⟨(f, s), true⟩ (.request (.insert nd cols rows mds)) =
            (.reply (match (Lsh.insert env nd cols rows mds f).1 with
              | .ok l => .ok (.ids l)
              | .error e => .error e), ⟨((Lsh.insert env nd cols rows mds f).2, s), true⟩) := by
          simp only [Client.ask, Client.request, lshParts, lsFwd]
          rcases Lsh.insert env nd cols rows mds f with ⟨_ | _, _⟩ <;> rfl
        rw [hask]
        refine ⟨?_, open_ (.unit (.ok ())) _ _ k1⟩
        show if a.accepts (storable env) nd cols rows mds = true then _ else _
        split
        · rename_i hacc
          rw [k2 hacc]; rfl
        · rename_i hacc
          intro hr
          obtain ⟨e, he, hne⟩ := k3 (by simpa using hacc) hr
          rw [he]
          cases e <;> first | rfl | exact absurd rfl hne
      | delete ids =>
        obtain ⟨k1, k2⟩ := hI.delete hc ids hq
        have hask : Client.ask (lshParts env B) ⟨(f, s), true⟩ (.request (.delete ids)) =
            (.reply (.ok (.flag (Lsh.delete env ids f).1)), ⟨((Lsh.delete env ids f).2, s), true⟩) := by
          simp only [Client.ask, Client.request, lshParts]
          rfl
        rw [hask, k1]
        exact ⟨rfl, open_ (.unit (.ok ())) _ _ k2⟩
      | update id v m =>
        obtain ⟨k1, k2, k3⟩ := hI.update hc id v m hq.1 hq.2
        have hask : Client.ask (lshParts env B) ⟨(f, s), true⟩ (.request (.update id v m)) =
            (.reply (match (Lsh.update env id v m f).1 with
              | .ok l => .ok (.flag l)
              | .error e => .error e), ⟨((Lsh.update env id v m f).2, s), true⟩) := by
          simp only [Client.ask, Client.request, lshParts, lsFwd]
          rcases Lsh.update env id v m f with ⟨_ | _, _⟩ <;> rfl
        rw [hask]
        refine ⟨?_, open_ (.unit (.ok ())) _ _ k1⟩
        show _ = SsAns.flag (Session.names env.parse a id)
        cases hp : env.parse id with
        | none =>
          rw [k3 (by intro n hn; rw [hp] at hn; cases hn)]
          simp [seenSs, Session.names, hp]
        | some i =>
          obtain ⟨n, rfl⟩ : ∃ n : Nat, i = n := ⟨i.toNat, by have := hq.1 i hp; omega⟩
          have hn : Session.names env.parse a id = (a.at? n).isSome := by
            simp only [Session.names, hp]
          rw [hn]
          cases hat : a.at? n with
          | none =>
            rw [k3 (by
              intro n' hn'
              rw [hp] at hn'
              have : n = n' := by simpa using hn'
              subst this; exact hat)]
            rfl
          | some y => rw [k2 ⟨n, hp, by rw [hat]; rfl⟩]; rfl
      | search q k =>
        obtain ⟨k1, k2, k3⟩ := lsh_answer hc ht hset hsim hI q k
        have hask : Client.ask (lshParts env B) ⟨(f, s), true⟩ (.request (.search q k)) =
            (.reply (match Lsh.search env q k none f with
              | .ok l => .ok (.hits l)
              | .error e => .error e), ⟨(f, s), true⟩) := by
          simp only [Client.ask, Client.request, lshParts, lsFwd]
          rcases Lsh.search env q k none f with _ | _ <;> rfl
        rw [hask]
        refine ⟨?_, open_ (.unit (.ok ())) _ _ hI⟩
        show match a.dim with
          | none => _
          | some d => _
        cases hd : a.dim with
        | none => rw [k1 hd]; rfl
        | some d =>
          dsimp only
          split
          · rename_i hs
            obtain ⟨l, hl, hl'⟩ := k3 d hd hs
            rw [hl]
            exact ⟨l, rfl, hl'⟩
          · rename_i hs
            rw [k2 d hd (by simpa using hs)]; rfl
      | stats =>
        refine ⟨?_, open_ (.unit (.ok ())) _ _ hI⟩
        show SsAns.count (statCount f) = SsAns.count a.count
        rw [lsh_count hI]

theorem lshFollows_all (hc : env.hashSize ≤ env.numProj) (ht : 0 < env.numTables)
    (hset : SetLike env.setOrder) (hsim : ∀ q v, ∃ s, env.sim q v = .ok s)
    (h : List (ClCall (SsReq V M))) : ∀ {x : Session V M} {c : Client (Lsh V M × σ)},
    LshFollows env x c →
    Session.HistOk env.parse (storable env) env.emptyMd env.dim x h →
    Session.AllRight env.parse (storable env) env.emptyMd env.sim env.threshold x h
      ((Client.converse (lshParts env B) c h).1.map seenSs) := by
  induction h with
  | nil => intro x c _ _; trivial
  | cons y h ih =>
    intro x c hf hh
    obtain ⟨k1, k2⟩ := lshFollows_step (B := B) hc ht hset hsim hf y hh.1
    exact ⟨k1, ih k2 hh.2⟩

/-- **C196.**  A client over an LSH index and any storage whatever is a database for one session: in
every history of openings, closings and requests (each opening on a closed client) all answers are those
of the abstract session.  It does not depend on the storage. -/
theorem C196_lsh_client_partial (hc : env.hashSize ≤ env.numProj) (ht : 0 < env.numTables)
    (hset : SetLike env.setOrder) (hsim : ∀ q v, ∃ s, env.sim q v = .ok s) (s : σ)
    (h : List (ClCall (SsReq V M)))
    (hh : Session.HistOk env.parse (storable env) env.emptyMd env.dim ⟨false, ⟨none, []⟩⟩ h) :
    Session.AllRight env.parse (storable env) env.emptyMd env.sim env.threshold ⟨false, ⟨none, []⟩⟩ h
      ((Client.converse (lshParts env B) (lshClient s) h).1.map seenSs) :=
  lshFollows_all hc ht hset hsim h ⟨rfl, (fun h => by cases h), fun _ => ⟨rfl, rfl, rfl, rfl, rfl⟩⟩ hh

/-- What opening and closing alone do to a storage. -/
def openClose (B : Backend σ V M) (s : σ) : List (ClCall (SsReq V M)) → σ
  | [] => s
  | .init :: h => openClose B (B.init s) h
  | .close :: h => openClose B (B.close s) h
  | .request _ :: h => openClose B s h

/-- **C196.**  Whatever is asked of the client, its storage is only ever opened and closed: no request
stores, reads or deletes anything there. -/
theorem C196_storage_unused (h : List (ClCall (SsReq V M))) : ∀ c : Client (Lsh V M × σ),
    (Client.converse (lshParts env B) c h).2.w.2 = openClose B c.w.2 h := by
  induction h with
  | nil => intro c; rfl
  | cons y h ih =>
    intro c
    have key : (Client.converse (lshParts env B) c (y :: h)).2 =
        (Client.converse (lshParts env B) (Client.ask (lshParts env B) c y).2 h).2 := rfl
    rw [key, ih]
    cases y with
    | init => rfl
    | close => rfl
    | request q =>
      show openClose B _ h = openClose B c.w.2 h
      congr 1
      simp only [Client.ask, Client.request]
      split
      · rfl
      · cases q with
        | insert nd cols rows mds =>
          simp only [lshParts, lsFwd]
          rcases Lsh.insert env nd cols rows mds c.w.1 with ⟨_ | _, _⟩ <;> rfl
        | delete ids => rfl
        | update id v m =>
          simp only [lshParts, lsFwd]
          rcases Lsh.update env id v m c.w.1 with ⟨_ | _, _⟩ <;> rfl
        | search q k =>
          simp only [lshParts, lsFwd]
          rcases Lsh.search env q k none c.w.1 with _ | _ <;> rfl
        | stats => rfl

omit [LinearOrder S] in
theorem exactCands_replicate (n : Nat) : ∀ cs : List Code,
    exactCands (List.replicate n []) cs = [] := by
  induction n with
  | zero => intro cs; cases cs <;> rfl
  | succ n ih =>
    intro cs
    cases cs with
    | nil => rfl
    | cons c cs => simp [List.replicate_succ, exactCands, ih, Dict.get?]

omit [LinearOrder S] in
theorem relaxedCands_replicate (n : Nat) : ∀ cs : List Code,
    relaxedCands (List.replicate n []) cs = [] := by
  induction n with
  | zero => intro cs; cases cs <;> rfl
  | succ n ih =>
    intro cs
    cases cs with
    | nil => rfl
    | cons c cs => simp [List.replicate_succ, relaxedCands, ih]

/-- Searching an index whose tables are empty. -/
theorem search_empty_tables (hc : env.hashSize ≤ env.numProj) (hset : SetLike env.setOrder)
    {f : Lsh V M} (hi : f.inited = true) (htab : f.tables = List.replicate env.numTables []) (q : V)
    (k : Int) (hq : ∀ d, f.dimension = some d → storable env d q = true) :
    Lsh.search env q k none f = .ok [] := by
  simp only [Lsh.search, hi]
  rw [if_neg (by simp)]
  cases hd : f.dimension with
  | none => rfl
  | some d =>
    have hv : Lsh.valid env d q = true := hq d hd
    simp only
    rw [if_neg (by simp [hv]), hashVector_ok hc (by rw [hd, valid_dim hv])]
    have hnil : env.setOrder [] = [] := by
      rw [List.eq_nil_iff_forall_not_mem]
      intro i h
      have := ((hset []).2 i).1 h
      simp at this
    simp only [htab, exactCands_replicate, relaxedCands_replicate, List.isEmpty_nil, if_pos, hnil,
      Lsh.score, sortDesc, List.insertionSort_nil]
    simp [sliceTo]

/-- **C196, refuted:** a database on disk or in hybrid storage keeps its vectors over close and
initialize.  With an LSH index every search that is not refused returns nothing afterwards, for every
storage, whatever was inserted before. -/
theorem C196_durable_refuted (hc : env.hashSize ≤ env.numProj) (hset : SetLike env.setOrder)
    (c : Client (Lsh V M × σ)) (q : V) (k : Int)
    (hq : ∀ d, c.w.1.dimension = some d → storable env d q = true) :
    (Client.converse (lshParts env B) c [.close, .init, .request (.search q k), .request .stats]).1 =
      [.unit (.ok ()), .unit (.ok ()), .reply (.ok (.hits [])), .reply (.ok (.count 0))] := by
  have e : Lsh.search env q k none (Lsh.init env (Lsh.close env c.w.1)) = .ok [] :=
    search_empty_tables hc hset rfl rfl q k hq
  have e' : (Client.converse (lshParts env B) c
      [.close, .init, .request (.search q k), .request .stats]).1 =
      [.unit (.ok ()), .unit (.ok ()), .reply (match
        Lsh.search env q k none (Lsh.init env (Lsh.close env c.w.1)) with
          | .ok l => .ok (.hits l)
          | .error e => .error e), .reply (.ok (.count 0))] := by
    simp only [Client.converse, Client.ask, Client.request, Client.close, Client.init, Client.steps,
      lshParts, lsFwd]
    rcases Lsh.search env q k none (Lsh.init env (Lsh.close env c.w.1)) with _ | _ <;> rfl
  rw [e', e]

/-- **C196, refuted:** opening an open client again does no harm.  The tables are made anew and the
vectors stay: searches return nothing although the count is what it was. -/
theorem C196_reopen_refuted (hc : env.hashSize ≤ env.numProj) (hset : SetLike env.setOrder)
    (c : Client (Lsh V M × σ)) (q : V) (k : Int)
    (hq : ∀ d, c.w.1.dimension = some d → storable env d q = true) :
    (Client.converse (lshParts env B) c [.init, .request (.search q k), .request .stats]).1 =
      [.unit (.ok ()), .reply (.ok (.hits [])), .reply (.ok (.count (statCount c.w.1)))] := by
  have e : Lsh.search env q k none (Lsh.init env c.w.1) = .ok [] :=
    search_empty_tables hc hset rfl rfl q k hq
  have e' : (Client.converse (lshParts env B) c [.init, .request (.search q k), .request .stats]).1 =
      [.unit (.ok ()), .reply (match Lsh.search env q k none (Lsh.init env c.w.1) with
          | .ok l => .ok (.hits l)
          | .error e => .error e), .reply (.ok (.count (statCount c.w.1)))] := by
    simp only [Client.converse, Client.ask, Client.request, Client.init, Client.steps, lshParts, lsFwd]
    rcases Lsh.search env q k none (Lsh.init env c.w.1) with _ | _ <;> rfl
  rw [e', e]

end

instance exRowSize : ByteSize (List Int) := ⟨List.length⟩

/-- A session, a second one, and a refused call between them. -/
def exSession : List (ClCall (SsReq (List Int) Nat)) :=
  [.init, .request (.insert 2 2 [[1, 2], [-3, 1]] (some [some 7, some 8])),
   .request (.search [1, 2] 5), .request (.update "1" [1, 1] none), .request (.delete ["0"]),
   .request (.search [1, 2] 5), .request .stats, .close, .request .stats, .init,
   .request (.insert 2 2 [[4, 4]] none), .request (.insert 2 3 [[4, 4, 4]] none)]

example : Session.HistOk (exLshEnv 1 2).parse (storable (exLshEnv 1 2)) 0 (exLshEnv 1 2).dim
    ⟨false, ⟨none, []⟩⟩ exSession := by
  refine ⟨rfl, fun _ => ?_, fun _ => trivial, fun _ => ⟨?_, ?_⟩, fun _ => ?_, fun _ => trivial,
    fun _ => trivial, trivial, fun _ => trivial, rfl, fun _ => ?_, fun _ => ?_, trivial⟩
  · intro l hl; cases hl; decide
  · intro i hi; simp [exLshEnv] at hi; omega
  · intro d hd
    have : (some 2 : Option Nat) = some d := hd
    cases this; rfl
  · intro s hs i hi
    simp at hs
    subst hs; simp [exLshEnv] at hi; omega
  · intro l hl; cases hl
  · intro l hl; cases hl

example :
    (Client.converse (lshParts (exLshEnv 1 2) (memBackend (List Int) Nat)) (lshClient Mem.new)
      exSession).1.map seenSs =
      [.done, .ids ["0", "1"], .hits [⟨0, 5, some 7⟩], .flag true, .flag true,
       .hits [⟨1, 3, some 8⟩], .count 1, .done, .refused, .done, .ids ["0"], .raised] := by decide

example : (∀ q v, ∃ s, (exLshEnv 1 2).sim q v = .ok s) ∧ 0 < (exLshEnv 1 2).numTables ∧
    (∀ d, (some 2 : Option Nat) = some d → storable (exLshEnv 1 2) d [1, 2] = true) :=
  ⟨fun _ _ => ⟨_, rfl⟩, by decide, by rintro d ⟨⟩; decide⟩

/-- Inserting, opening again and searching for the same vector. -/
example :
    (Client.converse (lshParts (exLshEnv 1 2) (memBackend (List Int) Nat)) (lshClient Mem.new)
      [.init, .request (.insert 2 2 [[1, 2]] none), .request (.search [1, 2] 5), .init,
       .request (.search [1, 2] 5), .request .stats]).1.map seenSs =
      [.done, .ids ["0"], .hits [⟨0, 5, some 0⟩], .done, .hits [], .count 1] := by decide

end Valori.Props
