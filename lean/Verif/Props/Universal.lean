import Verif.Props.Storage
import Verif.Props.Saq
import Verif.Props.Product
import Verif.Props.QuantStats

/-!
# Exact conditions for C06, C08, C12, C88, C90

Where a property was refuted by one witness, these theorems say exactly when it fails.
-/

namespace Valori.Props
open Valori Valori.Spec

/-! ## Storage -/

section storage
variable {V M : Type} [ByteSize V] [ByteSize M]

omit [ByteSize V] [ByteSize M] in
/-- Writing, then reading the file. -/
theorem store_reads (env : DiskEnv M) (s : Disk V M) (hopen : s.inited = true)
    (x y : Id) (hy : y ≠ "") (hxy : sanitize env x = sanitize env y) (v : V) (m : M)
    (hm : env.picklable m = true) :
    (((s.store env y v (some m)).2).retrieve env x).1 = .ok (some (v, some m)) := by
  simp [Disk.store, hy, hopen, Disk.writeSteps, hm, runSteps, FsStep.run, Disk.retrieve, hxy]

/-- **C06** Exactly: on an open disk storage, writing under `y` never changes what `x` retrieves if
and only if the two have different file names (given two different picklable values for the
metadata). -/
theorem C06_disk_isolation_iff (env : DiskEnv M) (x y : Id) (hy : y ≠ "") (v : V) (m m' : M)
    (hm : env.picklable m = true) (hm' : env.picklable m' = true) (hne : m ≠ m')
    (s : Disk V M) (hopen : s.inited = true) :
    (∀ w : Disk.Write V M, w.id = y →
      ((w.exec env s).2.retrieve env x).1 = (s.retrieve env x).1) ↔
    sanitize env x ≠ sanitize env y := by
  constructor
  · intro h hxy
    have h1 := h (.store y v (some m)) rfl
    have h2 := h (.store y v (some m')) rfl
    simp only [Disk.Write.exec] at h1 h2
    rw [store_reads env s hopen x y hy hxy v m hm] at h1
    rw [store_reads env s hopen x y hy hxy v m' hm', ← h1] at h2
    simp only [Except.ok.injEq, Option.some.injEq, Prod.mk.injEq, true_and] at h2
    exact hne h2.symm
  · intro hxy w hw
    exact C06_disk_isolation_partial env s w x (by rw [hw]; exact hxy)

example : sanitize exEnv "a/b" = sanitize exEnv "a_b" := by decide

omit [ByteSize V] [ByteSize M] in
/-- **C08** (refuted for every replacement) Whatever vector and metadata an id has, a store or
update with metadata has a crash point after which the id cannot be read and a later one after
which it shows the new vector with the old metadata. -/
theorem C08_replacement_refuted (env : DiskEnv M) (s : Disk V M) (hopen : s.inited = true)
    (hd : s.dir.Ok) (id : Id) (hid : id ≠ "") (v : V) (m : M) (hp : env.picklable m = true)
    (v₀ : V) (m₀ : Option M) (hold : (s.retrieve env id).1 = .ok (some (v₀, m₀)))
    (w : Disk.Write V M) (hw : w = .store id v (some m) ∨ w = .update id v (some m)) :
    ((afterCrash env s w 1).retrieve env id).1 = .error .storage ∧
    ((afterCrash env s w 2).retrieve env id).1 = .ok (some (v, m₀)) ∧
    ((afterCrash env s w 3).retrieve env id).1 = .error .storage ∧
    ((afterCrash env s w 4).retrieve env id).1 = .ok (some (v, some m)) := by
  have hold' := Disk.retrieve_ready (env := env) hopen hd id
  rw [hold'] at hold
  have hc : s.dir.content (sanitize env id) = some (v₀, m₀) := Except.ok.inj hold
  have hm : s.dir.vec.mem (sanitize env id) = true := by
    rw [← Dir.content_isSome hd, hc]; rfl
  have hsteps : w.steps env s.dir = (Disk.writeSteps env s.dir (sanitize env id) v (some m)).1 := by
    rcases hw with rfl | rfl
    · simp [Disk.Write.steps, hid]
    · simp [Disk.Write.steps, hm]
  have hpk : s.dir.pkl.get? (sanitize env id) = m₀.map .good := by
    simp only [Dir.content] at hc
    have hpg := hd.pgood _ hm
    cases hv : s.dir.vec.get? (sanitize env id) with
    | none => simp [hv] at hc
    | some fl =>
      cases fl with
      | torn => simp [hv] at hc
      | good x =>
        simp only [hv, Option.some.injEq, Prod.mk.injEq] at hc
        obtain ⟨rfl, hm0⟩ := hc
        cases hpp : s.dir.pkl.get? (sanitize env id) with
        | none => simp [hpp] at hm0; simp [← hm0]
        | some fl =>
          cases fl with
          | torn => exact absurd hpp hpg
          | good y => simp [hpp] at hm0; simp [← hm0]
  refine ⟨?_, ?_, ?_, ?_⟩ <;>
    simp [afterCrash, hsteps, Disk.writeSteps, hp, runSteps, FsStep.run, Disk.retrieve, Disk.init,
      Disk.opened, hpk] <;> cases m₀ <;> simp

/-- The first vector put into the memory part, whatever the limit. -/
theorem remember_first (limit : Int) (x : Id) (hx : x ≠ "") (v : V) : ∃ u,
    Hyb.remember (⟨[], [], 0, 0, true⟩ : Mem V M) limit x v none =
      (.ok (), ⟨[(x, v)], [], 1, u, true⟩) := by
  have h1 : Mem.store (⟨[], [], 0, 0, true⟩ : Mem V M) x v none =
      (.ok true, ⟨[(x, v)], [], 1, Mem.usageOf (M := M) [(x, v)] [], true⟩) := by
    simp [Mem.store, hx, Dict.set, Mem.putMeta, Dict.pop]
  have h2 : Hyb.evict (⟨[], [], 0, 0, true⟩ : Mem V M) = (.ok (), ⟨[], [], 0, 0, true⟩) := by
    simp [Hyb.evict, Mem.list, Dict.keys, sliceTo]
  refine ⟨Mem.usageOf (M := M) [(x, v)] [], ?_⟩
  simp only [Hyb.remember, h2, h1, ite_self]

/-- **C12** Exactly: on every readable directory and with every memory limit, hybrid storage answers
all histories over a set of ids like disk storage if and only if the ids of the set have pairwise
different file names. -/
theorem C12_hybrid_eq_disk_iff (env : DiskEnv M) (d : Dir V M) (hd : d.Ok) (limit : Int) (v : V)
    (ids : Id → Prop) :
    (∀ h : List (Call V M), (∀ c ∈ h, ∀ m ∈ c.metas, env.picklable m = true) →
      (∀ x ∈ h.flatMap Call.ids, ids x) →
      ((hybBackend env).run (Hyb.opened d limit) h).1 =
        ((diskBackend env).run (Disk.opened d) h).1) ↔
    ∀ x y, ids x → ids y → sanitize env x = sanitize env y → x = y := by
  constructor
  · intro h x y hx hy hxy
    by_contra hne
    have hlen : x.toList.length = y.toList.length := by
      have := congrArg (fun s => s.toList.length) hxy
      simpa [sanitize] using this
    have hx0 : x ≠ "" := by
      rintro rfl
      have : y = "" := by
        rw [← String.toList_inj]
        exact (List.length_eq_zero_iff.1 hlen.symm).trans rfl
      exact hne this.symm
    have hrun := h [.init, .store x v none, .delete y, .retrieve x] (by simp [Call.metas]) (by
      intro z hz
      simp only [List.flatMap_cons, Call.ids, List.flatMap_nil, List.append_nil, List.nil_append,
        List.cons_append, List.mem_cons, List.not_mem_nil, or_false] at hz
      rcases hz with rfl | rfl | rfl
      · exact hx
      · exact hy
      · exact hx)
    have hs0 : sanitize env y ≠ "" := by
      intro h0
      have := congrArg (fun s => s.toList.length) h0
      have h1 : y.toList.length = 0 := by simpa [sanitize] using this
      rw [h1] at hlen
      exact hx0 (by rw [← String.toList_inj]; exact (List.length_eq_zero_iff.1 hlen).trans rfl)
    have hd4 : ((diskBackend env).run (Disk.opened d) [.init, .store x v none, .delete y,
        .retrieve x]).1.getLast? = some (.found none) := by
      rw [C04_disk_is_map env d hd _ (by simp [Call.metas])]
      simp [Store.run, Store.step, Call.mapId, hxy, hs0, put]
    have hm4 : ((hybBackend env).run (Hyb.opened d limit) [.init, .store x v none, .delete y,
        .retrieve x]).1.getLast? = some (.found (some (v, none))) := by
      obtain ⟨u, hu⟩ := remember_first (M := M) limit x hx0 v
      have hmem : Dict.mem [(x, v)] y = false := by simp [Dict.mem, Dict.get?, hne]
      have hdel : ∀ dd : Disk V M, dd.inited = true → ∃ b d', Disk.delete env dd y = (.ok b, d') := by
        intro dd hi
        simp only [Disk.delete, hi, Bool.not_true, Bool.false_eq_true, if_false]
        split
        · exact ⟨_, _, rfl⟩
        · exact ⟨_, _, rfl⟩
      obtain ⟨d1, h1, hi1⟩ : ∃ d1, Disk.store env (Disk.init (Disk.opened d)) x v none =
          (.ok true, d1) ∧ d1.inited = true := by
        have hs1 : (Disk.store env (Disk.init (Disk.opened d)) x v none).1 = .ok true ∧
            (Disk.store env (Disk.init (Disk.opened d)) x v none).2.inited = true := by
          simp [Disk.store, hx0, Disk.init, Disk.opened, Disk.writeSteps]
        exact ⟨_, Prod.ext hs1.1 rfl, hs1.2⟩
      obtain ⟨b, d2, h2⟩ := hdel d1 hi1
      have e1 : Hyb.store env (Hyb.init (Hyb.opened d limit)) x v none =
          (.ok true, ⟨⟨[(x, v)], [], 1, u, true⟩, d1, limit, true⟩) := by
        simp only [Hyb.store, Hyb.init, Hyb.opened, hx0, if_false, Bool.not_true,
          Bool.false_eq_true, h1, Mem.init, hu]
      have e2 : Hyb.delete env ⟨⟨[(x, v)], [], 1, u, true⟩, d1, limit, true⟩ y =
          (.ok (false || b), ⟨⟨[(x, v)], [], 1, u, true⟩, d2, limit, true⟩) := by
        simp only [Hyb.delete, Mem.delete, hmem, if_false, Bool.not_true, Bool.false_eq_true, h2]
      have e3 : Hyb.retrieve env (⟨⟨[(x, v)], [], 1, u, true⟩, d2, limit, true⟩ : Hyb V M) x =
          (.ok (some (v, none)), ⟨⟨[(x, v)], [], 1, u, true⟩, d2, limit, true⟩) := by
        simp [Hyb.retrieve, Mem.retrieve, Dict.get?]
      simp only [Backend.run, Backend.call, hybBackend, Backend.wrap, e1, e2, e3]
      rfl
    rw [hrun, hd4] at hm4
    cases hm4
  · intro hinj h hp hids
    exact C12_hybrid_eq_disk_partial env d hd limit h hp
      (fun x hx y hy e => hinj x y (hids x hx) (hids y hy) e)

end storage

/-! ## Quantisers -/

section quantisers
variable {F : Type} [Field F] [LinearOrder F]

/-- A slice assignment over a row of zeros of the wrong width raises, unless the value has one
column. -/
theorem setSlice_zeros_raises {α : Type} (z : α) (n : Nat) (vals : List α) (h : vals.length ≠ n)
    (h1 : vals.length ≠ 1) : setSlice (List.replicate n z) 0 n vals = .error .value := by
  unfold setSlice
  rw [if_neg (by simpa [slice] using h)]
  match vals, h1 with
  | [], _ => rfl
  | [x], h1 => exact absurd rfl h1
  | _ :: _ :: _, _ => rfl

/-- Slice assignment keeps the width of the row. -/
theorem setSlice_width {α : Type} (row : List α) (s e : Nat) (hse : s ≤ e) (vals row' : List α)
    (h : setSlice row s e vals = .ok row') : row'.length = row.length := by
  unfold setSlice at h
  split_ifs at h with h0
  · obtain rfl := Except.ok.inj h
    simp [slice] at h0 ⊢
    omega
  · match vals, h with
    | [x], h =>
      obtain rfl := Except.ok.inj h
      simp [slice] at h0 ⊢
      omega

omit [Field F] [LinearOrder F] in
/-- Decoding keeps the width of the row of zeros it starts from. -/
theorem dequantizeCells_width (sub : Nat) (code : List Nat) (bs : List (List (List F))) :
    ∀ (i : Nat) (row row' : List F), ProductQ.dequantizeCells sub code i bs row = .ok row' →
      row'.length = row.length := by
  induction bs with
  | nil =>
    intro i row row' h
    obtain rfl := Except.ok.inj h
    rfl
  | cons b bs ih =>
    intro i row row' h
    unfold ProductQ.dequantizeCells at h
    split at h
    · cases h
    split at h
    · cases h
    split at h
    · cases h
    next hs =>
      rw [ih _ _ _ h, setSlice_width _ _ _ (Nat.mul_le_mul_right _ (Nat.le_succ i)) _ _ hs]

/-- The normalised coordinates of a row. -/
def scaled (lo sc r : List F) : List F :=
  List.zipWith (fun x s => x / s) (List.zipWith (fun x m => x - m) r lo) sc

/-- Encoding one row of the width of the bounds. -/
theorem quantizeRow_scaled [FloorRing F] (q : ScalarQ F) (w : Nat) (lo sc r : List F)
    (h1 : r.length = lo.length) (h2 : lo.length = sc.length) :
    ScalarQ.quantizeRow q w lo sc r =
      setSlice (List.replicate w 0) 0 w ((scaled lo sc r).map q.codeOf) := by
  rw [ScalarQ.quantizeRow, bzip_eq _ r lo h1]
  simp only
  rw [bzip_eq _ _ sc (by simp [h1, h2])]
  rfl

/-- Encoding with a trained quantiser. -/
theorem scalar_quantize_eq [FloorRing F] (q : ScalarQ F) (w n : Nat) (lo sc : List F)
    (rows : List (List F)) (hi : q.inited = true) (ht : q.trained = true) (hd : q.dim = some w)
    (hlo : q.minV = some lo) (hsc : q.scale = some sc) :
    q.quantize (.mat n rows) = match mapE (ScalarQ.quantizeRow q w lo sc) rows with
      | .error _ => .error .quantization
      | .ok codes => .ok codes := by
  obtain ⟨bits, i, t, dim, l, u, c⟩ := q
  simp only at hi ht hd hlo hsc
  subst hi ht hd hlo hsc
  rfl

omit [Field F] [LinearOrder F] in
/-- Every result of a loop comes from an element. -/
theorem mapE_mem {α β : Type} (f : α → Except Err β) (l : List α) :
    ∀ r, mapE f l = .ok r → ∀ y ∈ r, ∃ x ∈ l, f x = .ok y := by
  induction l with
  | nil =>
    intro r h y hy
    obtain rfl := Except.ok.inj h
    cases hy
  | cons a l ih =>
    intro r h y hy
    unfold mapE at h
    split at h
    · cases h
    next b hb =>
      split at h
      · cases h
      next ys hys =>
        obtain rfl := Except.ok.inj h
        rcases List.mem_cons.1 hy with rfl | hy
        · exact ⟨a, by simp, hb⟩
        · obtain ⟨x, hx, hxy⟩ := ih ys hys y hy
          exact ⟨x, by simp [hx], hxy⟩

/-- **C88** (refuted) for every trained scalar quantiser of width `d ≠ 1` and every other width: a
training call on an array of that width without rows raises, and from then on every attempt to
encode vectors of width `d` raises too, though it succeeded before. -/
theorem C88_scalar_failed_train_all_refuted [FloorRing F] (q : ScalarQ F) (d cols : Nat)
    (lo sc : List F) (hi : q.inited = true) (ht : q.trained = true) (hd : q.dim = some d)
    (hlo : q.minV = some lo) (hsc : q.scale = some sc) (hll : lo.length = d) (hls : sc.length = d)
    (h1 : d ≠ 1) (hne : cols ≠ d) :
    ∃ q', q.train (.mat cols []) = (.error .quantization, q') ∧
      ∀ (n : Nat) (rows : List (List F)), Rect d rows → rows ≠ [] →
        (∃ codes, q.quantize (.mat n rows) = .ok codes) ∧
        q'.quantize (.mat n rows) = .error .quantization := by
  refine ⟨{ q with dim := some cols }, by simp [ScalarQ.train, hi, reduceRows], ?_⟩
  intro n rows hr hrows
  constructor
  · have hm := mapE_ok (ScalarQ.quantizeRow q d lo sc) (fun r => (scaled lo sc r).map q.codeOf) rows
      fun r hmem => by
        rw [quantizeRow_scaled q d lo sc r (by rw [hll]; exact hr r hmem) (by omega)]
        exact setSlice_all d 0 _ (by simp [scaled, hr r hmem, hll, hls])
    exact ⟨_, by rw [scalar_quantize_eq q d n lo sc rows hi ht hd hlo hsc, hm]⟩
  · obtain ⟨r, rs, rfl⟩ := List.exists_cons_of_ne_nil hrows
    have hl : (scaled lo sc r).length = d := by simp [scaled, hr r (by simp), hll, hls]
    have hbad := quantizeRow_scaled { q with dim := some cols } cols lo sc r
      (by rw [hll]; exact hr r (by simp)) (by omega)
    rw [setSlice_zeros_raises _ _ _ (by rw [List.length_map, hl]; omega)
      (by rw [List.length_map, hl]; exact h1)] at hbad
    have hm : mapE (ScalarQ.quantizeRow { q with dim := some cols } cols lo sc) (r :: rs) =
        .error .value := by
      rw [mapE, hbad]
    rw [scalar_quantize_eq { q with dim := some cols } cols n lo sc _ hi ht rfl hlo hsc, hm]

example : (((ScalarQ.new ℚ 8).init).train (.mat 2 [[0, 0], [4, 4]])).2 =
    ⟨8, true, true, some 2, some [0, 0], some [4, 4], some [4 / 255, 4 / 255]⟩ := by decide +kernel

/-- **C88** (refuted) for every trained product quantiser: a training call on vectors of a width
that `m` does not divide raises, and from then on no code decodes to a vector of the trained
width: what is decoded, if anything, has the width of the rejected array. -/
theorem C88_pq_failed_train_all_refuted [IsStrictOrderedRing F]
    (kmeans : Nat → Nat → List (List F) → Except Err (List (List F)))
    {q : ProductQ F} {m k sub : Nat} {books : List (List (List F))} (h : ProductQ.Ready q m k sub books)
    (hm : q.m = m) (cols : Nat) (rows : List (List F)) (hdvd : cols % m ≠ 0) :
    ∃ q', ProductQ.train kmeans q (.mat cols rows) = (.error .quantization, q') ∧
      ∀ (n : Nat) (C : List (List Nat)), Rect m C → (∀ r ∈ C, ∀ c ∈ r, c < k) →
        (∃ out, q.dequantize (.mat n C) = .ok out ∧ Rect (m * sub) out) ∧
        ∀ out', q'.dequantize (.mat n C) = .ok out' → Rect cols out' ∧ cols ≠ m * sub := by
  have hpos := h.pos
  refine ⟨{ q with dim := some cols }, ?_, ?_⟩
  · rw [ProductQ.train, if_neg (by simp [h.inited])]
    simp only
    rw [if_neg (by omega), if_pos (by rw [hm]; exact hdvd)]
  intro n C hC hc
  have hw : ∀ (p : ProductQ F) (w : Nat) (out : List (List F)), p.dim = some w →
      p.dequantize (.mat n C) = .ok out → Rect w out := by
    intro p w out hp he
    unfold ProductQ.dequantize at he
    split_ifs at he
    rw [hp] at he
    split at he
    next dim sub' books' hc' hd' _ _ =>
      cases hc'
      obtain rfl := Option.some.inj hd'
      split at he
      · cases he
      next out' hm' =>
        obtain rfl := Except.ok.inj he
        intro r hr
        obtain ⟨x, -, hx⟩ := mapE_mem _ _ _ hm' r hr
        simpa using dequantizeCells_width _ _ _ _ _ _ hx
    · cases he
  refine ⟨⟨_, h.dequantize n C hC hc, hw q _ _ h.hdim (h.dequantize n C hC hc)⟩, ?_⟩
  intro out' he
  refine ⟨hw _ _ _ rfl he, ?_⟩
  rintro rfl
  exact hdvd (Nat.mul_mod_right m sub)

example : ProductQ.Ready exPq 2 2 1 exPqBooks ∧ exPq.m = 2 ∧ 3 % 2 ≠ 0 := ⟨exPq_ready, rfl, by decide⟩

/-- **C88** (refuted) The statistics of a trained product quantiser show the failed call: they report the
width of the rejected array beside the subspace width of the training that succeeded. -/
theorem C88_pq_failed_stats_refuted
    (kmeans : Nat → Nat → List (List F) → Except Err (List (List F))) (w : ProductW F)
    (hi : w.q.inited = true) (ht : w.q.trained = true) (cols : Nat) (rows : List (List F))
    (hdvd : cols % w.q.m ≠ 0) :
    ∃ w' st, w.train kmeans (.mat cols rows) = (.error .quantization, w') ∧
      w'.getStats = some (some st) ∧ st.dimensions = some cols ∧ st.subDimensions = w.q.sub := by
  have h : w.q.train kmeans (.mat cols rows) = (.error .quantization, { w.q with dim := some cols }) := by
    rw [ProductQ.train, if_neg (by simp [hi])]
    simp only
    split_ifs <;> rfl
  have hs : ∃ st, ({ w with q := { w.q with dim := some cols } } : ProductW F).getStats =
      some (some st) ∧ st.dimensions = some cols ∧ st.subDimensions = w.q.sub := by
    unfold ProductW.getStats
    rw [if_neg (by simp [hi]), if_neg (by simp [ht])]
    exact ⟨_, rfl, rfl, rfl⟩
  obtain ⟨st, h1, h2, h3⟩ := hs
  refine ⟨{ w with q := { w.q with dim := some cols } }, st, ?_, h1, h2, h3⟩
  simp only [ProductW.train, h]
  rw [if_neg (by simp [hdvd])]

example : exPq.inited = true ∧ exPq.trained = true ∧ 3 % exPq.m ≠ 0 := by decide

variable {S D : Type} [IsStrictOrderedRing F] [LinearOrder D]

omit [IsStrictOrderedRing F] in
/-- **C88** (refuted) for every trained SAQ quantiser: after a training call whose array the scaler
rejects, nothing can be encoded or decoded, though the quantiser still counts as trained and reports
the compression ratio of before. -/
theorem C88_saq_failed_train_all_refuted (env : SaqEnv F S D) (w : SaqW F S)
    (hi : w.q.inited = true) (d : Nat) (bad : List (List F)) (e : Err)
    (hbad : env.fit bad = .error e) :
    ∃ w', w.train env (.mat d bad) = (.error .quantization, w') ∧ w'.getStats = w.getStats ∧
      w'.q.trained = w.q.trained ∧ w'.q.full = some bad ∧
      (∀ rows, w'.q.quantize env rows = .error .quantization) ∧
      ∀ codes, w'.q.dequantize env codes = .error .quantization := by
  have h : w.q.train env (.mat d bad) =
      (.error .quantization, { w.q with dim := some d, full := some bad, scaler := none }) := by
    simp only [Saq.train, hi, hbad]
    rfl
  refine ⟨{ w with q := { w.q with dim := some d, full := some bad, scaler := none } }, ?_, ?_, rfl,
    rfl, ?_, ?_⟩
  · simp only [SaqW.train, h]
  · rfl
  · intro rows
    unfold Saq.quantize
    split_ifs <;> rfl
  · intro codes
    unfold Saq.dequantize
    split_ifs <;> rfl

/-- The example quantiser with a scaler that rejects an array without rows: before the failed call a
vector can be encoded. -/
example : let env := { exSaqEnv 3 with fit := fun X => if X = [] then .error .value else .ok () }
    let w := ((⟨exSaq, 0⟩ : SaqW ℚ Unit).train env (.mat 3 exSaqData)).2
    w.q.inited = true ∧ w.q.trained = true ∧ env.fit [] = .error .value ∧
    w.q.quantize env [[1, 0, 2]] ≠ .error .quantization := by decide +kernel

/-- **C90** Exactly: after two trainings, on widths `d1` and `d2`, the quantiser uses the smaller of
the configured number and `d2` if and only if the first data was wide enough for that. -/
theorem C90_segment_count_iff (env : SaqEnv F S D) (q q1 q2 : Saq F S) (d1 d2 : Nat)
    (X Y : List (List F)) (hn : 1 ≤ q.nSegments) (h1 : 1 ≤ d1) (h2 : 1 ≤ d2)
    (e1 : Saq.train env q (.mat d1 X) = (.ok (), q1))
    (e2 : Saq.train env q1 (.mat d2 Y) = (.ok (), q2)) :
    (∃ bounds, q2.bounds = some bounds ∧ bounds.length = min q.nSegments d2) ↔
      min q.nSegments d2 ≤ d1 := by
  obtain ⟨b, hb, hl⟩ := C90_segment_count_partial env q q1 q2 d1 d2 X Y hn h1 h2 e1 e2
  constructor
  · rintro ⟨b', hb', hl'⟩
    rw [hb] at hb'
    obtain rfl := Option.some.inj hb'
    omega
  · intro h
    exact ⟨b, hb, by omega⟩

end quantisers
end Valori.Props
