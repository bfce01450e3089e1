import Verif.Model.AnnoyTemp

/-!
# C246: an Annoy index that builds on disk removes its temporary file
-/

namespace Valori.AnTmp
open Spec (AnCall TmpCall without)
variable {L V F M : Type} {env : AnEnv L V F M} {w : TmpEnv L}

/-- Assumption: `mkstemp` answers with the name of a file that did not exist. -/
def MkOk (w : TmpEnv L) : Prop := ∀ f p, w.mkstemp f = some p → f p = none ∧ p ≠ ""

/-- Apart from the temporary file the files are `g`. -/
structure Kept (g : String → Option (TmpFile L)) (opened : Bool) (s : AnTmp L V M) : Prop where
  own : ∀ p, s.temp = some p → p ≠ "" ∧ g p = none
  others : ∀ p, s.temp ≠ some p → s.files p = g p
  shut : opened = false → s.idx.inited = false ∧ ∀ p, s.temp = some p → s.files p = none

theorem call_shut (s : Annoy L V M) (h : s.inited = false) (c : AnCall V M) (hb : c ≠ .build) (hc : c ≠ .clear) :
    s.call env c = s := by
  cases c with
  | insert nd cols rows mds =>
    cases mds <;> simp [Annoy.call, Annoy.insert, Annoy.add, h]
  | delete ids =>
    simp only [Annoy.call, Annoy.delete, Annoy.remove, h]
    cases Annoy.parseAll env.parse ids <;> rfl
  | update id v m =>
    simp only [Annoy.call, Annoy.update, Annoy.remove, h]
    cases env.parse id with
    | none => rfl
    | some i => dsimp only; split <;> [rfl; (split <;> rfl)]
  | build => exact absurd rfl hb
  | search q k => rfl
  | clear => exact absurd rfl hc

/-- What `dropTemp` leaves: the other files, and no file under the name of the temporary one. -/
theorem dropTemp_files {g : String → Option (TmpFile L)} {s : AnTmp L V M}
    (own : ∀ p, s.temp = some p → p ≠ "" ∧ g p = none) (others : ∀ p, s.temp ≠ some p → s.files p = g p) :
    (dropTemp s).files = g := by
  funext p
  unfold dropTemp
  cases ht : s.temp with
  | none => exact others p (by simp [ht])
  | some q =>
    have hq := own q ht
    by_cases hf : (s.files q).isSome
    · simp only [ne_eq, hq.1, not_false_eq_true, hf, and_self, if_true]
      by_cases h : p = q
      · subst h; simp [hq.2]
      · rw [Function.update_of_ne h]
        exact others p (by rw [ht]; intro e; exact h (Option.some.inj e).symm)
    · simp only [hf, Bool.false_eq_true, and_false, if_false]
      by_cases h : p = q
      · subst h; rw [hq.2]; simpa using hf
      · exact others p (by rw [ht]; intro e; exact h (Option.some.inj e).symm)

theorem dropTemp_temp {s : AnTmp L V M} {p : String} (h : (dropTemp s).temp = some p) : s.temp = some p := by
  unfold dropTemp at h
  cases ht : s.temp with
  | none => rw [ht] at h; exact absurd (h.symm.trans ht) (by simp)
  | some q =>
    simp only [ht] at h
    split at h
    · exact absurd h (by simp)
    · exact ht.symm.trans h

theorem dropTemp_idx (s : AnTmp L V M) : (dropTemp s).idx = s.idx := by
  unfold dropTemp; cases s.temp with
  | none => rfl
  | some q => dsimp only; split <;> rfl

theorem Kept.drop {g : String → Option (TmpFile L)} {s : AnTmp L V M}
    (own : ∀ p, s.temp = some p → p ≠ "" ∧ g p = none) (others : ∀ p, s.temp ≠ some p → s.files p = g p)
    {opened : Bool} (hs : opened = false → s.idx.inited = false) : Kept g opened (dropTemp s) where
  own p hp := own p (dropTemp_temp hp)
  others p _ := by rw [dropTemp_files own others]
  shut ho := ⟨by rw [dropTemp_idx]; exact hs ho, fun p hp => by
    rw [dropTemp_files own others]; exact (own p (dropTemp_temp hp)).2⟩

/-- `build` keeps the other files, the name and whether the index is in use. -/
theorem build_frame (s : AnTmp L V M) :
    (build env w s).2.temp = s.temp ∧ (build env w s).2.idx.inited = s.idx.inited ∧
    ∀ p, s.temp ≠ some p → (build env w s).2.files p = s.files p := by
  unfold build
  split
  · exact ⟨rfl, rfl, fun _ _ => rfl⟩
  split
  · exact ⟨rfl, rfl, fun _ _ => rfl⟩
  cases s.idx.lib with
  | none => exact ⟨rfl, rfl, fun _ _ => rfl⟩
  | some l =>
    dsimp only
    cases env.build l with
    | error e => exact ⟨rfl, rfl, fun _ _ => rfl⟩
    | ok l' =>
      dsimp only
      split
      · cases ht : s.temp with
        | none => exact ⟨rfl, rfl, fun _ _ => rfl⟩
        | some q =>
          dsimp only
          cases w.saveErr l' with
          | some x =>
            refine ⟨rfl, rfl, fun p hp => Function.update_of_ne ?_ _ _⟩
            rintro rfl; exact hp rfl
          | none =>
            dsimp only
            cases w.loadL (.saved l') <;>
            · refine ⟨rfl, rfl, fun p hp => Function.update_of_ne ?_ _ _⟩
              rintro rfl; exact hp rfl
      · exact ⟨rfl, rfl, fun _ _ => rfl⟩

theorem build_shut (s : AnTmp L V M) (h : s.idx.inited = false) : (build env w s).2 = s := by
  simp [build, h]

theorem Kept.close {g : String → Option (TmpFile L)} {opened : Bool} {s : AnTmp L V M} (h : Kept g opened s) :
    Kept g false (close s) := by
  have h1 : Kept g true (dropTemp { s with idx := { s.idx with lib := none } }) :=
    Kept.drop (s := { s with idx := { s.idx with lib := none } }) h.own h.others (by simp)
  have h2 : Kept g true (AnTmp.clear (dropTemp { s with idx := { s.idx with lib := none } })) :=
    Kept.drop (s := { (dropTemp { s with idx := { s.idx with lib := none } }) with
      idx := (dropTemp { s with idx := { s.idx with lib := none } }).idx.clear }) (opened := true) h1.own h1.others nofun
  refine ⟨h2.own, h2.others, fun _ => ⟨rfl, fun p hp => ?_⟩⟩
  have := dropTemp_files (s := { (dropTemp { s with idx := { s.idx with lib := none } }) with
    idx := (dropTemp { s with idx := { s.idx with lib := none } }).idx.clear }) h1.own h1.others
  exact (congrFun this p).trans (h2.own p hp).2

/-- After `close` the files are what they were. -/
theorem Kept.closed {g : String → Option (TmpFile L)} {opened : Bool} {s : AnTmp L V M} (h : Kept g opened s) :
    (AnTmp.close s).files = g := by
  funext p
  have hc := h.close
  by_cases hp : (AnTmp.close s).temp = some p
  · rw [(hc.shut rfl).2 p hp, (hc.own p hp).2]
  · exact hc.others p hp

theorem without_one (g : String → Option (TmpFile L)) (p : String) (ps : List String) :
    without (without g [p]) ps = without g (p :: ps) := by
  funext q; simp only [without, List.mem_cons, List.not_mem_nil, or_false]
  by_cases h1 : q ∈ ps <;> by_cases h2 : q = p <;> simp [h1, h2]

abbrev Saved (L : Type) := Option (L × Option Nat × AnMetric)

theorem Kept.run (hm : MkOk w) (hd : w.onDisk = true) :
    ∀ (cs : List (TmpCall V M (Saved L))) (opened : Bool) (g : String → Option (TmpFile L)) (s : AnTmp L V M),
    Kept g opened s → TmpCall.InTurn opened cs →
    ∃ o, Kept (without g (TmpCall.gone cs)) o (AnTmp.run env w s cs)
  | [], opened, g, s, h, _ => ⟨opened, by
      have : without g (TmpCall.gone ([] : List (TmpCall V M (Saved L)))) = g := by
        funext p; simp [without, TmpCall.gone]
      rw [this]; exact h⟩
  | .init :: cs, opened, g, s, h, hi => by
    refine Kept.run hm hd cs true g _ ?_ hi.2
    have hs := h.shut hi.1
    have hfiles : s.files = g := by
      funext p
      by_cases hp : s.temp = some p
      · rw [hs.2 p hp, (h.own p hp).2]
      · exact h.others p hp
    simp only [call, init, hd, if_true]
    cases hk : w.mkstemp s.files with
    | none => exact ⟨h.own, h.others, by simp⟩
    | some q =>
      have hq := hm _ _ hk
      refine ⟨fun p hp => ?_, fun p hp => ?_, by simp⟩
      · obtain rfl := Option.some.inj hp; exact ⟨hq.2, hfiles ▸ hq.1⟩
      · have : p ≠ q := by rintro rfl; exact hp rfl
        simpa [Function.update_of_ne this] using congrFun hfiles p
  | .close :: cs, opened, g, s, h, hi => Kept.run hm hd cs false g _ h.close hi
  | .load file :: cs, opened, g, s, h, hi => by
    refine Kept.run hm hd cs opened g _ ⟨h.own, h.others, fun ho => ⟨?_, (h.shut ho).2⟩⟩ hi
    simp [call, Annoy.load, (h.shut ho).1]
  | .removed q :: cs, opened, g, s, h, hi => by
    have := Kept.run hm hd cs opened (without g [q]) (call env w s (.removed q))
      ⟨fun p hp => ⟨(h.own p hp).1, ?_⟩, fun p hp => ?_, fun ho => ⟨(h.shut ho).1, fun p hp => ?_⟩⟩ hi
    · rw [without_one] at this; exact this
    · simp [without, (h.own p hp).2]
    · by_cases e : p = q
      · subst e; simp [call, without]
      · simpa [call, without, e, Function.update_of_ne e] using h.others p hp
    · by_cases e : p = q
      · subst e; simp [call]
      · simpa [call, Function.update_of_ne e] using (h.shut ho).2 p hp
  | .plain c :: cs, opened, g, s, h, hi => by
    refine Kept.run hm hd cs opened g _ ?_ (by cases c <;> exact hi)
    cases c with
    | build =>
      have hb := build_frame (env := env) (w := w) s
      refine ⟨fun p hp => h.own p (hb.1.symm.trans hp), fun p hp => ?_, fun ho => ?_⟩
      · have hp' : s.temp ≠ some p := fun e => hp (hb.1.trans e)
        exact (hb.2.2 p hp').trans (h.others p hp')
      · have : (build env w s).2 = s := build_shut s (h.shut ho).1
        show (build env w s).2.idx.inited = false ∧ _
        simpa only [call, this] using h.shut ho
    | clear => exact Kept.drop (s := { s with idx := s.idx.clear }) h.own h.others fun ho => (h.shut ho).1
    | insert nd cols rows mds =>
      refine ⟨h.own, h.others, fun ho => ⟨?_, (h.shut ho).2⟩⟩
      show (s.idx.call env _).inited = false
      rw [call_shut _ (h.shut ho).1 _ (by simp) (by simp)]; exact (h.shut ho).1
    | delete ids =>
      refine ⟨h.own, h.others, fun ho => ⟨?_, (h.shut ho).2⟩⟩
      show (s.idx.call env _).inited = false
      rw [call_shut _ (h.shut ho).1 _ (by simp) (by simp)]; exact (h.shut ho).1
    | update id v m =>
      refine ⟨h.own, h.others, fun ho => ⟨?_, (h.shut ho).2⟩⟩
      show (s.idx.call env _).inited = false
      rw [call_shut _ (h.shut ho).1 _ (by simp) (by simp)]; exact (h.shut ho).1
    | search q k => exact ⟨h.own, h.others, h.shut⟩

/-- Names the index no longer knows stay. -/
theorem leak_run (hm : MkOk w) (p : String) :
    ∀ (cs : List (TmpCall V M (Saved L))) (s : AnTmp L V M), (s.files p).isSome → s.temp ≠ some p →
    p ∉ TmpCall.gone cs → (AnTmp.run env w s cs).files p = s.files p := by
  intro cs
  have hdrop : ∀ s : AnTmp L V M, s.temp ≠ some p →
      (dropTemp s).files p = s.files p ∧ (dropTemp s).temp ≠ some p := by
    intro s ht
    refine ⟨?_, fun h => ht (dropTemp_temp h)⟩
    unfold dropTemp
    cases hq : s.temp with
    | none => rfl
    | some q =>
      dsimp only
      split
      · refine Function.update_of_ne ?_ _ _
        rintro rfl; exact ht hq
      · rfl
  have hstep : ∀ (s : AnTmp L V M) (c : TmpCall V M (Saved L)), (s.files p).isSome → s.temp ≠ some p →
      p ∉ TmpCall.gone [c] → (call env w s c).files p = s.files p ∧ (call env w s c).temp ≠ some p := by
    intro s c hf ht hg
    cases c with
    | init =>
      simp only [call, init]
      split
      · cases hk : w.mkstemp s.files with
        | none => exact ⟨rfl, ht⟩
        | some q =>
          have hq : q ≠ p := by rintro rfl; rw [(hm _ _ hk).1] at hf; exact absurd hf (by simp)
          exact ⟨Function.update_of_ne hq.symm _ _, fun e => hq (Option.some.inj e)⟩
      · exact ⟨rfl, ht⟩
    | close =>
      have h1 := hdrop { s with idx := { s.idx with lib := none } } ht
      have h2 := hdrop { (dropTemp { s with idx := { s.idx with lib := none } }) with
        idx := (dropTemp { s with idx := { s.idx with lib := none } }).idx.clear } h1.2
      exact ⟨h2.1.trans h1.1, h2.2⟩
    | load file => exact ⟨rfl, ht⟩
    | removed q =>
      refine ⟨Function.update_of_ne ?_ _ _, ht⟩
      rintro rfl; exact hg (by simp [TmpCall.gone])
    | plain c =>
      cases c with
      | build =>
        have hb := build_frame (env := env) (w := w) s
        exact ⟨hb.2.2 p ht, fun e => ht (hb.1.symm.trans e)⟩
      | clear => exact hdrop { s with idx := s.idx.clear } ht
      | insert => exact ⟨rfl, ht⟩
      | delete => exact ⟨rfl, ht⟩
      | update => exact ⟨rfl, ht⟩
      | search => exact ⟨rfl, ht⟩
  induction cs with
  | nil => intros; rfl
  | cons c cs ih =>
    intro s hf ht hg
    have hg1 : p ∉ TmpCall.gone [c] := fun h => hg (by cases c <;> simp_all [TmpCall.gone])
    have hg2 : p ∉ TmpCall.gone cs := fun h => hg (by cases c <;> simp_all [TmpCall.gone])
    have h1 := hstep s c hf ht hg1
    exact (ih (call env w s c) (by rw [h1.1]; exact hf) h1.2 hg2).trans h1.1

theorem gone_close (cs : List (TmpCall V M (Saved L))) : TmpCall.gone (cs ++ [.close]) = TmpCall.gone cs := by
  induction cs with
  | nil => rfl
  | cons c cs ih => cases c <;> simp [TmpCall.gone, ih]

/-- `dropTemp` forgets the name of a file that exists. -/
theorem dropTemp_none {s : AnTmp L V M} (h : ∀ p, s.temp = some p → p ≠ "" ∧ (s.files p).isSome) :
    (dropTemp s).temp = none := by
  unfold dropTemp
  cases ht : s.temp with
  | none => exact ht
  | some q => dsimp only; rw [if_pos (h q ht)]

end Valori.AnTmp

namespace Valori.Props
open Valori.AnTmp
open Spec (AnCall AnHit TmpCall without)
variable {L V F M : Type}

/-- C246: a new index that builds on disk, opened, used and closed any number of times (each `initialize` on
an index that is new or closed), whatever the library does: after the last `close` the files are those
of before, except the ones that others removed. -/
theorem C246_tidy_partial {env : AnEnv L V F M} {w : TmpEnv L} (hm : MkOk w) (hd : w.onDisk = true)
    {numTrees : Int} {metric : AnMetric} {f : Annoy L V M} (hf : Annoy.new numTrees metric = .ok f)
    (files : String → Option (TmpFile L)) (cs : List (TmpCall V M (Saved L)))
    (hi : TmpCall.InTurn false (cs ++ [.close])) :
    (AnTmp.run env w ⟨f, none, files⟩ (cs ++ [.close])).files = without files (TmpCall.gone cs) := by
  have h0 : Kept files false (⟨f, none, files⟩ : AnTmp L V M) := by
    refine ⟨nofun, fun _ _ => rfl, fun _ => ⟨?_, nofun⟩⟩
    unfold Annoy.new at hf
    split at hf
    · cases hf
    split at hf
    · cases hf
    · cases hf; rfl
  have hi' : ∀ (cs : List (TmpCall V M (Saved L))) (o : Bool), TmpCall.InTurn o (cs ++ [.close]) → TmpCall.InTurn o cs := by
    intro cs
    induction cs with
    | nil => intros; trivial
    | cons c cs ih =>
      intro o h
      cases c with
      | init => exact ⟨h.1, ih _ h.2⟩
      | close => exact ih _ h
      | load => exact ih _ h
      | removed => exact ih _ h
      | plain c => cases c <;> exact ih _ h
  obtain ⟨o, hk⟩ := Kept.run (env := env) hm hd cs false files _ h0 (hi' cs false hi)
  rw [AnTmp.run, List.foldl_append]
  exact hk.closed

/-- C246: at every moment the index has at most one file of its own, and all others are as they were. -/
theorem C246_one_file_partial {env : AnEnv L V F M} {w : TmpEnv L} (hm : MkOk w) (hd : w.onDisk = true)
    {numTrees : Int} {metric : AnMetric} {f : Annoy L V M} (hf : Annoy.new numTrees metric = .ok f)
    (files : String → Option (TmpFile L)) (cs : List (TmpCall V M (Saved L))) (hi : TmpCall.InTurn false cs) :
    ∃ own : Option String, (∀ p, own = some p → without files (TmpCall.gone cs) p = none) ∧
      ∀ p, own ≠ some p →
        (AnTmp.run env w ⟨f, none, files⟩ cs).files p = without files (TmpCall.gone cs) p := by
  have h0 : Kept files false (⟨f, none, files⟩ : AnTmp L V M) := by
    refine ⟨nofun, fun _ _ => rfl, fun _ => ⟨?_, nofun⟩⟩
    unfold Annoy.new at hf
    split at hf
    · cases hf
    split at hf
    · cases hf
    · cases hf; rfl
  obtain ⟨o, hk⟩ := Kept.run (env := env) hm hd cs false files _ h0 hi
  exact ⟨_, fun p hp => (hk.own p hp).2, hk.others⟩

/-- C246, refuted: `initialize` on an index in use makes a second file, and the first one stays for
ever, whatever is called afterwards and even after `close`. -/
theorem C246_twice_refuted {env : AnEnv L V F M} {w : TmpEnv L} (hm : MkOk w) (hd : w.onDisk = true)
    {s : AnTmp L V M} {p : String} (ht : s.temp = some p) (hp : (s.files p).isSome)
    (hk : (w.mkstemp s.files).isSome) (cs : List (TmpCall V M (Saved L))) (hg : p ∉ TmpCall.gone cs) :
    ((AnTmp.run env w s (.init :: cs ++ [.close])).files p).isSome := by
  obtain ⟨q, hq⟩ := Option.isSome_iff_exists.1 hk
  have hqp : q ≠ p := by rintro rfl; rw [(hm _ _ hq).1] at hp; exact absurd hp (by simp)
  have he : call env w s .init = { s with idx := s.idx.init, temp := some q, files := Function.update s.files q (some .empty) } := by
    simp only [call, AnTmp.init, hd, if_true, hq]
  have hfp : (call env w s .init).files p = s.files p := by
    rw [he]; exact Function.update_of_ne hqp.symm _ _
  have htp : (call env w s .init).temp ≠ some p := by
    rw [he]; exact fun e => hqp (Option.some.inj e)
  have hg' : p ∉ TmpCall.gone (cs ++ [.close]) := by
    rw [gone_close]; exact hg
  have := leak_run (env := env) hm p (cs ++ [.close]) (call env w s .init) (by rw [hfp]; exact hp) htp hg'
  show ((AnTmp.run env w (call env w s .init) (cs ++ [.close])).files p).isSome
  rw [this, hfp]; exact hp

/-- C246: between a successful `initialize` and the next `clear` or `close` an index can be built on disk as in
memory: when the library can save and load, `build` gives the same reply, and the index differs only in
the library object, which was loaded from the file. -/
theorem C246_build {env : AnEnv L V F M} {w : TmpEnv L} (hd : w.onDisk = true)
    (hs : ∀ l, w.saveErr l = none) {img : L → L} (hl : ∀ l, w.loadL (.saved l) = .ok (img l))
    {s : AnTmp L V M} (hi : (AnTmp.init w s).1 = .ok ()) (cs : List (AnCall V M)) (hc : .clear ∉ cs) :
    let s1 := AnTmp.run env w (AnTmp.init w s).2 (cs.map .plain)
    (AnTmp.build env w s1).1 = (s1.idx.build env).1 ∧
    ((AnTmp.build env w s1).1 = .ok () →
      (AnTmp.build env w s1).2.idx = { (s1.idx.build env).2 with lib := (s1.idx.build env).2.lib.map img }) := by
  intro s1
  have ht : s1.temp.isSome := by
    have h0 : (AnTmp.init w s).2.temp.isSome := by
      simp only [AnTmp.init, hd, if_true] at hi ⊢
      cases hk : w.mkstemp s.files with
      | none => simp [hk] at hi
      | some q => rfl
    have : ∀ (cs : List (AnCall V M)) (s : AnTmp L V M), .clear ∉ cs → s.temp.isSome →
        (AnTmp.run env w s (cs.map .plain)).temp.isSome := by
      intro cs
      induction cs with
      | nil => intro s _ h; exact h
      | cons c cs ih =>
        intro s hc h
        refine ih _ (fun e => hc (List.mem_cons_of_mem _ e)) ?_
        cases c with
        | build => show (AnTmp.build env w s).2.temp.isSome; rw [(build_frame s).1]; exact h
        | clear => exact absurd List.mem_cons_self hc
        | insert => exact h
        | delete => exact h
        | update => exact h
        | search => exact h
    exact this cs _ hc h0
  generalize s1 = t at ht
  obtain ⟨p, hp⟩ := Option.isSome_iff_exists.1 ht
  unfold AnTmp.build Annoy.build
  by_cases h1 : t.idx.inited
  · by_cases h2 : (t.idx.dimension.isNone && decide (0 < t.idx.vectors.length)) = true
    · simp [h1, h2]
    · simp only [h1, Bool.not_true, Bool.false_eq_true, if_false, h2]
      cases hlib : t.idx.lib with
      | none => simp
      | some l =>
        dsimp only
        cases env.build l with
        | error e => simp
        | ok l' => simp [hd, hp, hs, hl]
  · simp [h1]

/-- C246: so a search of the index built on disk gives what one of the index built in memory gives, if
the library answers for a loaded object as for the one that was saved. -/
theorem C246_answers [Field F] [LinearOrder F] {env : AnEnv L V F M} {w : TmpEnv L} (hd : w.onDisk = true)
    (hs : ∀ l, w.saveErr l = none) {img : L → L} (hl : ∀ l, w.loadL (.saved l) = .ok (img l))
    (hn : ∀ l, env.nns (img l) = env.nns l)
    {s : AnTmp L V M} (hi : (AnTmp.init w s).1 = .ok ()) (cs : List (AnCall V M)) (hc : .clear ∉ cs)
    (q : V) (k : Int) :
    let s1 := AnTmp.run env w (AnTmp.init w s).2 (cs.map .plain)
    (AnTmp.build env w s1).1 = .ok () →
      (AnTmp.build env w s1).2.idx.search env q k = (s1.idx.build env).2.search env q k := by
  intro s1 hok
  rw [(C246_build (env := env) hd hs hl hi cs hc).2 hok]
  generalize (s1.idx.build env).2 = g
  have hres : ∀ ns, Annoy.results { g with lib := g.lib.map img } ns = Annoy.results (F := F) g ns := by
    intro ns
    induction ns with
    | nil => rfl
    | cons x ns ih => obtain ⟨n, d⟩ := x; simp only [Annoy.results, ih]
  obtain ⟨vs, ms, d, n, lib, b, i, me⟩ := g
  cases lib with
  | none => rfl
  | some l =>
    simp only [Option.map_some] at hres
    simp only [Annoy.search, Option.map_some, hn, hres]

/-- C246, refuted: after `clear` of an index in use there is no temporary file any more, and no `build` of
a library object succeeds, whatever is called in between (until the next `initialize`). -/
theorem C246_after_clear_refuted {env : AnEnv L V F M} {w : TmpEnv L} (hd : w.onDisk = true)
    {s : AnTmp L V M} (ht : ∀ p, s.temp = some p → p ≠ "" ∧ (s.files p).isSome) (cs : List (AnCall V M)) :
    let s1 := AnTmp.run env w s (.plain .clear :: cs.map .plain)
    s1.idx.lib ≠ none → (AnTmp.build env w s1).1 ≠ .ok () := by
  intro s1 hl
  have h0 : (AnTmp.clear s).temp = none := dropTemp_none (s := { s with idx := s.idx.clear }) ht
  have h1 : s1.temp = none := by
    have : ∀ (cs : List (AnCall V M)) (s : AnTmp L V M), s.temp = none →
        (AnTmp.run env w s (cs.map .plain)).temp = none := by
      intro cs
      induction cs with
      | nil => intro s h; exact h
      | cons c cs ih =>
        intro s h
        refine ih _ ?_
        cases c with
        | build => exact (build_frame s).1.trans h
        | clear => exact dropTemp_none (s := { s with idx := s.idx.clear }) (by rw [h]; nofun)
        | insert => exact h
        | delete => exact h
        | update => exact h
        | search => exact h
    exact this cs _ h0
  generalize s1 = t at hl h1
  obtain ⟨l, hlib⟩ := Option.ne_none_iff_exists'.1 hl
  unfold AnTmp.build
  split
  · simp
  split
  · simp
  simp only [hlib]
  cases env.build l with
  | error e => simp
  | ok l' => simp [hd, h1]

/-- C246: without `build_on_disk` the index has no files. -/
theorem C246_in_memory {env : AnEnv L V F M} {w : TmpEnv L} (hd : w.onDisk = false) (f : Annoy L V M)
    (files : String → Option (TmpFile L)) (cs : List (TmpCall V M (Saved L))) :
    (AnTmp.run env w ⟨f, none, files⟩ cs).files = without files (TmpCall.gone cs) := by
  have step : ∀ (s : AnTmp L V M) (c : TmpCall V M (Saved L)), s.temp = none →
      (call env w s c).temp = none ∧ (call env w s c).files = without s.files (TmpCall.gone [c]) := by
    intro s c h
    have hw : without s.files [] = s.files := by funext p; simp [without]
    have hdrop : ∀ i : Annoy L V M, dropTemp { s with idx := i } = { s with idx := i } := by
      intro i; unfold dropTemp; simp only [h]
    cases c with
    | init => simp only [call, AnTmp.init, hd, TmpCall.gone, hw]; exact ⟨h, rfl⟩
    | close => simp only [call, AnTmp.close, AnTmp.clear, hdrop, TmpCall.gone, hw]; exact ⟨h, trivial⟩
    | load file => exact ⟨h, hw.symm⟩
    | removed q =>
      refine ⟨h, ?_⟩
      funext p
      by_cases e : p = q
      · subst e; simp [call, without, TmpCall.gone]
      · simp [call, without, TmpCall.gone, e]
    | plain c =>
      cases c with
      | build =>
        have hb := build_frame (env := env) (w := w) s
        refine ⟨hb.1.trans h, ?_⟩
        funext p
        exact (hb.2.2 p (by rw [h]; simp)).trans (congrFun hw.symm p)
      | clear => simp only [call, AnTmp.clear, hdrop, TmpCall.gone, hw]; exact ⟨h, trivial⟩
      | insert => exact ⟨h, hw.symm⟩
      | delete => exact ⟨h, hw.symm⟩
      | update => exact ⟨h, hw.symm⟩
      | search => exact ⟨h, hw.symm⟩
  have : ∀ (cs : List (TmpCall V M (Saved L))) (s : AnTmp L V M), s.temp = none →
      (AnTmp.run env w s cs).files = without s.files (TmpCall.gone cs) := by
    intro cs
    induction cs with
    | nil => intro s _; funext p; simp [AnTmp.run, without, TmpCall.gone]
    | cons c cs ih =>
      intro s h
      have h1 := step s c h
      refine (ih _ h1.1).trans ?_
      rw [h1.2]
      funext p
      have : TmpCall.gone (c :: cs) = TmpCall.gone [c] ++ TmpCall.gone cs := by cases c <;> rfl
      rw [this]
      simp only [without, List.mem_append]
      by_cases h2 : p ∈ TmpCall.gone [c] <;> by_cases h3 : p ∈ TmpCall.gone cs <;> simp [h2, h3]
  exact this cs _ rfl

/-- C246, refuted: the exception of that `build` is a TypeError whenever the library itself can build. -/
theorem C246_clear_type_refuted {env : AnEnv L V F M} {w : TmpEnv L} (hd : w.onDisk = true)
    {s : AnTmp L V M} (ht : s.temp = none) (hi : s.idx.inited = true) (hdim : s.idx.dimension ≠ none)
    {l l' : L} (hl : s.idx.lib = some l) (hb : env.build l = .ok l') :
    (AnTmp.build env w s).1 = .error .typeE := by
  have : s.idx.dimension.isNone = false := by cases h : s.idx.dimension <;> simp_all
  simp [AnTmp.build, hi, this, hl, hb, hd, ht]

/-- C246: `initialize` on disk succeeds exactly when a file can be made; then the index is in use and the
file exists and is empty.  Otherwise nothing has changed. -/
theorem C246_opens {w : TmpEnv L} (hd : w.onDisk = true) (s : AnTmp L V M) :
    ((AnTmp.init w s).1 = .ok () ↔ (w.mkstemp s.files).isSome) ∧
    (∀ p, w.mkstemp s.files = some p →
      (AnTmp.init w s).2.idx = s.idx.init ∧ (AnTmp.init w s).2.files p = some .empty) ∧
    (w.mkstemp s.files = none → (AnTmp.init w s).2 = s) := by
  simp only [AnTmp.init, hd, if_true]
  cases w.mkstemp s.files with
  | none => simp
  | some p => simp

/-- What the calls do to an index that is built in memory. -/
def inMemory (env : AnEnv L V F M) (f : Annoy L V M) : TmpCall V M (Saved L) → Annoy L V M
  | .init => f.init
  | .close => f.close
  | .plain c => f.call env c
  | .load file => (f.load file).2
  | .removed _ => f

/-- C246: without `build_on_disk` all calls, with the replies of `initialize` and `build`, are those of the index of
`Model/Annoy`. -/
theorem C246_in_memory_index {env : AnEnv L V F M} {w : TmpEnv L} (hd : w.onDisk = false) (s : AnTmp L V M)
    (cs : List (TmpCall V M (Saved L))) :
    (AnTmp.run env w s cs).idx = cs.foldl (inMemory env) s.idx ∧ (AnTmp.init w s).1 = .ok () ∧
    (AnTmp.build env w s).1 = (s.idx.build env).1 := by
  have hbuild : ∀ s : AnTmp L V M, (AnTmp.build env w s).1 = (s.idx.build env).1 ∧
      (AnTmp.build env w s).2.idx = (s.idx.build env).2 := by
    intro s
    obtain ⟨⟨vs, ms, d, n, lib, b, i, me⟩, t, fl⟩ := s
    unfold AnTmp.build Annoy.build
    dsimp only
    split
    · exact ⟨rfl, rfl⟩
    split
    · exact ⟨rfl, rfl⟩
    cases lib with
    | none => exact ⟨rfl, rfl⟩
    | some l =>
      dsimp only
      cases env.build l with
      | error e => exact ⟨rfl, rfl⟩
      | ok l' => simp [hd]
  refine ⟨?_, by simp [AnTmp.init, hd], (hbuild s).1⟩
  induction cs generalizing s with
  | nil => rfl
  | cons c cs ih =>
    refine (ih (call env w s c)).trans ?_
    rw [List.foldl_cons]
    congr 1
    cases c with
    | init => simp [call, AnTmp.init, hd, inMemory]
    | close => simp [call, AnTmp.close, AnTmp.clear, dropTemp_idx, inMemory, Annoy.close, Annoy.clear]
    | load file => rfl
    | removed p => rfl
    | plain c =>
      cases c with
      | build => exact (hbuild s).2
      | clear => simp [call, AnTmp.clear, dropTemp_idx, inMemory, Annoy.call]
      | insert => rfl
      | delete => rfl
      | update => rfl
      | search => rfl

/-- A library that keeps the list of its items; `mkstemp` has two names to choose from. -/
private def cEnv : AnEnv (List (Int × Nat)) Nat Rat Nat where
  numTrees := 10
  searchK := -1
  create := fun _ _ => []
  addItem := fun l i v => .ok (l ++ [(i, v)])
  build := .ok
  nns := fun l _ _ _ => .ok (l.map fun x => (x.1.toNat, (x.2 : Rat)))
  dim := fun _ => 1
  finite := fun _ => true
  parse := String.toInt?
  emptyMd := 0

private def cTmp : TmpEnv (List (Int × Nat)) where
  onDisk := true
  mkstemp := fun f => if (f "/tmp/a.annoy").isNone then some "/tmp/a.annoy" else
    if (f "/tmp/b.annoy").isNone then some "/tmp/b.annoy" else none
  saveErr := fun _ => none
  unloaded := fun _ => []
  loadL := fun | .saved l => .ok l | _ => .error .other

private theorem cTmp_ok : MkOk cTmp := by
  intro f p h
  simp only [cTmp] at h
  split at h
  · cases h; exact ⟨by rename_i e; simpa using e, by decide⟩
  split at h
  · cases h; exact ⟨by rename_i e; simpa using e, by decide⟩
  · cases h

private def cNew : Annoy (List (Int × Nat)) Nat Nat := ⟨[], [], none, 0, none, false, false, .angular⟩

/-- Somebody's file that lies in the temporary directory. -/
private def cFiles : String → Option (TmpFile (List (Int × Nat))) := fun p =>
  if p = "/tmp/x" then some (.foreign 7) else none

private def cLife : List (TmpCall Nat Nat (Saved (List (Int × Nat)))) :=
  [.init, .plain (.insert 2 1 [5, 6] none), .plain .build, .plain (.search 5 1)]

-- `C246_tidy_partial`, `C246_one_file_partial`: meanwhile the file is there and holds the library object; then it is gone
example : Annoy.new 10 .angular = .ok cNew ∧ TmpCall.InTurn false (cLife ++ [.close]) ∧
    (AnTmp.run cEnv cTmp ⟨cNew, none, cFiles⟩ cLife).files "/tmp/a.annoy" = some (.saved [(0, 5), (1, 6)]) ∧
    (AnTmp.run cEnv cTmp ⟨cNew, none, cFiles⟩ (cLife ++ [.close])).files "/tmp/a.annoy" = none ∧
    (AnTmp.run cEnv cTmp ⟨cNew, none, cFiles⟩ (cLife ++ [.close])).files "/tmp/x" = some (.foreign 7) :=
  ⟨rfl, ⟨rfl, trivial⟩, by decide +kernel, by decide +kernel, by decide +kernel⟩

-- the theorem speaks about this life
example := C246_tidy_partial (env := cEnv) cTmp_ok rfl (f := cNew) (numTrees := 10) (metric := .angular) rfl cFiles cLife
  ⟨rfl, trivial⟩

-- `C246_twice_refuted`: two calls of `initialize`, and a file stays
example : ((AnTmp.run cEnv cTmp (AnTmp.init cTmp ⟨cNew, none, cFiles⟩).2
    (.init :: cLife.tail ++ [.close])).files "/tmp/a.annoy").isSome :=
  C246_twice_refuted cTmp_ok rfl (p := "/tmp/a.annoy") (by decide +kernel) (by decide +kernel) (by decide +kernel) cLife.tail (by decide +kernel)

-- `C246_build`, `C246_answers`: the build after the insertion
example : (AnTmp.init cTmp ⟨cNew, none, cFiles⟩).1 = .ok () ∧
    (AnTmp.build cEnv cTmp (AnTmp.run cEnv cTmp (AnTmp.init cTmp ⟨cNew, none, cFiles⟩).2
      ([.insert 2 1 [5, 6] none].map .plain))).1 = .ok () := ⟨by decide +kernel, by decide +kernel⟩

example := C246_answers (env := cEnv) (w := cTmp) rfl (fun _ => rfl) (img := id) (fun _ => rfl) (fun _ => rfl)
  (s := ⟨cNew, none, cFiles⟩) (by decide +kernel) [.insert 2 1 [5, 6] none] (by simp) 5 1

-- `C246_after_clear_refuted`: `initialize`, `clear`, `insert`: `build` raises a TypeError, which it does not in memory
example : let s1 : AnTmp _ Nat Nat := AnTmp.run cEnv cTmp (AnTmp.init cTmp ⟨cNew, none, cFiles⟩).2 <|
      (.plain .clear :: [.insert 2 1 [5] none].map .plain);
    s1.idx.lib ≠ none ∧ (AnTmp.build cEnv cTmp s1).1 = .error .typeE ∧ (s1.idx.build cEnv).1 = .ok () :=
  ⟨by decide +kernel, by decide +kernel, by decide +kernel⟩

-- `C246_clear_type_refuted`, `C246_opens`: the hypotheses
example : let s1 : AnTmp _ Nat Nat := AnTmp.run cEnv cTmp (AnTmp.init cTmp ⟨cNew, none, cFiles⟩).2 <|
      (.plain .clear :: [.insert 2 1 [5] none].map .plain);
    s1.temp = none ∧ s1.idx.inited = true ∧ s1.idx.dimension ≠ none ∧ s1.idx.lib = some [(0, 5)] ∧
    cTmp.mkstemp cFiles = some "/tmp/a.annoy" :=
  ⟨by decide +kernel, by decide +kernel, by decide +kernel, by decide +kernel, by decide +kernel⟩

-- `C246_in_memory_index`, `C246_in_memory`: the same life in memory
example : (AnTmp.run cEnv { cTmp with onDisk := false } ⟨cNew, none, cFiles⟩ cLife).idx.lib = some [(0, 5), (1, 6)] ∧
    (AnTmp.run cEnv { cTmp with onDisk := false } ⟨cNew, none, cFiles⟩ cLife).files "/tmp/a.annoy" = none :=
  ⟨by decide +kernel, by decide +kernel⟩

end Valori.Props
