import Verif.Model.DocPipe
import Verif.Lemmas.Embedding
import Verif.Lemmas.Chunking
import Verif.Spec.Cleaning

/-!
# The pipeline of three processors: answers do not depend on history
-/

namespace Valori
open Spec

variable {K X : Type}

/-- What the pipeline answers, without state. -/
def pureAnswer (L : CleanLib) (cc : CleanCfg) (ck : ChunkCfg) (E : EmbEnv K)
    (r : Except Err (RichDoc K X)) : Except Err (RichDoc K X) :=
  match r with
  | .error _ => .error .processing
  | .ok d =>
    match d.text with
    | none => .error .processing
    | some t =>
      match (⟨ck, true, 0, 0⟩ : Chunker).raw (cleanText L cc t) with
      | .error _ => .error .processing
      | .ok cs =>
        match pureEmb E (cleanText L cc t),
          allOk ((filterBySize ck cs).map fun ch => pureEmb E ch.text) with
        | .ok v, .ok vs => .ok { d with
            text := some (cleanText L cc t), chunks := some (filterBySize ck cs), embedding := some v,
            chunkEmb := some vs, used := some [.cleaning, .chunking, .embedding] }
        | _, _ => .error .processing

/-- The shape of the pipeline that calls keep. -/
def PipeInv (L : CleanLib) (cc : CleanCfg) (ck : ChunkCfg) (E : EmbEnv K) (P : DocPipe K) : Prop :=
  P.init = true ∧ ∃ s p st, P.stages = [.clean L cc s, .chunk p, .embed E st] ∧ p.cfg = ck ∧
    p.inited = true ∧ EmbInv E st

theorem raw_cfg (p q : Chunker) (h : p.cfg = q.cfg) (t : Text) : p.raw t = q.raw t := by
  unfold Chunker.raw
  rw [h]

theorem embedProcess_spec (E : EmbEnv K) (hd : E.cached = true → Function.Injective E.digest)
    (s : EmbSt K) (hs : EmbInv E s) (t : Text) (ts : List Text) :
    (embedProcess E s (some t) (some (ts.map some))).1 =
      (match pureEmb E t, allOk (ts.map (pureEmb E)) with
        | .ok v, .ok vs => .ok (some v, some vs)
        | .error e, _ => .error e
        | _, .error e => .error e) ∧
    EmbInv E (embedProcess E s (some t) (some (ts.map some))).2 := by
  have hfm : (ts.map some).filterMap id = ts := by
    rw [List.filterMap_map]
    simp
  obtain ⟨g1, g2⟩ := embed_spec E hd s hs t
  unfold embedProcess
  simp only [hfm]
  rcases hq : Valori.embed E s t with ⟨e | v, s1⟩
  · rw [hq] at g1 g2
    simp only at g1 g2 ⊢
    rw [← g1]
    exact ⟨rfl, g2⟩
  · rw [hq] at g1 g2
    simp only at g1 g2 ⊢
    obtain ⟨k1, k2⟩ := embedEach_spec E hd ts s1 g2
    rw [← g1]
    rcases hr : embedEach E s1 ts with ⟨e | vs, s2⟩ <;> rw [hr] at k1 k2 <;>
      simp only at k1 k2 ⊢ <;> rw [← k1] <;> exact ⟨rfl, k2⟩

theorem pipe_step (L : CleanLib) (cc : CleanCfg) (ck : ChunkCfg) (E : EmbEnv K)
    (hd : E.cached = true → Function.Injective E.digest) (P : DocPipe K)
    (hP : PipeInv L cc ck E P) (r : Except Err (RichDoc K X)) :
    (P.processParsed r).1 = pureAnswer L cc ck E r ∧ PipeInv L cc ck E (P.processParsed r).2 := by
  obtain ⟨hi, s, ⟨pc, pi, pn, pm⟩, st, hst, hp, hpi, hE⟩ := hP
  simp only at hp hpi
  subst hp hpi
  unfold DocPipe.processParsed pureAnswer
  rw [hi]
  simp only [Bool.not_true, Bool.false_eq_true, if_false, hst]
  cases r with
  | error e => exact ⟨rfl, hi, s, _, st, hst, rfl, rfl, hE⟩
  | ok d =>
    obtain ⟨text, chunks, emb, cemb, used, rest⟩ := d
    cases text with
    | none =>
      simp only [runStages, Stage.process, cleanProcess, Option.map_none, Chunker.process,
        Bool.true_eq_false, if_false]
      exact ⟨trivial, rfl, _, _, st, rfl, rfl, rfl, hE⟩
    | some t =>
      simp only [runStages, Stage.process, cleanProcess, Option.map_some, Chunker.process,
        Bool.true_eq_false, if_false]
      rw [raw_cfg ⟨pc, true, pn, pm + (cleanText L cc t).length⟩ ⟨pc, true, 0, 0⟩ rfl]
      cases hraw : (⟨pc, true, 0, 0⟩ : Chunker).raw (cleanText L cc t) with
      | error e => exact ⟨rfl, rfl, _, _, st, rfl, rfl, rfl, hE⟩
      | ok cs =>
        obtain ⟨k1, k2⟩ := embedProcess_spec E hd st hE (cleanText L cc t)
          ((filterBySize pc cs).map fun ch => ch.text)
        simp only [List.map_map] at k1 k2
        simp only [Option.map_some]
        have hcomp : (fun ch : Chunk => some ch.text) = some ∘ fun ch => ch.text := rfl
        rw [hcomp]
        rcases hq : embedProcess E st (some (cleanText L cc t))
          (some ((filterBySize pc cs).map (some ∘ fun ch => ch.text))) with ⟨e | ⟨v, vs⟩, st'⟩
        · rw [hq] at k1 k2
          simp only [hq]
          refine ⟨?_, rfl, _, ⟨pc, true, _, _⟩, st', rfl, rfl, rfl, k2⟩
          simp only [Function.comp_def] at k1 ⊢
          cases h1 : pureEmb E (cleanText L cc t) with
          | error e => rfl
          | ok v =>
            cases h2 : allOk ((filterBySize pc cs).map fun ch => pureEmb E ch.text) with
            | error e => rfl
            | ok vs => rw [h1, h2] at k1; simp at k1
        · rw [hq] at k1 k2
          simp only [hq]
          refine ⟨?_, rfl, _, ⟨pc, true, _, _⟩, st', rfl, rfl, rfl, k2⟩
          simp only [Function.comp_def] at k1 ⊢
          cases h1 : pureEmb E (cleanText L cc t) with
          | error e => rw [h1] at k1; simp at k1
          | ok v' =>
            cases h2 : allOk ((filterBySize pc cs).map fun ch => pureEmb E ch.text) with
            | error e => rw [h1, h2] at k1; simp at k1
            | ok vs' =>
              rw [h1, h2] at k1
              simp only [Except.ok.injEq, Prod.mk.injEq] at k1
              obtain ⟨rfl, rfl⟩ := k1
              rfl

theorem pipe_after (L : CleanLib) (cc : CleanCfg) (ck : ChunkCfg) (E : EmbEnv K)
    (hd : E.cached = true → Function.Injective E.digest) (calls : List (DocCall K X)) :
    PipeInv L cc ck E ((docPipe L cc ck E).after calls) := by
  suffices H : ∀ P, PipeInv L cc ck E P → PipeInv L cc ck E (P.after calls) from
    H _ ⟨rfl, _, _, _, rfl, rfl, rfl, embInv_fresh E⟩
  induction calls with
  | nil => exact fun P h => h
  | cons c cs ih =>
    intro P h
    refine ih _ ?_
    cases c with
    | text t r => exact (pipe_step L cc ck E hd P h _).2
    | parsed r => exact (pipe_step L cc ck E hd P h r).2

/-! ## Chunking a tidy text -/

theorem splitGo_none (sep acc : Text) (t : Text) (h : ∀ x, x ∈ sep.head? → x ∉ t) (hs : sep ≠ []) :
    splitGo sep 0 acc t = [acc.reverse ++ t] := by
  induction t generalizing acc with
  | nil => simp [splitGo]
  | cons c cs ih =>
    rw [splitGo, if_neg, ih]
    · simp
    · intro x hx hc; exact h x hx (List.mem_cons_of_mem _ hc)
    · intro hp
      cases sep with
      | nil => exact hs rfl
      | cons x xs =>
        have := List.isPrefixOf_iff_prefix.1 hp
        have hx : x = c := (List.cons_prefix_cons.1 this).1
        exact h x (by simp) (by simp [hx])

/-- Removing outer white space of a part of a text with single spaces removes at most one character at
each end. -/
theorem strip_loses_two (t : Text) (hsg : ∀ (i : Nat) c d, t[i]? = some c → t[i + 1]? = some d →
    ¬ (isSpace c = true ∧ isSpace d = true)) :
    t.length ≤ (strip t).length + 2 := by
  obtain ⟨a, b, he, ha, hb, -, -⟩ := strip_isTrim t
  have key : ∀ u v w : Text, t = u ++ v ++ w → (∀ c ∈ v, isSpace c = true) → v.length ≤ 1 := by
    intro u v w hu hv
    match v, hv with
    | [], _ => simp
    | [x], _ => simp
    | x :: y :: v, hv =>
      exfalso
      refine hsg u.length x y ?_ ?_ ⟨hv x (by simp), hv y (by simp)⟩
      · rw [hu]; simp
      · rw [hu]; simp
  have h1 := key [] a (strip t ++ b) (by simpa using he) ha
  have h2 := key (a ++ strip t) b [] (by simpa using he) hb
  have := congrArg List.length he
  simp only [List.length_append] at this
  omega

theorem strip_front (t : Text) (hsg : ∀ (i : Nat) c d, t[i]? = some c → t[i + 1]? = some d →
    ¬ (isSpace c = true ∧ isSpace d = true)) (hl : ∀ c, t.getLast? = some c → isSpace c = false) :
    t.length ≤ (strip t).length + 1 := by
  obtain ⟨a, b, he, ha, hb, -, -⟩ := strip_isTrim t
  have h2 : b = [] := by
    by_contra hne
    have h1 := hl (b.getLast hne) (by
      rw [he, List.getLast?_append_of_ne_nil _ hne, List.getLast?_eq_some_getLast hne])
    rw [hb _ (List.getLast_mem hne)] at h1
    simp at h1
  have h1 : a.length ≤ 1 := by
    match a, ha, he with
    | [], _, _ => simp
    | [x], _, _ => simp
    | x :: y :: v, ha, he =>
      exfalso
      refine hsg 0 x y ?_ ?_ ⟨ha x (by simp), ha y (by simp)⟩ <;> rw [he] <;> simp
  have := congrArg List.length he
  rw [h2] at this
  simp only [List.length_append, List.length_nil] at this
  omega

end Valori
