import Verif.Props.Annoy
import Verif.Props.Chunking
import Verif.Props.ParserChunks

/-!
# C37, C38, C60, C94 for all inputs

Where a property was refuted by one witness, these theorems say what happens for every input.
-/

namespace Valori.Props
open Valori Valori.Spec

/-! ## C60: semantic chunks without overlap -/

theorem strip_of_tight {x : Text} (hx : Tight x) : strip x = x := by
  unfold strip
  rw [dropWhile_head x hx.1, dropWhile_head _ (by
    intro c hc
    rw [List.head?_reverse] at hc
    exact hx.2 c hc), List.reverse_reverse]

theorem tight_append {a b : Text} (ha : Tight a) (hb : Tight b) (hne : a ≠ []) (hbn : b ≠ []) (sep : Text) :
    Tight (a ++ sep ++ b) := by
  refine ⟨fun c hc => ?_, fun c hc => ?_⟩
  · rw [List.append_assoc, head?_append_of_ne _ _ hne] at hc
    exact ha.1 c hc
  · rw [List.getLast?_append_of_ne_nil _ hbn] at hc
    exact hb.2 c hc

/-- Without overlap the chunk being built holds all the text so far. -/
structure Cumulative (ps : List Text) (st : SemSt) : Prop where
  empty : st.cur = [] → ps = [] ∧ st.done = []
  tight : Tight st.cur
  total : (ps.map List.length).sum ≤ st.cur.length
  prefixes : ∀ ch ∈ st.done, ch.text <+: st.cur
  chain : st.done.Pairwise fun a b => a.text <+: b.text

theorem cumulative_step (c : ChunkCfg) (ho : c.chunkOverlap = 0) (l : List Text) (p : Text) (st : SemSt)
    (h : Cumulative (paras l) st) : Cumulative (paras (l ++ [p])) (semStep c st p) := by
  rw [paras_snoc]
  unfold semStep
  simp only
  by_cases hp : strip p = []
  · rw [if_pos hp, if_pos hp, List.append_nil]; exact h
  rw [if_neg hp, if_neg hp]
  have htp := strip_tight p
  by_cases hcur : st.cur = []
  · obtain ⟨e1, e2⟩ := h.empty hcur
    rw [if_neg (by simp [hcur]), if_neg (by simp [hcur])]
    refine ⟨fun e => absurd e hp, htp, ?_, ?_, ?_⟩
    · rw [e1]; simp
    · simp [e2]
    · simp [e2]
  · have hlen : 0 < st.cur.length := List.length_pos_iff.2 hcur
    have hov : (if (st.cur.length : Int) > c.chunkOverlap then sliceFrom st.cur (-c.chunkOverlap) else []) =
        st.cur := by
      rw [ho, if_pos (by omega)]
      simp [sliceFrom]
    by_cases hbig : (st.cur.length : Int) + (strip p).length > c.chunkSize
    · rw [if_pos ⟨hcur, hbig⟩, hov]
      have ht : Tight (st.cur ++ strip p) := by
        have := tight_append h.tight htp hcur hp []
        simpa using this
      have hs : (semChunk st.done.length st.cur st.start).text = st.cur := strip_of_tight h.tight
      refine ⟨fun e => ?_, ht, ?_, ?_, ?_⟩
      · simp only [List.append_eq_nil_iff] at e
        exact absurd e.2 hp
      · have := h.total
        simp only [List.map_append, List.sum_append, List.length_append, List.map_cons, List.map_nil,
          List.sum_cons, List.sum_nil]
        omega
      · intro ch hch
        rcases List.mem_append.1 hch with hch | hch
        · exact (h.prefixes ch hch).trans (List.prefix_append _ _)
        · rw [List.mem_singleton.1 hch, hs]; exact List.prefix_append _ _
      · rw [List.pairwise_append]
        refine ⟨h.chain, by simp, ?_⟩
        intro a ha b hb
        rw [List.mem_singleton.1 hb, hs]
        exact h.prefixes a ha
    · rw [if_neg (by simp [hbig]), if_pos hcur]
      refine ⟨fun e => ?_, tight_append h.tight htp hcur hp nl2, ?_, ?_, h.chain⟩
      · simp only [List.append_eq_nil_iff] at e
        exact absurd e.2 hp
      · have := h.total
        simp only [List.map_append, List.sum_append, List.length_append, List.map_cons, List.map_nil,
          List.sum_cons, List.sum_nil]
        omega
      · intro ch hch
        exact (h.prefixes ch hch).trans (by rw [List.append_assoc]; exact List.prefix_append _ _)

theorem cumulative_fold (c : ChunkCfg) (ho : c.chunkOverlap = 0) (l pre : List Text) (st : SemSt)
    (h : Cumulative (paras pre) st) : Cumulative (paras (pre ++ l)) (l.foldl (semStep c) st) := by
  induction l generalizing pre st with
  | nil => simpa using h
  | cons p l ih =>
    have := ih (pre ++ [p]) _ (cumulative_step c ho pre p st h)
    simpa using this

/-- **C60, refuted** for every text: with `chunk_overlap` 0 each semantic chunk begins with the whole text
of the chunk before it, and the last one is at least as long as all paragraphs together, whatever
`chunk_size` is. -/
theorem C60_cumulative_refuted (c : ChunkCfg) (ho : c.chunkOverlap = 0) (text : Text) :
    ∃ ps, Paragraphs isSpace nl2 text ps ∧
      (semantic c text).Pairwise (fun a b => a.text <+: b.text) ∧
      (ps ≠ [] → ∃ last, (semantic c text).getLast? = some last ∧
        (ps.map List.length).sum ≤ last.text.length) := by
  refine ⟨_, ck_paras text, ?_⟩
  have h := cumulative_fold c ho (splitOnText nl2 text) [] ⟨[], [], 0⟩
    ⟨fun _ => ⟨rfl, rfl⟩, ⟨by simp, by simp⟩, by simp [paras], by simp, by simp⟩
  rw [List.nil_append] at h
  unfold semantic
  simp only
  set st := (splitOnText nl2 text).foldl (semStep c) ⟨[], [], 0⟩
  by_cases hcur : st.cur = []
  · rw [if_neg (by simp [hcur])]
    obtain ⟨e1, e2⟩ := h.empty hcur
    exact ⟨h.chain, fun hn => absurd e1 hn⟩
  · rw [if_pos hcur]
    have hs : (semChunk st.done.length st.cur st.start).text = st.cur := strip_of_tight h.tight
    refine ⟨?_, fun _ => ⟨semChunk st.done.length st.cur st.start, by simp, by rw [hs]; exact h.total⟩⟩
    rw [List.pairwise_append]
    refine ⟨h.chain, by simp, ?_⟩
    intro a ha b hb
    rw [List.mem_singleton.1 hb, hs]
    exact h.prefixes a ha

/-- Three paragraphs of four characters, and chunks of 4, 8 and 12. -/
example : (exCkCfg "semantic" 4 0).chunkOverlap = 0 ∧
    (semantic (exCkCfg "semantic" 4 0) "aaaa\n\nbbbb\n\ncccc".toList).map (fun ch => ch.text.length) =
      [4, 8, 12] := by decide +kernel

/-! ## C94: element numbers of docling chunks -/

theorem doclingGo_starts (chunkSize : Int) (es : List Text) : ∀ (i id : Nat) (cur : Text),
    (doclingGo chunkSize i id cur es).2.1 = id + (doclingGo chunkSize i id cur es).1.length ∧
    ∀ (k : Nat) (c : DocChunk), (doclingGo chunkSize i id cur es).1[k]? = some c →
      c.startElement = ((id + k : Nat) : Int) * chunkSize := by
  induction es with
  | nil => intro i id cur; simp [doclingGo]
  | cons e es ih =>
    intro i id cur
    simp only [doclingGo]
    split
    · obtain ⟨a, b⟩ := ih (i + 1) (id + 1) []
      refine ⟨by simp only [List.length_cons]; omega, ?_⟩
      intro k c hk
      cases k with
      | zero =>
        obtain rfl := Option.some.inj hk
        simp
      | succ k =>
        have := b k c hk
        rw [this]
        congr 2; omega
    · exact ih (i + 1) id _

/-- **C94, refuted** for every document: the `start_element` of a chunk is its number times the chunk size,
which is a number of characters. -/
theorem C94_start_refuted (chunkSize : Int) (elements : List Text) (k : Nat) (c : DocChunk)
    (hk : (doclingChunks chunkSize elements)[k]? = some c) : c.startElement = k * chunkSize := by
  obtain ⟨a, b⟩ := doclingGo_starts chunkSize elements 0 0 []
  simp only [Nat.zero_add] at a b
  unfold doclingChunks at hk
  simp only at hk
  split at hk
  · exact b k c hk
  · by_cases hlt : k < (doclingGo chunkSize 0 0 [] elements).1.length
    · rw [List.getElem?_append_left hlt] at hk
      exact b k c hk
    · rw [List.getElem?_append_right (by omega)] at hk
      have hz : k - (doclingGo chunkSize 0 0 [] elements).1.length = 0 := by
        by_contra hne
        rw [List.getElem?_eq_none (by simp; omega)] at hk
        cases hk
      rw [hz] at hk
      obtain rfl := Option.some.inj hk
      simp only
      rw [a]
      congr 2; omega

/-- **C94, refuted:** when the chunk size is at least the number of elements, every chunk but the first
names a first element that comes after its last one and does not exist. -/
theorem C94_beyond_refuted (chunkSize : Int) (elements : List Text) (hsize : (elements.length : Int) ≤ chunkSize)
    (k : Nat) (hk0 : k ≠ 0) (c : DocChunk) (hk : (doclingChunks chunkSize elements)[k]? = some c) :
    (elements.length : Int) ≤ c.startElement ∧ c.endElement < c.startElement := by
  have h1 := C94_start_refuted chunkSize elements k c hk
  obtain ⟨gs, rest, g1, g2, g3⟩ := C94_elements_partial chunkSize elements
  obtain ⟨g, -, -, g4⟩ := g3 k c hk
  have hle : ((gs ++ [rest]).take (k + 1)).flatten.length ≤ elements.length := by
    have : elements = ((gs ++ [rest]).take (k + 1)).flatten ++ ((gs ++ [rest]).drop (k + 1)).flatten := by
      rw [← List.flatten_append, List.take_append_drop, ← g1]; simp
    have := congrArg List.length this
    simp only [List.length_append] at this
    omega
  have hk1 : (1 : Int) ≤ k := by omega
  have hnn : 0 ≤ chunkSize := by omega
  have hm : chunkSize ≤ k * chunkSize := by
    have := mul_le_mul_of_nonneg_right hk1 hnn
    omega
  rw [h1]
  constructor
  · omega
  · omega

/-- Four elements, a size of twelve. -/
example : ((doclingTexts exPcElems).length : Int) ≤ 12 ∧
    ((doclingChunks 12 (doclingTexts exPcElems))[1]?).isSome = true := by decide +kernel

/-! ## C37, C38: the Annoy index -/

section annoy
variable {L V F M : Type}

theorem pySet_length {α : Type} (l : List α) (i : Int) (x : α) : (pySet l i x).length = l.length := by
  unfold pySet
  repeat' split
  all_goals simp

/-- Removing empties places of the lists and touches nothing else. -/
theorem removeLoop_same (is : List Int) : ∀ (f : Annoy L V M), ∃ r vs ms,
    Annoy.removeLoop is f = (r, { f with vectors := vs, metadata := ms }) ∧
      vs.length = f.vectors.length ∧ ms.length = f.metadata.length := by
  induction is with
  | nil => intro f; exact ⟨_, f.vectors, f.metadata, rfl, rfl, rfl⟩
  | cons i is ih =>
    intro f
    simp only [Annoy.removeLoop]
    split
    · split
      · exact ⟨_, f.vectors, f.metadata, rfl, rfl, rfl⟩
      · split
        · exact ⟨_, pySet f.vectors i none, f.metadata, rfl, pySet_length _ _ _, rfl⟩
        · obtain ⟨r, vs, ms, e, h1, h2⟩ := ih
            { f with vectors := pySet f.vectors i none, metadata := pySet f.metadata i none }
          exact ⟨r, vs, ms, e, by rw [h1]; exact pySet_length _ _ _, by rw [h2]; exact pySet_length _ _ _⟩
    · exact ih f

theorem results_same [Field F] [LinearOrder F] (f : Annoy L V M) (vs : List (Option V)) (ms : List (Option M))
    (h1 : vs.length = f.vectors.length) (h2 : ms.length = f.metadata.length) (ns : List (Nat × F)) :
    (Annoy.results { f with vectors := vs, metadata := ms } ns).map (·.map fun h => (h.id, h.score)) =
      (Annoy.results f ns).map (·.map fun h => (h.id, h.score)) := by
  induction ns with
  | nil => rfl
  | cons p ns ih =>
    obtain ⟨n, d⟩ := p
    simp only [Annoy.results, h1]
    split
    · by_cases hn : n < f.metadata.length
      · rw [List.getElem?_eq_getElem (h2 ▸ hn), List.getElem?_eq_getElem hn]
        simp only
        generalize Annoy.results { f with vectors := vs, metadata := ms } ns = a at ih
        generalize Annoy.results f ns = b at ih
        rcases a with _ | a <;> rcases b with _ | b <;> simp_all [Except.map]
      · rw [List.getElem?_eq_none (by omega), List.getElem?_eq_none (by omega)]
    · exact ih

/-- **C37, refuted** for every index, whatever the library answers: a delete changes no later search result,
neither its ids nor its similarities; deleted ids are found as before. -/
theorem C37_annoy_same_results_refuted [Field F] [LinearOrder F] (env : AnEnv L V F M) (f : Annoy L V M)
    (ids : List String) (q : V) (k : Int) :
    (Annoy.search env q k (Annoy.delete env ids f).2).map (·.map fun h => (h.id, h.score)) =
      (Annoy.search env q k f).map (·.map fun h => (h.id, h.score)) := by
  have key : ∃ vs ms, (Annoy.delete env ids f).2 = { f with vectors := vs, metadata := ms } ∧
      vs.length = f.vectors.length ∧ ms.length = f.metadata.length := by
    simp only [Annoy.delete, Annoy.remove]
    cases Annoy.parseAll env.parse ids with
    | none => exact ⟨f.vectors, f.metadata, rfl, rfl, rfl⟩
    | some is =>
      simp only
      by_cases hi : f.inited = true
      · obtain ⟨r, vs, ms, e, h1, h2⟩ := removeLoop_same is f
        rw [if_neg (by simp [hi]), e]
        refine ⟨vs, ms, ?_, h1, h2⟩
        rcases r with _ | _ <;> rfl
      · rw [if_pos (by simp [hi])]
        exact ⟨f.vectors, f.metadata, rfl, rfl, rfl⟩
  obtain ⟨vs, ms, e, h1, h2⟩ := key
  rw [e]
  simp only [Annoy.search, h1]
  split
  · rfl
  · split
    · rfl
    · split
      · rfl
      · split
        · rfl
        · split
          · rfl
          · split
            · rfl
            · exact results_same f vs ms h1 h2 _

/-- Id "0" is deleted and still the nearest. -/
example : (Annoy.delete exAn ["0"] (anAfter exAn .euclidean (exAnHist.take 2))).1 = .ok true ∧
    (Annoy.search exAn 10 1 (anAfter exAn .euclidean (exAnHist.take 2))) = .ok [⟨0, 1, some 7⟩] := by
  decide +kernel

/-- Calls that only add: inserts with metadata dictionaries, builds and searches. -/
def Adds : AnCall V M → Prop
  | .insert _ _ _ mds => ∀ l, mds = some l → none ∉ l
  | .build => True
  | .search .. => True
  | _ => False

theorem adds_keep (env : AnEnv L V F M) (h : List (AnCall V M)) (hp : ∀ c ∈ h, Adds c) :
    ∀ (f : Annoy L V M) (n : Nat) (x : Option M), f.metadata[n]? = some x →
      (Annoy.run env f h).metadata[n]? = some x := by
  induction h with
  | nil => intro f n x hx; exact hx
  | cons c h ih =>
    intro f n x hx
    refine ih (fun c hc => hp c (by simp [hc])) _ n x ?_
    have hc := hp c (by simp)
    cases c with
    | insert nd cols rows mds =>
      obtain ⟨j, r, f', e, -, -, e3, -⟩ := Annoy.insert_spec env nd cols rows mds hc f
      simp only [Annoy.call, e, e3]
      rw [List.getElem?_append_left (List.getElem?_eq_some_iff.1 hx).1]
      exact hx
    | build =>
      simp only [Annoy.call, Annoy.build]
      repeat' split
      all_goals exact hx
    | search => exact hx
    | delete => exact hc.elim
    | update => exact hc.elim
    | clear => exact hc.elim

/-- **C38, refuted** for every history: after an update with metadata that returned `True`, the id handed
out next carries, whatever the library answers and whatever is added later, the metadata of the update and
not the metadata it was inserted with. -/
theorem C38_annoy_next_refuted [Field F] [LinearOrder F] (env : AnEnv L V F M) (metric : AnMetric)
    (h : List (AnCall V M)) (hp : ∀ c ∈ h, c.Plain env.parse) (id : String) (n : Nat)
    (hid : env.parse id = some (n : Int)) (v : V) (m : M) {f' : Annoy L V M}
    (hu : Annoy.update env id v (some m) (anAfter env metric h) = (.ok true, f'))
    (nd cols : Nat) (w : V) (rows : List V) (mds : Option (List (Option M)))
    (hm : ∀ l, mds = some l → none ∉ l) {ids : List String} {f'' : Annoy L V M}
    (hins : Annoy.insert env nd cols (w :: rows) mds f' = (.ok ids, f''))
    (h' : List (AnCall V M)) (hp' : ∀ c ∈ h', Adds c) (q : V) (k : Int) {hits : List (AnHit F M)}
    (hs : Annoy.search env q k (Annoy.run env f'' h') = .ok hits) :
    ids.head? = some (toString (anAfter env metric h).vectors.length) ∧
    ∀ hit ∈ hits, hit.id = (anAfter env metric h).vectors.length → hit.md = some m := by
  obtain ⟨hA, -⟩ := anAfter_aligned (env := env) metric hp
  obtain ⟨-, -, -, hnx, md, hmd, hx⟩ := an_update_spec env _ hA id n hid v (some m) hu
  obtain rfl := hx m rfl
  obtain ⟨j, r, g, e, -, -, -, -, -, -, h7⟩ := Annoy.insert_spec env nd cols (w :: rows) mds hm f'
  rw [hins] at e
  simp only [Prod.mk.injEq] at e
  obtain ⟨rfl, rfl⟩ := e
  obtain ⟨-, hids⟩ := h7 ids rfl
  constructor
  · rw [hids, hnx, hA.next, List.length_cons, List.range_succ_eq_map]
    simp
    rfl
  · intro hit hh he
    have hk := adds_keep env (.insert nd cols (w :: rows) mds :: h') (by
      intro c hc
      rcases List.mem_cons.1 hc with rfl | hc
      · exact hm
      · exact hp' c hc) f' _ _ hmd
    have : Annoy.run env f' (.insert nd cols (w :: rows) mds :: h') = Annoy.run env f'' h' := by
      simp only [Annoy.run, List.foldl_cons, Annoy.call, hins]
    rw [this] at hk
    have h2 := Annoy.search_md hs hit hh
    rw [he, hk] at h2
    simpa using h2.symm

/-- Id "0" is updated with metadata 9, then "1" is inserted with 8 and found with 9. -/
example :
    let f := anAfter exAn .euclidean [.insert 2 1 [10] (some [some 7])]
    (∀ c ∈ [AnCall.insert 2 1 [10] (some [some 7])], c.Plain exAn.parse) ∧
    (Annoy.update exAn "0" 15 (some 9) f).1 = .ok true ∧
    (Annoy.insert exAn 2 1 [20] (some [some 8]) (Annoy.update exAn "0" 15 (some 9) f).2).1 = .ok ["1"] ∧
    Annoy.search exAn 20 1 (Annoy.run exAn (Annoy.insert exAn 2 1 [20] (some [some 8])
      (Annoy.update exAn "0" 15 (some 9) f).2).2 [.build]) = .ok [⟨1, 1, some 9⟩] := by
  refine ⟨?_, by decide +kernel, by decide +kernel, by decide +kernel⟩
  intro c hc
  rw [List.mem_singleton] at hc
  subst hc
  intro l hl
  cases hl
  decide

end annoy
end Valori.Props
