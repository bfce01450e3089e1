import Verif.Model.SearchDb
import Verif.Props.Flat
import Verif.Props.Client
import Verif.Props.Annoy

/-!
# C170 – C173: ready-made databases
-/

namespace Valori.Props
open Spec

section annoy
variable {σ L V F M : Type} [Field F] [LinearOrder F]

theorem an_addLoop_built (env : AnEnv L V F M) (rows : List (V × Option M)) (f : Annoy L V M) :
    (Annoy.addLoop env rows f).2.built = f.built := by
  induction rows generalizing f with
  | nil => rfl
  | cons r rows ih =>
    obtain ⟨v, m⟩ := r
    simp only [Annoy.addLoop]
    split
    · rfl
    · split
      · rfl
      · split
        · rfl
        · rename_i l' _
          have := ih { f with nextId := f.nextId + 1, vectors := f.vectors ++ [some v], metadata := f.metadata ++ [some ‹M›], lib := some l' }
          split <;> rename_i h <;> rw [h] at this <;> exact this

theorem an_add_built (env : AnEnv L V F M) (nd cols : Nat) (rows : List V) (mds : List (Option M))
    (f : Annoy L V M) : (Annoy.add env nd cols rows mds f).2.built = f.built := by
  simp only [Annoy.add]
  split
  · rfl
  · split
    · rfl
    · split
      · rfl
      · cases hd : f.dimension <;> simp only [] <;> (repeat' split) <;> first | rfl | exact an_addLoop_built env _ _

theorem an_insert_built (env : AnEnv L V F M) (nd cols : Nat) (rows : List V)
    (mds : Option (List (Option M))) (f : Annoy L V M) :
    (Annoy.insert env nd cols rows mds f).2.built = f.built := by
  simp only [Annoy.insert]
  split <;> rename_i h <;> exact (congrArg (fun x => x.2.built) h).symm.trans (an_add_built env _ _ _ _ _)

theorem an_removeLoop_built (ids : List Int) (f : Annoy L V M) :
    (Annoy.removeLoop ids f).2.built = f.built := by
  induction ids generalizing f with
  | nil => rfl
  | cons i ids ih =>
    simp only [Annoy.removeLoop]
    split
    · split
      · rfl
      · split
        · rfl
        · exact ih _
    · exact ih _

theorem an_remove_built (ids : List Int) (f : Annoy L V M) : (Annoy.remove ids f).2.built = f.built := by
  simp only [Annoy.remove]
  split
  · rfl
  · exact an_removeLoop_built ids f

theorem an_delete_built (env : AnEnv L V F M) (ids : List String) (f : Annoy L V M) :
    (Annoy.delete env ids f).2.built = f.built := by
  simp only [Annoy.delete]
  split
  · rfl
  · split <;> rename_i h <;> exact (congrArg (fun x => x.2.built) h).symm.trans (an_remove_built _ _)

theorem an_update_built (env : AnEnv L V F M) (id : String) (v : V) (m : Option M) (f : Annoy L V M) :
    (Annoy.update env id v m f).2.built = f.built := by
  simp only [Annoy.update]
  split
  · rfl
  · split
    · rfl
    · split
      · rfl
      · split
        · rename_i h
          exact (congrArg (fun x => x.2.built) h).symm.trans (an_remove_built _ _)
        · rename_i f1 h
          have h1 : f1.built = f.built := (congrArg (fun x => x.2.built) h).symm.trans (an_remove_built _ _)
          split <;> rename_i h2 <;>
            exact ((congrArg (fun x => x.2.built) h2).symm.trans (an_add_built env _ _ _ _ _)).trans h1

theorem annoy_client_built (env : AnEnv L V F M) (B : Backend σ V M) (w : Annoy L V M × σ)
    (hb : w.1.built = false) (h : List (ClCall (AnReq V M))) :
    (Client.run (annoyParts env B) ⟨w, false⟩ h).2.w.1.built = false := by
  induction h with
  | nil => exact hb
  | cons x h ih =>
    simp only [Client.run]
    generalize (Client.run (annoyParts env B) ⟨w, false⟩ h).2 = c at ih ⊢
    cases x with
    | init => simpa [Client.call, Client.init, Client.steps, annoyParts, Annoy.init] using ih
    | close => simp [Client.call, Client.close, Client.steps, annoyParts, Annoy.close, Annoy.clear]
    | request q =>
      simp only [Client.call, Client.request]
      split
      · exact ih
      · have key : ∀ {α : Type} (g : α → AnReply F M) (r : Res (Annoy L V M) α), r.2.built = c.w.1.built →
            (anFwd g c.w.2 r).2.1.built = false := by
          intro α g r hr
          obtain ⟨r1, r2⟩ := r
          cases r1 <;> exact hr.trans ih
        cases q with
        | insert nd cols rows mds => exact key _ _ (an_insert_built env nd cols rows mds _)
        | delete ids => exact key _ _ (an_delete_built env ids _)
        | update id v m => exact key _ _ (an_update_built env id v m _)
        | search q k => exact key _ _ rfl
        | stats => exact ih

/-- **C170 (refuted).** A client over an Annoy index never answers a search, whatever was done through it
before: nothing in the client builds the index. -/
theorem C170_annoy_client_refuted (env : AnEnv L V F M) (B : Backend σ V M) (numTrees : Int)
    (metric : AnMetric) (f : Annoy L V M) (hf : Annoy.new numTrees metric = .ok f) (s : σ)
    (h : List (ClCall (AnReq V M))) (q : V) (k : Int) :
    let c := (Client.run (annoyParts env B) ⟨(f, s), false⟩ h).2
    (Client.request (annoyParts env B) (.search q k) c).1 =
      .error (if c.inited then .index else .valori) := by
  intro c
  have hb : f.built = false := by
    simp only [Annoy.new] at hf
    split at hf
    · cases hf
    · split at hf
      · cases hf
      · cases hf; rfl
  have hc : c.w.1.built = false := annoy_client_built env B (f, s) hb h
  simp only [Client.request]
  cases hi : c.inited with
  | false => rfl
  | true =>
    simp only [Bool.not_true, Bool.false_eq_true, if_false, if_true]
    have : Annoy.search env q k c.w.1 = .error .index := by
      simp only [Annoy.search, hc]
      split <;> simp
    simp only [annoyParts, this, anFwd]

end annoy

/-- **C170 (partial).** What helps is to build the index behind the client's back: then the client answers a
search as the index does, until it is closed. -/
theorem C170_annoy_built_partial {σ L V F M : Type} [Field F] [LinearOrder F] (env : AnEnv L V F M)
    (B : Backend σ V M) (f f' : Annoy L V M) (s : σ) (hb : Annoy.build env f = (.ok (), f')) (q : V) (k : Int) :
    f'.built = true ∧ f'.inited = true ∧
    (Client.request (annoyParts env B) (.search q k) ⟨(f', s), true⟩).1 =
      (Annoy.search env q k f').map AnReply.hits := by
  refine ⟨?_, ?_, ?_⟩
  · simp only [Annoy.build] at hb
    repeat' split at hb
    all_goals first | (simp at hb; done) | (obtain ⟨-, rfl⟩ := Prod.mk.inj hb; rfl)
  · simp only [Annoy.build] at hb
    split at hb
    · simp at hb
    · rename_i hi
      repeat' split at hb
      all_goals first
        | (simp at hb; done)
        | (obtain ⟨-, rfl⟩ := Prod.mk.inj hb; simpa using hi)
  · simp only [Client.request, Bool.not_true, Bool.false_eq_true, if_false, annoyParts, anFwd]
    cases Annoy.search env q k f' <;> rfl

section dbs
variable {C V O : Type}

theorem mapE_inv_ok {α β : Type} {f : α → Except Err β} {l : List α} {bs : List β} (h : mapE f l = .ok bs) :
    bs.length = l.length ∧ ∀ (i : Nat) (a : α), l[i]? = some a → ∃ b, bs[i]? = some b ∧ f a = .ok b := by
  induction l generalizing bs with
  | nil => cases h; exact ⟨rfl, fun i a h => by simp at h⟩
  | cons a l ih =>
    simp only [mapE] at h
    split at h
    · cases h
    · rename_i b hb
      split at h
      · cases h
      · rename_i bs' hbs
        cases h
        obtain ⟨h1, h2⟩ := ih hbs
        refine ⟨by simp [h1], fun i a' hi => ?_⟩
        cases i with
        | zero => simp at hi; subst hi; exact ⟨b, rfl, hb⟩
        | succ i => simpa using h2 i a' (by simpa using hi)

theorem mergeDict_get? {α : Type} (a b : Dict String α) (hb : (b.map Prod.fst).Nodup) (k : String) :
    (mergeDict a b).get? k = match b.get? k with | some v => some v | none => a.get? k := by
  unfold mergeDict
  induction b generalizing a with
  | nil => rfl
  | cons e b ih =>
    obtain ⟨k', v⟩ := e
    simp only [List.map_cons, List.nodup_cons] at hb
    rw [List.foldl_cons, ih _ hb.2]
    simp only [Dict.get?, Dict.get?_set]
    by_cases hk : k' = k
    · subst hk
      have hn : Dict.get? b k' = none := by
        rw [Dict.get?_eq_none]; exact hb.1
      simp [hn]
    · simp [hk, Ne.symm hk]

theorem filter_get? {α : Type} (d : Dict String α) (x k : String) :
    Dict.get? (d.filter fun e => e.1 ≠ x) k = if k = x then none else d.get? k := by
  induction d with
  | nil => simp [Dict.get?]
  | cons e d ih =>
    obtain ⟨k', v⟩ := e
    by_cases hx : k' = x
    · subst hx
      rw [List.filter_cons_of_neg (by simp), ih]
      by_cases hk : k = k'
      · simp [hk]
      · simp [Dict.get?, hk, Ne.symm hk]
    · rw [List.filter_cons_of_pos (by simpa using hx)]
      simp only [Dict.get?, ih]
      by_cases hk : k' = k
      · subst hk; simp [hx]
      · simp [hk]

theorem combineAll_at (ts ds : List (Dict String (MVal O))) (n : Nat) (hl : ts.length = ds.length) :
    (combineAll n ts ds).length = ds.length ∧
    ∀ (i : Nat) (t d : Dict String (MVal O)), ts[i]? = some t → ds[i]? = some d →
      (combineAll n ts ds)[i]? = some (combineMeta (n + i) t d) := by
  induction ts generalizing ds n with
  | nil =>
    cases ds with
    | nil => exact ⟨rfl, fun i t d h => by simp at h⟩
    | cons d ds => simp at hl
  | cons t ts ih =>
    cases ds with
    | nil => simp at hl
    | cons d ds =>
      obtain ⟨h1, h2⟩ := ih ds (n + 1) (by simpa using hl)
      refine ⟨by simp [combineAll, h1], fun i t' d' ht hd => ?_⟩
      cases i with
      | zero =>
        simp only [List.getElem?_cons_zero, Option.some.injEq] at ht hd
        subst ht hd
        rfl
      | succ i =>
        simp only [List.getElem?_cons_succ] at ht hd
        simp only [combineAll, List.getElem?_cons_succ]
        rw [h2 i t' d' ht hd]
        congr 2
        omega

/-- What a successful creation did: the rows of the encoder and the metadata `ms` were inserted into a
database made for them. -/
def CreatedWith (E : DbEnv C V O) (texts : List (MVal O)) (ms : List (Dict String (MVal O))) (c : C) : Prop :=
  ∃ v d c0, E.encode texts = .ok v ∧ v.cols = some d ∧ E.make d v.rows.length = .ok c0 ∧
    E.insert c0 v.rows ms = .ok c

/-- The keys under which a text is described, with what they hold. -/
def described (model : Text) (dim : Nat) (t : Text) (k : String) : Option (MVal O) :=
  if k = "text" then some (.text t)
  else if k = "text_length" then some (.num t.length)
  else if k = "model_used" then some (.text model)
  else if k = "embedding_dimension" then some (.num dim)
  else none

theorem textMeta_get? (E : DbEnv C V O) (v : Encoded V) (t : MVal O) (m : Dict String (MVal O))
    (h : textMeta E v t = .ok m) : ∃ x d, t = .text x ∧ v.cols = some d ∧
      ∀ k, m.get? k = described E.model d x k := by
  unfold textMeta at h
  cases t with
  | num n => simp [MVal.len] at h
  | other o => simp [MVal.len] at h
  | text x =>
    simp only [MVal.len] at h
    split at h
    · cases h
    · rename_i d hd
      cases h
      refine ⟨x, d, rfl, hd, fun k => ?_⟩
      exact if_congr eq_comm rfl (if_congr eq_comm rfl (if_congr eq_comm rfl (if_congr eq_comm rfl rfl)))

theorem vectorsFromText_ok (E : DbEnv C V O) (texts : List (MVal O)) (v : Encoded V)
    (ms : List (Dict String (MVal O))) (h : vectorsFromText E texts = .ok (v, ms)) :
    E.encode texts = .ok v ∧ ms.length = texts.length ∧
    ∀ (i : Nat) (t : MVal O), texts[i]? = some t → ∃ m x d, ms[i]? = some m ∧ t = .text x ∧
      v.cols = some d ∧ ∀ k, m.get? k = described E.model d x k := by
  unfold vectorsFromText at h
  split at h
  · cases h
  · rename_i v' hv
    split at h
    · cases h
    · rename_i ms' hms
      cases h
      obtain ⟨h1, h2⟩ := mapE_inv_ok hms
      refine ⟨hv, h1, fun i t ht => ?_⟩
      obtain ⟨m, h3, h4⟩ := h2 i t ht
      obtain ⟨x, d, h5, h6, h7⟩ := textMeta_get? E v t m h4
      exact ⟨m, x, d, h3, h5, h6, h7⟩

theorem fillDb_ok (E : DbEnv C V O) (v : Encoded V) (ms : List (Dict String (MVal O))) (c : C)
    (h : fillDb E v ms = .ok c) :
    ∃ d c0, v.cols = some d ∧ E.make d v.rows.length = .ok c0 ∧ E.insert c0 v.rows ms = .ok c := by
  unfold fillDb at h
  split at h
  · cases h
  · rename_i d hd
    split at h
    · cases h
    · rename_i c0 hc
      exact ⟨d, c0, hd, hc, h⟩

/-- **C171** A database for hybrid search gets the metadata of the documents: one entry per document in
order, with its text, the document's own values under all keys but `doc_id`, values that describe the text
under keys the document does not have, and nothing else. -/
theorem C171_hybrid_partial (E : DbEnv C V O) (docs : List (Dict String (MVal O))) (c : C)
    (hk : ∀ d ∈ docs, (d.map Prod.fst).Nodup) (h : hybridDb E docs = .ok c) :
    ∃ texts ms, CreatedWith E texts ms c ∧ ms.length = docs.length ∧ texts.length = docs.length ∧
    ∀ (i : Nat) (doc : Dict String (MVal O)), docs[i]? = some doc → ∃ m x d, ms[i]? = some m ∧
      doc.get? "text" = some (.text x) ∧ texts[i]? = some (.text x) ∧
      m.get? "doc_id" = some (.num i) ∧
      ∀ k, k ≠ "doc_id" → m.get? k = match doc.get? k with
        | some y => some y
        | none => described E.model d x k := by
  unfold hybridDb at h
  split at h
  · cases h
  · rename_i texts htexts
    split at h
    · cases h
    · rename_i v ms hv
      obtain ⟨h1, h2, h3⟩ := vectorsFromText_ok E texts v ms hv
      obtain ⟨d, c0, h4, h5, h6⟩ := fillDb_ok E v _ c h
      obtain ⟨h7, h8⟩ := mapE_inv_ok htexts
      obtain ⟨h9, h10⟩ := combineAll_at ms docs 0 (by omega)
      refine ⟨texts, combineAll 0 ms docs, ⟨v, d, c0, h1, h4, h5, h6⟩, h9, h7, fun i doc hdoc => ?_⟩
      obtain ⟨t, ht1, ht2⟩ := h8 i doc hdoc
      obtain ⟨m, x, d', hm1, hm2, hm3, hm4⟩ := h3 i t ht1
      have hdt : doc.get? "text" = some t := by
        unfold docText at ht2
        split at ht2
        · cases ht2
        · rename_i hh; cases ht2; exact hh
      subst hm2
      have hc := h10 i m doc hm1 hdoc
      rw [Nat.zero_add] at hc
      refine ⟨_, x, d', hc, hdt, ht1, by simp [combineMeta], fun k hkd => ?_⟩
      have hnd : ((doc.filter fun e => e.1 ≠ "text").map Prod.fst).Nodup :=
        ((List.filter_sublist (l := doc)).map Prod.fst).nodup (hk doc (List.mem_of_getElem? hdoc))
      unfold combineMeta
      rw [Dict.get?_set, if_neg hkd, mergeDict_get? _ _ hnd, filter_get?, hm4]
      by_cases hkt : k = "text"
      · subst hkt
        rw [if_pos rfl, hdt]
        simp [described]
      · rw [if_neg hkt]
        cases doc.get? k <;> rfl

/-- **C171 (refuted), `doc_id`.** A document's own `doc_id` is lost: the position in the list replaces it. -/
theorem C171_doc_id_refuted (E : DbEnv C V O) (docs : List (Dict String (MVal O))) (c : C)
    (hk : ∀ d ∈ docs, (d.map Prod.fst).Nodup) (h : hybridDb E docs = .ok c) (i : Nat)
    (doc : Dict String (MVal O)) (hi : docs[i]? = some doc) (y : MVal O) (hy : doc.get? "doc_id" = some y)
    (hne : y ≠ .num i) :
    ∃ texts ms m, CreatedWith E texts ms c ∧ ms[i]? = some m ∧ m.get? "doc_id" ≠ doc.get? "doc_id" := by
  obtain ⟨texts, ms, h1, -, -, h2⟩ := C171_hybrid_partial E docs c hk h
  obtain ⟨m, x, d, h3, -, -, h4, -⟩ := h2 i doc hi
  refine ⟨texts, ms, m, h1, h3, ?_⟩
  rw [h4, hy]
  exact fun h => hne (Option.some.inj h).symm

/-- **C171** A document without text is refused with KeyError before anything is encoded. -/
theorem C171_no_text (E : DbEnv C V O) (docs : List (Dict String (MVal O)))
    (h : ∃ d ∈ docs, d.get? "text" = none) : hybridDb E docs = .error .key := by
  have : mapE docText docs = .error .key := by
    obtain ⟨d, hd, hn⟩ := h
    induction docs with
    | nil => cases hd
    | cons e docs ih =>
      simp only [mapE]
      cases he : e.get? "text" with
      | none => simp [docText, he]
      | some t =>
        have : d ∈ docs := by
          rcases List.mem_cons.1 hd with rfl | h
          · rw [hn] at he; cases he
          · exact h
        simp [docText, he, ih this]
  simp [hybridDb, this]

/-- **C172** A database for semantic search gets every text: one row and one metadata entry per text in
order, with the text, its length, the model and the dimension. -/
theorem C172_semantic (E : DbEnv C V O) (texts : List (MVal O)) (c : C) (h : semanticDb E texts = .ok c) :
    ∃ ms, CreatedWith E texts ms c ∧ ms.length = texts.length ∧
    ∀ (i : Nat) (t : MVal O), texts[i]? = some t → ∃ m x d, ms[i]? = some m ∧ t = .text x ∧
      ∀ k, m.get? k = described E.model d x k := by
  unfold semanticDb at h
  split at h
  · cases h
  · rename_i v ms hv
    obtain ⟨h1, h2, h3⟩ := vectorsFromText_ok E texts v ms hv
    obtain ⟨d, c0, h4, h5, h6⟩ := fillDb_ok E v _ c h
    refine ⟨ms, ⟨v, d, c0, h1, h4, h5, h6⟩, h2, fun i t ht => ?_⟩
    obtain ⟨m, x, d', g1, g2, -, g4⟩ := h3 i t ht
    exact ⟨m, x, d', g1, g2, g4⟩

/-- **C172 (refuted), no texts.** No database can be made of no texts: both functions raise IndexError
(the encoder gives an array with one axis for them), and so does the first one for any texts the encoder
answers with such an array. -/
theorem C172_empty_refuted (E : DbEnv C V O) :
    (∀ (texts : List Text) (rows : List V), E.encode (texts.map .text) = .ok ⟨rows, none⟩ →
      semanticDb E (texts.map .text) = .error .indexRange) ∧
    (E.encode [] = .ok ⟨[], none⟩ → hybridDb E [] = .error .indexRange) := by
  refine ⟨fun texts rows hE => ?_, fun hE => by simp [hybridDb, vectorsFromText, hE, mapE, fillDb]⟩
  cases texts with
  | nil => simp only [List.map_nil] at hE ⊢; simp [semanticDb, vectorsFromText, hE, mapE, fillDb]
  | cons t ts =>
    simp only [List.map_cons] at hE ⊢
    simp [semanticDb, vectorsFromText, hE, mapE, textMeta, MVal.len]

theorem items_zip {M : Type} (rows : List (String × V)) (ms : List M) (hl : rows.length = ms.length) :
    Live.items (some (ms.map some)) 0 rows = List.zipWith (fun p m => ⟨p.1, p.2, some m⟩) rows ms := by
  have key : ∀ (rows : List (String × V)) (pre ms : List M), rows.length = ms.length →
      Live.items (some ((pre ++ ms).map some)) pre.length rows =
        List.zipWith (fun p m => (⟨p.1, p.2, some m⟩ : Item V M)) rows ms := by
    intro rows
    induction rows with
    | nil => intro pre ms _; rfl
    | cons r rows ih =>
      intro pre ms hl
      cases ms with
      | nil => simp at hl
      | cons m ms =>
        have := ih (pre ++ [m]) ms (by simpa using hl)
        simp only [List.append_assoc, List.singleton_append, List.length_append, List.length_singleton] at this
        simp only [Live.items, List.zipWith_cons_cons, this]
        simp [Live.mdAt]
  exact key rows [] ms hl

section flatdb
variable {D : Type} [LinearOrder D] [ByteSize V] [ByteSize (Dict String (MVal O))]

/-- The world with a flat index on in-memory storage and ids `ids` from `uuid4`. -/
def flatDbEnv (model : Text) (encode : List (MVal O) → Except Err (Encoded V)) (ids : List Id) :
    DbEnv (Flat V × Mem V (Dict String (MVal O))) V O where
  model := model
  encode := encode
  make _ _ := .ok (flatOn (memBackend V (Dict String (MVal O))) (Mem.init Mem.new))
  insert c rows ms :=
    match Flat.insert (memBackend V (Dict String (MVal O))) 2 (ids.zip rows) (some (ms.map some)) c.1 c.2 with
    | (.ok _, c') => .ok c'
    | (.error e, _) => .error e

/-- **C172** With a flat index the database can be made of any texts the encoder accepts, and a search
in it is an exact search among the vectors of the texts, with the metadata of C172. -/
theorem C172_flat (model : Text) (encode : List (MVal O) → Except Err (Encoded V)) (ids : List Id)
    (fenv : FlatEnv V D) (ha : IsArgsort fenv.argsort) (texts : List Text) (rows : List V) (d : Nat)
    (he : encode (texts.map .text) = .ok ⟨rows, some d⟩) (hr : rows.length = texts.length)
    (hids : ids.length = texts.length) (hn : ids.Nodup) (hne : "" ∉ ids) :
    ∃ c ms, semanticDb (flatDbEnv model encode ids) (texts.map .text) = .ok c ∧
      ms.length = texts.length ∧
      (∀ (i : Nat) (t : Text), texts[i]? = some t → ∃ m : Dict String (MVal O), ms[i]? = some m ∧
        ∀ k, m.get? k = described model d t k) ∧
      ∀ (q : V) (k : Int) (hits : List (Hit D (Dict String (MVal O)))), 0 ≤ k →
        (Flat.search fenv (memBackend V (Dict String (MVal O))) 1 q k c.1 c.2).1 = .ok hits →
        IsTopK (fenv.dist q) (List.zipWith (fun p m => ⟨p.1, p.2, some m⟩) (ids.zip rows) ms) k.toNat hits := by
  have hm : ∃ ms, mapE (textMeta (flatDbEnv (V := V) (O := O) model encode ids) ⟨rows, some d⟩) (texts.map .text) =
      .ok ms := by
    clear he hr hids
    induction texts with
    | nil => exact ⟨[], rfl⟩
    | cons t texts ih =>
      obtain ⟨ms, h⟩ := ih
      exact ⟨_, by simp only [List.map_cons, mapE, h, textMeta, MVal.len]; rfl⟩
  obtain ⟨ms, hms⟩ := hm
  have hv : vectorsFromText (flatDbEnv model encode ids) (texts.map .text) = .ok (⟨rows, some d⟩, ms) := by
    unfold vectorsFromText
    rw [show (flatDbEnv model encode ids).encode (texts.map .text) = _ from he]
    simp only [hms]
  obtain ⟨-, g2, g3⟩ := vectorsFromText_ok _ _ _ _ hv
  rw [List.length_map] at g2
  set B := memBackend V (Dict String (MVal O))
  have hold : Holds memLawful (Mem.init Mem.new : Mem V (Dict String (MVal O))) [] :=
    ⟨⟨Mem.Inv.empty true, rfl, Spec.Store.WF.empty true, by intro id h; trivial⟩, rfl, fun _ => rfl⟩
  have hcall : Live.CallOk (fun _ => True) (fun _ => True) []
      (.insert 2 (ids.zip rows) (some (ms.map some)) : IxCall V (Dict String (MVal O))) := by
    refine ⟨?_, fun r hr => ⟨?_, trivial, rfl⟩, fun _ _ _ _ => trivial⟩
    · rw [List.map_fst_zip (by omega)]; exact hn
    · intro h0; exact hne (h0 ▸ (List.of_mem_zip hr).1)
  have hpair := C16_insert_pairs memLawful fenv ha (Mem.init Mem.new) [] hold [] trivial (ids.zip rows)
    (some (ms.map some)) hcall
  simp only [Flat.run] at hpair
  refine ⟨(Flat.insert B 2 (ids.zip rows) (some (ms.map some)) (flatOn B (Mem.init Mem.new)).1
    (flatOn B (Mem.init Mem.new)).2).2, ms, ?_, g2, fun i t ht => ?_, fun q k hits hk hs => ?_⟩
  · simp only [semanticDb, hv, fillDb]
    have h1 := hpair.1
    simp only [flatDbEnv]
    rcases hx : Flat.insert B 2 (ids.zip rows) (some (ms.map some)) (flatOn B (Mem.init Mem.new)).1
      (flatOn B (Mem.init Mem.new)).2 with ⟨r1, r2⟩
    rw [hx] at h1
    simp only at h1
    subst h1
    rfl
  · obtain ⟨m, x, d', h1, h2, h3, h4⟩ := g3 i (.text t) (by simp [ht])
    cases h2; cases h3
    exact ⟨m, h1, h4⟩
  · have := C13_flat_exact memLawful fenv ha (Mem.init Mem.new) [] hold
      [.insert 2 (ids.zip rows) (some (ms.map some))] ⟨hcall, trivial⟩ q k hk hits
    have hst : (Flat.run fenv B (flatOn B (Mem.init Mem.new)) [.insert 2 (ids.zip rows) (some (ms.map some))]).2 =
        (Flat.insert B 2 (ids.zip rows) (some (ms.map some)) (flatOn B (Mem.init Mem.new)).1
          (flatOn B (Mem.init Mem.new)).2).2 := by
      simp only [Flat.run, Flat.call]
      split <;> rename_i h <;> rw [h]
    rw [hst] at this
    have h3 := this hs
    have h4 : Live.after ([] : List (Item V (Dict String (MVal O))))
        [.insert 2 (ids.zip rows) (some (ms.map some))] =
        List.zipWith (fun p m => ⟨p.1, p.2, some m⟩) (ids.zip rows) ms := by
      simp only [Live.after, List.foldl_cons, List.foldl_nil, Live.next, if_true, List.nil_append]
      exact items_zip _ _ (by rw [List.length_zip]; omega)
    rw [h4] at h3
    exact h3

end flatdb

/-- The entry of a readable image. -/
def imageEntry {P : Type} (pathText : P → Text) (feature : P → Except Err V) (x : P × Nat) :
    Option (V × Dict String (MVal O)) :=
  match feature x.1 with
  | .ok v => some (v, [("image_path", .text (pathText x.1)), ("image_id", .num x.2),
      ("extractor", .text "clip".toList)])
  | .error _ => none

theorem imageLoop_spec {P : Type} (pathText : P → Text) (feature : P → Except Err V) (paths : List P) (n : Nat) :
    let r := imageLoop (O := O) pathText feature n paths
    r.1.length = r.2.length ∧ r.1.zip r.2 = (paths.zipIdx n).filterMap (imageEntry pathText feature) := by
  induction paths generalizing n with
  | nil => simp [imageLoop]
  | cons p ps ih =>
    obtain ⟨h1, h2⟩ := ih (n + 1)
    simp only [imageLoop, List.zipIdx_cons, List.filterMap_cons, imageEntry]
    cases feature p with
    | error e => exact ⟨h1, h2⟩
    | ok v =>
      refine ⟨by simp [h1], ?_⟩
      simp only [List.zip_cons_cons, h2]

/-- **C173** A database for image search gets exactly the images that can be read, in order, each with its
path and its position in the list given; it cannot be made when none can be read. -/
theorem C173_images {P : Type} (E : DbEnv C V O) (dim : Nat) (pathText : P → Text)
    (feature : P → Except Err V) (paths : List P) :
    ((∀ p ∈ paths, ∃ e, feature p = .error e) →
      imageDb E dim pathText feature "clip" paths = .error .indexRange) ∧
    ∀ c, imageDb E dim pathText feature "clip" paths = .ok c → ∃ c0 vs ms, E.make dim vs.length = .ok c0 ∧
      E.insert c0 vs ms = .ok c ∧ vs.length = ms.length ∧
      vs.zip ms = paths.zipIdx.filterMap (imageEntry pathText feature) := by
  obtain ⟨h1, h2⟩ := imageLoop_spec (O := O) pathText feature paths 0
  refine ⟨fun h => ?_, fun c hc => ?_⟩
  · have hnil : paths.zipIdx.filterMap (imageEntry (O := O) pathText feature) = [] := by
      rw [List.filterMap_eq_nil_iff]
      rintro ⟨p, i⟩ hm
      obtain ⟨e, he⟩ := h p (List.fst_mem_of_mem_zipIdx hm)
      simp [imageEntry, he]
    rw [hnil] at h2
    have h3 : (imageLoop (O := O) pathText feature 0 paths).1 = [] := by
      rcases List.zip_eq_nil_iff.1 h2 with h | h
      · exact h
      · rw [h] at h1; exact List.length_eq_zero_iff.1 h1
    simp [imageDb, h3, fillDb]
  · simp only [imageDb, ne_eq, not_true_eq_false, if_false] at hc
    obtain ⟨d, c0, g1, g2, g3⟩ := fillDb_ok E _ _ c hc
    simp only at g1 g2 g3
    split at g1
    · cases g1
    · cases g1
      exact ⟨c0, _, _, g2, g3, h1, h2⟩

end dbs

/-- A storage that does nothing. -/
def exNoStore : Backend Unit Int Nat where
  init := id
  close := id
  store s _ _ _ := (.ok true, s)
  retrieve s _ := (.ok none, s)
  delete s _ := (.ok false, s)
  update s _ _ _ := (.ok false, s)
  list s _ := (.ok [], s)
  count _ := none

/-- A client over an Annoy index is opened and takes two vectors, all normally; a search is refused. -/
example : ∃ f, (Annoy.new 10 .euclidean : Except Err (Annoy (List (Int × Int)) Int Nat)) = .ok f ∧
    (Client.run (annoyParts exAn exNoStore) ⟨(f, ()), false⟩
      [.request (.search 5 1), .request (.insert 2 1 [5, 8] none), .init]).1.map Prod.snd =
      [false, true, true] := ⟨_, rfl, by decide +kernel⟩

/-- Three documents: the second has a `doc_id` of its own, the third a `text_length`. -/
def exDocs : List (Dict String (MVal Unit)) :=
  [[("text", .text ['a', 'b'])], [("doc_id", .num 7), ("text", .text [])],
   [("text_length", .num 9), ("text", .text ['c'])]]

/-- A world that records what is inserted. -/
def exDb : DbEnv (List (Nat × Dict String (MVal Unit))) Nat Unit where
  model := ['m']
  encode ts := .ok ⟨ts.map fun | .text t => t.length | _ => 0, if ts.isEmpty then none else some 4⟩
  make _ _ := .ok []
  insert c rows ms := .ok (c ++ rows.zip ms)

example : (hybridDb exDb exDocs).toOption.map (fun c => c.map fun e => (e.1, e.2.get? "doc_id", e.2.get? "text_length")) =
    some [(2, some (.num 0), some (.num 2)), (0, some (.num 1), some (.num 0)), (1, some (.num 2), some (.num 9))] ∧
    ∀ d ∈ exDocs, (d.map Prod.fst).Nodup := by decide

example : (semanticDb exDb [.text ['a'], .text []]).toOption.map List.length = some 2 := by decide

example : (imageDb exDb 4 (fun n : Nat => List.replicate n 'x')
    (fun n => if n = 1 then .error .value else .ok n) "clip" [0, 1, 2]).toOption.map
    (fun c => c.map fun e => (e.1, e.2.get? "image_id")) =
    some [(0, some (.num 0)), (2, some (.num 2))] := by decide

/-- The hypotheses of C172 hold for two texts. -/
example : exDb.encode ([['a'], []].map .text) = .ok ⟨[1, 0], some 4⟩ ∧ ["u", "v"].Nodup ∧ "" ∉ ["u", "v"] ∧ IsArgsort exFlat.argsort :=
  ⟨rfl, by decide, by decide, exArgsort_ok⟩

end Valori.Props
