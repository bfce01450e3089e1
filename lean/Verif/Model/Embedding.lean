import Verif.Model.Text
import Verif.Model.Batch
import Mathlib.Algebra.Order.Field.Rat

/-!
# Embedding: processors/embedding.py
-/

namespace Valori

/-- `model_type`, embedding.py:28-30, of an initialised processor. -/
inductive ModelType where
  | sentenceTransformers | openai | huggingface
deriving DecidableEq, Repr

/-- The string in the configuration. -/
def ModelType.name : ModelType → Text
  | sentenceTransformers => "sentence_transformers".toList
  | openai => "openai".toList
  | huggingface => "huggingface".toList

/-- An initialised processor, embedding.py:22-41.  The model is a deterministic function that may
raise: `encode` for one text, `encodeMany` for a list (`model.encode(list)`).  It returns a new array
each time.  Entries are of any type `K`; `norm` is `np.linalg.norm` and `div` the division.
`raggedRaises` says whether `np.array` raises for rows of different lengths (numpy 1.24 and later). -/
structure EmbEnv (K : Type) where
  modelName : Text
  modelType : ModelType
  batchSize : Nat
  cached : Bool
  normalize : Bool
  encode : Text → Except Err (List K)
  encodeMany : List Text → Except Err (List (List K))
  norm : List K → K
  div : K → K → K
  zero : K
  digest : Text → Text
  raggedRaises : Bool

/-- The processor's state.  Arrays live in `heap`, and an array is its position there: the cache and
the caller hold the same array, not copies. -/
structure EmbSt (K : Type) where
  heap : List (List K)
  cache : Dict Text Nat
  hits : Nat
  texts : Nat
  generated : Nat
deriving DecidableEq

/-- embedding.py:37-41 -/
def EmbSt.fresh {K : Type} : EmbSt K := ⟨[], [], 0, 0, 0⟩

variable {K : Type}

/-- A new array. -/
def EmbSt.alloc (s : EmbSt K) (v : List K) : Nat × EmbSt K :=
  (s.heap.length, { s with heap := s.heap ++ [v] })

/-- The entries of an array. -/
def EmbSt.read (s : EmbSt K) (r : Nat) : List K := (s.heap[r]?).getD []

/-- The string that is digested, embedding.py:221. -/
def keyText (E : EmbEnv K) (t : Text) : Text := t ++ '_' :: E.modelName ++ '_' :: E.modelType.name

/-- `_get_cache_key`, embedding.py:218-222. -/
def cacheKey (E : EmbEnv K) (t : Text) : Text := E.digest (keyText E t)

/-- `embedding / np.linalg.norm(embedding)` when asked for, embedding.py:163-164. -/
def finish (E : EmbEnv K) (v : List K) : List K :=
  if E.normalize then v.map fun x => E.div x (E.norm v) else v

/-- `_generate_embedding`, embedding.py:141-176.  The answer is an array. -/
def generate (E : EmbEnv K) (s : EmbSt K) (t : Text) : Res (EmbSt K) Nat :=
  if strip t = [] then
    let (r, s) := s.alloc (List.replicate 384 E.zero)
    (.ok r, s)
  else
    match (if E.cached then s.cache.get? (cacheKey E t) else none) with
    | some r => (.ok r, { s with hits := s.hits + 1 })
    | none =>
      match E.encode t with
      | .error e => (.error e, s)
      | .ok v =>
        let (r, s) := s.alloc (finish E v)
        let s := if E.cached then { s with cache := s.cache.set (cacheKey E t) r } else s
        (.ok r, { s with texts := s.texts + 1, generated := s.generated + 1 })

/-- A call of `_generate_embedding` with the entries of the array it returns, as they are then. -/
def embed (E : EmbEnv K) (s : EmbSt K) (t : Text) : Res (EmbSt K) (List K) :=
  match generate E s t with
  | (.error e, s) => (.error e, s)
  | (.ok r, s) => (.ok (s.read r), s)

/-- One text after the other, stopping at an exception: embedding.py:128-135, 249-252. -/
def embedEach (E : EmbEnv K) : EmbSt K → List Text → Res (EmbSt K) (List (List K))
  | s, [] => (.ok [], s)
  | s, t :: ts =>
    match embed E s t with
    | (.error e, s) => (.error e, s)
    | (.ok v, s) =>
      match embedEach E s ts with
      | (.error e, s) => (.error e, s)
      | (.ok vs, s) => (.ok (v :: vs), s)

/-- Rows of one length. -/
def sameLengths (rows : List (List K)) : Bool :=
  match rows with
  | [] => true
  | r :: rs => rs.all fun q => q.length == r.length

/-- The loop of `batch_process`, embedding.py:239-258. -/
def batchEmbedLoop (E : EmbEnv K) (texts : List Text) :
    List Nat → EmbSt K → List (List K) → Res (EmbSt K) (List (List K))
  | [], s, out => (.ok out, s)
  | i :: is, s, out =>
    let bt := batchAt texts i E.batchSize
    match E.modelType with
    | .sentenceTransformers =>
      match E.encodeMany bt with
      | .error e => (.error e, s)
      | .ok rows => batchEmbedLoop E texts is s (out ++ rows.map (finish E))
    | _ =>
      match embedEach E s bt with
      | (.error e, s) => (.error e, s)
      | (.ok rows, s) =>
        if E.raggedRaises && !sameLengths rows then (.error .value, s)
        else batchEmbedLoop E texts is s (out ++ rows)

/-- `batch_process`, embedding.py:224-263; `batch_size` 0 makes `range` raise. -/
def batchEmbed (E : EmbEnv K) (s : EmbSt K) (texts : List Text) : Res (EmbSt K) (List (List K)) :=
  if E.batchSize = 0 then (.error .value, s) else
  match batchEmbedLoop E texts (starts texts.length E.batchSize) s [] with
  | (.error e, s) => (.error e, s)
  | (.ok out, s) =>
    (.ok out, { s with texts := s.texts + texts.length, generated := s.generated + texts.length })

/-- `clear_cache`, embedding.py:274-277. -/
def clearCache (s : EmbSt K) : EmbSt K := { s with cache := [], hits := 0 }

/-- The parts of the answer of `get_stats` that depend on the state, embedding.py:279-303;
`cache_hit_rate` is `hits / generated`, 0 when nothing was generated. -/
structure EmbStats where
  texts : Nat
  generated : Nat
  cacheSize : Nat
  hits : Nat
  rate : ℚ
  dimension : Nat
deriving DecidableEq

/-- `get_stats`, embedding.py:279-303, with `get_embedding_dimension`, embedding.py:265-272, which
embeds the text "test" after the other entries have been read. -/
def embStats (E : EmbEnv K) (s : EmbSt K) : Res (EmbSt K) EmbStats :=
  match embed E s "test".toList with
  | (.error e, s') => (.error e, s')
  | (.ok v, s') =>
    (.ok ⟨s.texts, s.generated, s.cache.length, s.hits,
      if s.generated > 0 then (s.hits : ℚ) / s.generated else 0, v.length⟩, s')

/-- What a caller may do. `write` is an assignment to the entries of an array obtained before. -/
inductive EmbOp (K : Type) where
  | embed (t : Text)
  | batch (ts : List Text)
  | clear
  | stats
  | write (r : Nat) (v : List K)

/-- One step with the embeddings it answers (`none` when it answers none). -/
def EmbOp.step (E : EmbEnv K) (s : EmbSt K) : EmbOp K → Option (Except Err (List (List K))) × EmbSt K
  | .embed t => (some ((Valori.embed E s t).1.map fun v => [v]), (Valori.embed E s t).2)
  | .batch ts => (some (batchEmbed E s ts).1, (batchEmbed E s ts).2)
  | .clear => (none, clearCache s)
  | .stats => (none, (embStats E s).2)
  | .write r v => (none, { s with heap := s.heap.set r v })

/-- A history and the embeddings answered. -/
def embRun (E : EmbEnv K) : EmbSt K → List (EmbOp K) → List (Option (Except Err (List (List K)))) × EmbSt K
  | s, [] => ([], s)
  | s, o :: os =>
    let (r, s) := o.step E s
    let (rs, s) := embRun E s os
    (r :: rs, s)

/-- `process`, embedding.py:111-139: the embedding of the text and of the chunks that have one, in
order. `chunks` holds the text of each chunk if it has one. -/
def embedProcess (E : EmbEnv K) (s : EmbSt K) (text : Option Text) (chunks : Option (List (Option Text))) :
    Res (EmbSt K) (Option (List K) × Option (List (List K))) :=
  let first : Res (EmbSt K) (Option (List K)) :=
    match text with
    | none => (.ok none, s)
    | some t => match Valori.embed E s t with
      | (.error e, s) => (.error e, s)
      | (.ok v, s) => (.ok (some v), s)
  match first with
  | (.error e, s) => (.error e, s)
  | (.ok v, s) =>
    match chunks with
    | none => (.ok (v, none), s)
    | some l =>
      match embedEach E s (l.filterMap id) with
      | (.error e, s) => (.error e, s)
      | (.ok vs, s) => (.ok (v, some vs), s)

end Valori
