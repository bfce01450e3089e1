import Verif.Model.Py
import Mathlib.Data.Rat.Defs
import Mathlib.Data.Rat.Floor
import Mathlib.Algebra.Order.Ring.Unbundled.Rat

/-!
# Configuration tables and factories: configs.py, factory.py, utils/helpers.py:372-435
-/

namespace Valori

/-- A configuration value: the Python objects that occur in the tables and in keyword arguments. -/
inductive Cfg where
  | null
  | bool (b : Bool)
  | int (i : Int)
  | num (q : ℚ)
  | str (s : String)
  | dict (items : List (String × Cfg))

mutual
/-- Equality of configuration values is decidable. -/
def Cfg.dec : (a b : Cfg) → Decidable (a = b)
  | .null, .null => isTrue rfl
  | .bool a, .bool b => decidable_of_iff (a = b) (by simp)
  | .int a, .int b => decidable_of_iff (a = b) (by simp)
  | .num a, .num b => decidable_of_iff (a = b) (by simp)
  | .str a, .str b => decidable_of_iff (a = b) (by simp)
  | .dict a, .dict b => @decidable_of_iff _ (a = b) (by simp) (Cfg.decItems a b)
  | .null, .bool _ | .null, .int _ | .null, .num _ | .null, .str _ | .null, .dict _
  | .bool _, .null | .bool _, .int _ | .bool _, .num _ | .bool _, .str _ | .bool _, .dict _
  | .int _, .null | .int _, .bool _ | .int _, .num _ | .int _, .str _ | .int _, .dict _
  | .num _, .null | .num _, .bool _ | .num _, .int _ | .num _, .str _ | .num _, .dict _
  | .str _, .null | .str _, .bool _ | .str _, .int _ | .str _, .num _ | .str _, .dict _
  | .dict _, .null | .dict _, .bool _ | .dict _, .int _ | .dict _, .num _ | .dict _, .str _ =>
    isFalse (by simp)
def Cfg.decItems : (a b : List (String × Cfg)) → Decidable (a = b)
  | [], [] => isTrue rfl
  | [], _ :: _ => isFalse (by simp)
  | _ :: _, [] => isFalse (by simp)
  | (k, x) :: a, (l, y) :: b =>
    match decEq k l, Cfg.dec x y, Cfg.decItems a b with
    | isTrue h1, isTrue h2, isTrue h3 => isTrue (by rw [h1, h2, h3])
    | isFalse h, _, _ => isFalse (by simp [h])
    | _, isFalse h, _ => isFalse (by simp [h])
    | _, _, isFalse h => isFalse (by simp [h])
end

instance : DecidableEq Cfg := Cfg.dec

/-- A configuration dictionary. -/
abbrev Conf := Dict String Cfg

/-- `bool(v)` -/
def Cfg.truthy : Cfg → Bool
  | .null => false
  | .bool b => b
  | .int i => i != 0
  | .num q => q != 0
  | .str s => s != ""
  | .dict d => !d.isEmpty

/-- The number a value is in a comparison; `TypeError` for what cannot be compared with a number. -/
def Cfg.asNum : Cfg → Except Err ℚ
  | .bool b => .ok (if b then 1 else 0)
  | .int i => .ok i
  | .num q => .ok q
  | _ => .error .typeE

/-- `d.get(k, default)` -/
def getD (d : Conf) (k : String) (dflt : Cfg) : Cfg := (d.get? k).getD dflt

/-! ## Tables -/

/-- `INDEX_CONFIGS`, configs.py:11-95. -/
def indexConfigs : Dict String (Dict String Conf) :=
  [ ("small_dataset",
      [("flat", [("metric", .str "cosine"),
        ("description", .str "Exact search for small datasets")])]),
    ("medium_dataset",
      [("annoy_fast", [("metric", .str "angular"), ("num_trees", .int 10), ("search_k", .int 50),
        ("description", .str "Fast approximate search")]),
       ("annoy_accurate", [("metric", .str "angular"), ("num_trees", .int 50),
        ("search_k", .int 200), ("description", .str "Accurate approximate search")]),
       ("hnsw_balanced", [("metric", .str "cosine"), ("M", .int 16), ("ef_construction", .int 200),
        ("ef_search", .int 50), ("description", .str "Balanced speed and accuracy")])]),
    ("large_dataset",
      [("ivf_efficient", [("metric", .str "cosine"), ("n_clusters", .int 1000),
        ("n_probes", .int 10), ("description", .str "Memory-efficient for large datasets")]),
       ("ivf_fast", [("metric", .str "cosine"), ("n_clusters", .int 500), ("n_probes", .int 5),
        ("description", .str "Fast search for large datasets")])]),
    ("high_dimensional",
      [("lsh_balanced", [("metric", .str "cosine"), ("num_hash_tables", .int 15),
        ("hash_size", .int 20), ("num_projections", .int 100), ("threshold", .num (3 / 10)),
        ("description", .str "Balanced precision and recall")]),
       ("lsh_precise", [("metric", .str "cosine"), ("num_hash_tables", .int 20),
        ("hash_size", .int 25), ("num_projections", .int 150), ("threshold", .num (1 / 2)),
        ("description", .str "High precision, lower recall")]),
       ("lsh_fast", [("metric", .str "cosine"), ("num_hash_tables", .int 5), ("hash_size", .int 10),
        ("num_projections", .int 50), ("threshold", .num (1 / 10)),
        ("description", .str "Fast search, higher recall")])]),
    ("real_time",
      [("annoy_minimal", [("metric", .str "angular"), ("num_trees", .int 5), ("search_k", .int 10),
        ("description", .str "Minimal latency for real-time search")]),
       ("hnsw_fast", [("metric", .str "cosine"), ("M", .int 8), ("ef_construction", .int 100),
        ("ef_search", .int 20), ("description", .str "Fast HNSW configuration")])]) ]

/-- `STORAGE_CONFIGS`, configs.py:98-118. -/
def storageConfigs : Conf :=
  [ ("memory_only", .dict [("type", .str "memory"), ("config", .dict []),
      ("description", .str "In-memory storage for small datasets")]),
    ("disk_only", .dict [("type", .str "disk"),
      ("config", .dict [("data_dir", .str "./valori_data"), ("compression", .bool true)]),
      ("description", .str "Disk storage for persistence")]),
    ("hybrid", .dict [("type", .str "hybrid"),
      ("config", .dict [("memory_limit_mb", .int 1000), ("disk_path", .str "./valori_data"),
        ("cache_size", .int 10000)]),
      ("description", .str "Hybrid memory/disk storage")]) ]

/-- `DOCUMENT_CONFIGS`, configs.py:121-246.  Simplification: the entries are kept by name and
description only. -/
def documentConfigs : Conf :=
  [ ("text_processing", .dict [("description", .str "Basic text processing pipeline")]),
    ("pdf_processing", .dict [("description", .str "PDF document processing")]),
    ("office_processing", .dict [("description", .str "Office document processing")]),
    ("advanced_processing",
      .dict [("description", .str "Advanced processing with multiple parsers")]) ]

/-- `EMBEDDING_CONFIGS`, configs.py:249-284; descriptions left out. -/
def embeddingConfigs : Conf :=
  [ ("fast_small", .dict [("model_name", .str "sentence-transformers/all-MiniLM-L6-v2"),
      ("dimension", .int 384)]),
    ("balanced", .dict [("model_name", .str "sentence-transformers/all-mpnet-base-v2"),
      ("dimension", .int 768)]),
    ("high_quality", .dict [("model_name", .str "sentence-transformers/all-MiniLM-L12-v2"),
      ("dimension", .int 384)]),
    ("multilingual", .dict [
      ("model_name", .str "sentence-transformers/paraphrase-multilingual-MiniLM-L12-v2"),
      ("dimension", .int 384)]),
    ("domain_specific", .dict [
      ("biomedical", .dict [("model_name", .str "sentence-transformers/all-MiniLM-L6-v2")]),
      ("legal", .dict [("model_name", .str "sentence-transformers/all-mpnet-base-v2")]),
      ("scientific", .dict [("model_name", .str "sentence-transformers/all-MiniLM-L12-v2")])]) ]

/-- `APPLICATION_CONFIGS`, configs.py:287-327.  Simplification: the entries are kept by name and
description only. -/
def applicationConfigs : Conf :=
  [ ("semantic_search", .dict [("description", .str "General-purpose semantic search")]),
    ("document_retrieval", .dict [("description", .str "Document search and retrieval")]),
    ("real_time_chat", .dict [("description", .str "Real-time chat and Q&A")]),
    ("research_papers", .dict [("description", .str "Academic paper search")]),
    ("enterprise_search", .dict [("description", .str "Enterprise document search")]),
    ("multilingual_search", .dict [("description", .str "Multilingual document search")]) ]

/-- `PERFORMANCE_CONFIGS`, configs.py:330-360; descriptions left out. -/
def performanceConfigs : Conf :=
  [ ("cpu_optimized", .dict [("batch_size", .int 64), ("num_workers", .int 4),
      ("memory_limit_mb", .int 2000)]),
    ("memory_optimized", .dict [("batch_size", .int 32), ("memory_limit_mb", .int 1000),
      ("use_quantization", .bool true)]),
    ("speed_optimized", .dict [("batch_size", .int 128), ("num_workers", .int 8),
      ("cache_size", .int 50000)]),
    ("balanced", .dict [("batch_size", .int 64), ("num_workers", .int 4),
      ("memory_limit_mb", .int 1500), ("cache_size", .int 25000)]) ]

/-- One entry of `config_map`: the index table is nested once more. -/
inductive CfgTable where
  | flat (t : Conf)
  | nested (t : Dict String (Dict String Conf))

/-- `config_map`, configs.py:374-381 and 411-418. -/
def configMap : Dict String CfgTable :=
  [ ("index", .nested indexConfigs), ("storage", .flat storageConfigs),
    ("document", .flat documentConfigs), ("embedding", .flat embeddingConfigs),
    ("application", .flat applicationConfigs), ("performance", .flat performanceConfigs) ]

/-- The loop over the subcategories, configs.py:390-392. -/
def findNested (name : String) : Dict String (Dict String Conf) → Option Conf
  | [] => none
  | (_, configs) :: rest =>
    match configs.get? name with
    | some c => some c
    | none => findNested name rest

/-- `get_config`, configs.py:363-398.  The test `category == "index"` is the shape of the table. -/
def getConfig (category name : String) : Except Err Cfg :=
  match configMap.get? category with
  | none => .error .value
  | some (.nested t) =>
    match findNested name t with
    | some c => .ok (.dict c)
    | none => .error .value
  | some (.flat t) =>
    match t.get? name with
    | some c => .ok c
    | none => .error .value

/-- What `list_configs` gives for one key. -/
inductive Listing where
  | names (l : List String)
  | groups (d : Dict String (List String))
deriving DecidableEq

/-- Names by subcategory, configs.py:424-427 and 436-438. -/
def groupNames (t : Dict String (Dict String Conf)) : Dict String (List String) :=
  t.map fun (sub, configs) => (sub, Dict.keys configs)

/-- `list_configs`, configs.py:401-442. -/
def listConfigs (category : Option String) : Except Err (Dict String Listing) :=
  match category with
  | some c =>
    if c ≠ "" then
      match configMap.get? c with
      | none => .error .value
      | some (.nested t) => .ok ((groupNames t).map fun (sub, l) => (sub, .names l))
      | some (.flat t) => .ok [(c, .names (Dict.keys t))]
    else .ok (configMap.map fun (cat, t) => (cat, match t with
      | .nested t => .groups (groupNames t)
      | .flat t => .names (Dict.keys t)))
  | none => .ok (configMap.map fun (cat, t) => (cat, match t with
      | .nested t => .groups (groupNames t)
      | .flat t => .names (Dict.keys t)))

/-- `v[k]` -/
def Cfg.sub (v : Cfg) (k : String) : Except Err Cfg :=
  match v with
  | .dict d => match Dict.get? d k with
    | some x => .ok x
    | none => .error .key
  | _ => .error .typeE

/-- The choice of the index in `get_recommended_config`, configs.py:465-482. -/
def recommendedIndex (n d : Int) (useCase : String) : Except Err (String × Cfg) :=
  if n < 1000 then
    (getConfig "index" "small_dataset").map fun c => ("flat", c)
  else if n < 100000 then
    if useCase = "speed" then
      ((getConfig "index" "medium_dataset").bind (·.sub "annoy_fast")).map fun c => ("annoy", c)
    else if useCase = "accuracy" then
      ((getConfig "index" "medium_dataset").bind (·.sub "hnsw_balanced")).map fun c => ("hnsw", c)
    else
      ((getConfig "index" "medium_dataset").bind (·.sub "annoy_fast")).map fun c => ("annoy", c)
  else if d > 1000 then
    ((getConfig "index" "high_dimensional").bind (·.sub "lsh_balanced")).map fun c => ("lsh", c)
  else
    ((getConfig "index" "large_dataset").bind (·.sub "ivf_efficient")).map fun c => ("ivf", c)

/-- `get_recommended_config`, configs.py:445-505. -/
def getRecommendedConfig (n d : Int) (useCase storageType : String) : Except Err Cfg :=
  match recommendedIndex n d useCase with
  | .error e => .error e
  | .ok (name, idx) =>
    match getConfig "storage" storageType with
    | .error e => .error e
    | .ok st =>
      match (if d ≤ 384 then getConfig "embedding" "fast_small"
        else if d ≤ 768 then getConfig "embedding" "balanced"
        else getConfig "embedding" "high_quality") with
      | .error e => .error e
      | .ok emb => .ok (.dict [("index", .dict [("type", .str name), ("config", idx)]),
          ("storage", st), ("embedding", emb),
          ("metadata", .dict [("num_vectors", .int n), ("dimension", .int d),
            ("use_case", .str useCase), ("storage_type", .str storageType)])])

/-! ## Index recommendation -/

/-- `get_recommended_index_config`, helpers.py:372-435: type and configuration.  The arguments may be
any values; comparing what is no number raises `TypeError`. -/
def recommendIndex (n d : Cfg) (useCase : Cfg) : Except Err (String × Conf) :=
  match n.asNum with
  | .error e => .error e
  | .ok x =>
    if x < 1000 then .ok ("flat", [("metric", .str "cosine")])
    else if x < 100000 then
      if useCase = .str "speed" then
        .ok ("annoy", [("metric", .str "angular"), ("num_trees", .int 10), ("search_k", .int (-1))])
      else if useCase = .str "accuracy" then
        .ok ("hnsw", [("metric", .str "cosine"), ("M", .int 16), ("ef_construction", .int 200),
          ("ef_search", .int 50)])
      else
        .ok ("annoy", [("metric", .str "angular"), ("num_trees", .int 20), ("search_k", .int (-1))])
    else match d.asNum with
      | .error e => .error e
      | .ok y =>
        if y > 1000 then
          .ok ("lsh", [("metric", .str "cosine"), ("num_hash_tables", .int 15),
            ("hash_size", .int 20), ("num_projections", .int 100), ("threshold", .num (3 / 10))])
        else
          .ok ("ivf", [("metric", .str "cosine"),
            ("n_clusters", .int (min 1000 (⌊x / 100⌋))), ("n_probes", .int 10)])

/-! ## Constructors -/

/-- An index object by class, with the parameters its constructor reads. -/
inductive IndexObj where
  | flat (metric : Cfg)
  | hnsw (m efConstruction efSearch metric : Cfg)
  | ivf (nClusters nProbes metric : Cfg)
  | lsh (metric numHashTables hashSize numProjections randomSeed threshold : Cfg)
  | annoy (numTrees metric searchK buildOnDisk randomSeed : Cfg)
deriving DecidableEq

/-- `if v <= 0: raise ValoriIndexError` -/
def positive (v : Cfg) : Except Err Unit :=
  match v.asNum with
  | .error e => .error e
  | .ok q => if q ≤ 0 then .error .index else .ok ()

/-- `np.random.RandomState(seed)`: None and integers below 2^32 are fine, other integers raise
`ValueError`, everything else that occurs here `TypeError`. -/
def rngSeed : Cfg → Except Err Unit
  | .null => .ok ()
  | .bool _ => .ok ()
  | .int i => if 0 ≤ i ∧ i < 2 ^ 32 then .ok () else .error .value
  | _ => .error .typeE

/-- The constructors flat.py:25-31, hnsw.py:27-41, ivf.py:25-38, lsh.py:29-57, annoy.py:28-67
chosen by `_create_index`, factory.py:271-284.  `lib` says whether the annoy package can be
imported. -/
def createIndex (lib : Bool) (ty : Cfg) (config : Cfg) : Except Err IndexObj :=
  let withDict (f : Conf → Except Err IndexObj) : Except Err IndexObj :=
    match config with
    | .dict c => f c
    | _ => .error .attribute
  if ty = .str "flat" then withDict fun c => .ok (.flat (getD c "metric" (.str "cosine")))
  else if ty = .str "hnsw" then withDict fun c =>
    .ok (.hnsw (getD c "m" (.int 16)) (getD c "ef_construction" (.int 200))
      (getD c "ef_search" (.int 50)) (getD c "metric" (.str "cosine")))
  else if ty = .str "ivf" then withDict fun c =>
    .ok (.ivf (getD c "n_clusters" (.int 100)) (getD c "n_probes" (.int 10))
      (getD c "metric" (.str "cosine")))
  else if ty = .str "lsh" then withDict fun c => do
    let tables := getD c "num_hash_tables" (.int 10)
    let size := getD c "hash_size" (.int 16)
    let proj := getD c "num_projections" (.int 64)
    positive tables
    positive size
    positive proj
    rngSeed (getD c "random_seed" (.int 42))
    .ok (.lsh (getD c "metric" (.str "cosine")) tables size proj (getD c "random_seed" (.int 42))
      (getD c "threshold" (.num (1 / 2))))
  else if ty = .str "annoy" then withDict fun c => do
    let trees := getD c "num_trees" (.int 10)
    let metric := getD c "metric" (.str "angular")
    positive trees
    if metric ∉ [.str "angular", .str "euclidean", .str "manhattan", .str "hamming", .str "dot"] then
      .error .index
    else if lib = false then .error .index
    else .ok (.annoy trees metric (getD c "search_k" (.int (-1)))
      (getD c "build_on_disk" (.bool false)) (getD c "random_seed" (.int 42)))
  else .error .value

/-- A storage object with the parameters its constructor reads. -/
inductive StorageObj where
  | memory
  | disk (dir : String)
  | hybrid (memoryLimit : Cfg) (dir : String)
deriving DecidableEq

/-- `DiskStorage.__init__`, disk.py:24-30. -/
def diskDir (config : Cfg) : Except Err String :=
  match config with
  | .dict c => match getD c "data_dir" (.str "./valori_data") with
    | .str s => .ok s
    | _ => .error .typeE
  | _ => .error .attribute

/-- `_create_storage`, factory.py:287-296, with memory.py:22-29, disk.py:24-30, hybrid.py:26-39. -/
def createStorage (ty : Cfg) (config : Cfg) : Except Err StorageObj :=
  if ty = .str "memory" then .ok .memory
  else if ty = .str "disk" then (diskDir config).map .disk
  else if ty = .str "hybrid" then
    match config with
    | .dict c => (diskDir (getD c "disk" (.dict []))).map fun s =>
        .hybrid (getD c "memory_limit" (.int 10000)) s
    | _ => .error .attribute
  else .error .value

/-- What the factory depends on: the annoy package, and `client.initialize()` for the two objects. -/
structure FactoryEnv where
  lib : Bool
  start : IndexObj → StorageObj → Except Err Unit

/-- `create_vector_db`, factory.py:21-63, given its keyword arguments as a dictionary. -/
def createVectorDb (E : FactoryEnv) (kw : Conf) : Except Err (IndexObj × StorageObj) := do
  let numVectors := getD kw "num_vectors" .null
  let dimension := getD kw "dimension" .null
  let useCase := getD kw "use_case" (.str "balanced")
  let indexType := getD kw "index_type" .null
  let storageType := getD kw "storage_type" (.str "memory")
  let (ty, config) ← (if indexType.truthy then .ok (indexType, getD kw "index_config" (.dict []))
    else (recommendIndex numVectors dimension useCase).map fun p => (Cfg.str p.1, Cfg.dict p.2))
  let index ← createIndex E.lib ty config
  let storage ← createStorage storageType (getD kw "storage_config" (.dict []))
  E.start index storage
  .ok (index, storage)

/-- `d.update(e)` -/
def updateWith (d e : Conf) : Conf := e.foldl (fun d p => d.set p.1 p.2) d

/-- `TEMPLATES`, factory.py:349-387. -/
def templates : Dict String Conf :=
  [ ("small_dataset", [("index_type", .str "flat"), ("storage_type", .str "memory")]),
    ("medium_dataset", [("index_type", .str "annoy"), ("storage_type", .str "memory"),
      ("index_config", .dict [("metric", .str "angular"), ("num_trees", .int 10),
        ("search_k", .int (-1))])]),
    ("large_dataset", [("index_type", .str "ivf"), ("storage_type", .str "disk"),
      ("index_config", .dict [("metric", .str "cosine"), ("n_clusters", .int 1000),
        ("n_probes", .int 10)])]),
    ("high_dimensional", [("index_type", .str "lsh"), ("storage_type", .str "memory"),
      ("index_config", .dict [("metric", .str "cosine"), ("num_hash_tables", .int 15),
        ("hash_size", .int 20), ("num_projections", .int 100), ("threshold", .num (3 / 10))])]),
    ("real_time_search", [("index_type", .str "annoy"), ("storage_type", .str "memory"),
      ("index_config", .dict [("metric", .str "angular"), ("num_trees", .int 5),
        ("search_k", .int 10)])]),
    ("document_search", [("index_type", .str "hnsw"), ("storage_type", .str "memory"),
      ("index_config", .dict [("metric", .str "cosine"), ("M", .int 16),
        ("ef_construction", .int 200), ("ef_search", .int 50)])]) ]

/-- `create_from_template`, factory.py:390-409. -/
def createFromTemplate (E : FactoryEnv) (name : String) (overrides : Conf) :
    Except Err (IndexObj × StorageObj) :=
  match templates.get? name with
  | none => .error .value
  | some t => createVectorDb E (updateWith t overrides)

/-- `create_document_db`, factory.py:65-135, without the pipeline it returns: `pipeline` is the result
of `pipeline.initialize()`.  `index_type` and `kwargs` are arguments; `{"index_type": …, **kwargs}`. -/
def createDocumentDb (E : FactoryEnv) (pipeline : Except Err Unit) (indexType : Cfg) (kwargs : Conf) :
    Except Err (IndexObj × StorageObj) :=
  match pipeline with
  | .error e => .error e
  | .ok () =>
    let db : Conf := updateWith [("index_type", indexType), ("storage_type", .str "memory")] kwargs
    let db : Conf :=
      if indexType = .str "annoy" then
        db.set "index_config" (.dict [("metric", .str "angular"), ("num_trees", .int 20),
          ("search_k", .int (-1))])
      else if indexType = .str "hnsw" then
        db.set "index_config" (.dict [("metric", .str "cosine"), ("M", .int 16),
          ("ef_construction", .int 200), ("ef_search", .int 50)])
      else db
    createVectorDb E db

end Valori
