{"id": "C01", "title": "In-memory storage is a last-write-wins map", "statement": "After any sequence of store/update/delete calls on an initialised in-memory backend, retrieving an id returns exactly the vector and metadata given by the last successful store or update of that id that no later delete removed, and nothing when there is none; a store or update without metadata erases earlier metadata; store of the empty id is refused and changes nothing; update and delete return True exactly when the id was present; no call changes what any other id retrieves.", "quantifier": "every finite history of calls, every id, every vector and metadata value", "why_tests_cant": "Unit tests run a few short call sequences; the claim is about all histories and all pairs of ids.", "anchors": ["src/valori/storage/memory.py::MemoryStorage.store_vector", "src/valori/storage/memory.py::MemoryStorage.update_vector", "src/valori/storage/memory.py::MemoryStorage.delete_vector", "src/valori/storage/memory.py::MemoryStorage.retrieve_vector"]}
{"id": "C02", "title": "In-memory listing and counting agree with content", "statement": "At every moment list_vectors() of the in-memory backend lists exactly the ids that retrieve something, each once, in the order in which they were first stored since their last deletion; list_vectors(limit) with limit >= 0 is the prefix of that length; get_stats()'s vector_count equals the length of the list.", "quantifier": "every history of store/update/delete/initialize/close calls and every non-negative limit", "why_tests_cant": "Needs an invariant over all histories; counters that drift only do so on particular interleavings.", "anchors": ["src/valori/storage/memory.py::MemoryStorage.list_vectors", "src/valori/storage/memory.py::MemoryStorage.get_stats", "src/valori/storage/memory.py::MemoryStorage.store_vector"]}
{"id": "C03", "title": "Storage backends refuse work outside their lifetime", "statement": "On every backend (memory, disk, hybrid) that was never initialised or was closed, store (of a non-empty id), retrieve, delete, update and list raise StorageError and leave the backend's state and the files untouched; store of the empty id returns False in every state.", "quantifier": "every backend state, every argument", "why_tests_cant": "Tests try one call per backend from one state; the claim is about all reachable states.", "anchors": ["src/valori/storage/memory.py::MemoryStorage", "src/valori/storage/disk.py::DiskStorage", "src/valori/storage/hybrid.py::HybridStorage"]}
{"id": "C04", "title": "Disk storage is a last-write-wins map up to file-name aliasing", "statement": "After any sequence of store/update/delete calls on an initialised disk backend, retrieving an id returns the vector and metadata of the last successful store or update among all ids with the same file name, or nothing when that file was deleted last or never written; ids with different file names never affect each other; ids made of letters, digits, '.', '_' and '-' never share a file name.", "quantifier": "every finite history of calls, every id string, every vector and metadata", "why_tests_cant": "Aliasing depends on pairs of ids a test would have to guess; the map law is about all histories.", "anchors": ["src/valori/storage/disk.py::DiskStorage.store_vector", "src/valori/storage/disk.py::DiskStorage.retrieve_vector", "src/valori/storage/disk.py::DiskStorage.delete_vector", "src/valori/storage/disk.py::DiskStorage.update_vector", "src/valori/storage/disk.py::DiskStorage._sanitize_id"]}
{"id": "C05", "title": "Disk content survives close and reopen", "statement": "Closing a disk backend at any point and opening a fresh backend on the same directory yields, for every id, exactly the same retrieve result, and the same listing; the new vector_count is the number of stored vectors.", "quantifier": "every history before the close, any number of reopenings, every id", "why_tests_cant": "Restart points are part of the quantifier.", "anchors": ["src/valori/storage/disk.py::DiskStorage.initialize", "src/valori/storage/disk.py::DiskStorage.close", "src/valori/storage/disk.py::DiskStorage.retrieve_vector"]}
{"id": "C06", "title": "Distinct ids never share a disk entry", "statement": "Storing under one id never changes what another id retrieves from disk storage (full statement, for all pairs of distinct ids). It is false of this code: ids such as 'a/b' and 'a_b' share a file.", "quantifier": "every pair of distinct ids", "why_tests_cant": "The failing pairs are not the ones a developer writes in a test.", "anchors": ["src/valori/storage/disk.py::DiskStorage._sanitize_id", "src/valori/storage/disk.py::DiskStorage.store_vector"]}
{"id": "C07", "title": "A crash during a disk operation never damages other ids", "statement": "If the process dies at any point inside store, update or delete of one id, then after reopening every id with a different file name retrieves exactly what it retrieved before the interrupted call, and no other id appears or disappears from the listing.", "quantifier": "every crash point inside every operation, every earlier history, every other id", "why_tests_cant": "Crash points cannot be enumerated by unit tests.", "anchors": ["src/valori/storage/disk.py::DiskStorage.store_vector", "src/valori/storage/disk.py::DiskStorage.update_vector", "src/valori/storage/disk.py::DiskStorage.delete_vector"]}
{"id": "C08", "title": "Disk operations are atomic under crashes", "statement": "If the process dies at any point inside a disk store, update or delete, then after reopening the id retrieves either its old pair or its new pair (or nothing for delete). True of delete; false of store and update, which can leave the new vector with the old metadata or an unreadable file; the exact set of outcomes is characterised.", "quantifier": "every crash point, every old and new content", "why_tests_cant": "Crash points cannot be enumerated by unit tests.", "anchors": ["src/valori/storage/disk.py::DiskStorage.store_vector", "src/valori/storage/disk.py::DiskStorage.delete_vector"]}
{"id": "C09", "title": "Hybrid storage is a last-write-wins map whatever the cache does", "statement": "After any sequence of store/retrieve/update/delete calls on an initialised hybrid backend with any memory_limit, retrieving an id returns exactly the vector and metadata of the last successful store/update not followed by a delete: evictions and promotions are invisible. Holds for every history whose ids have pairwise different file names.", "quantifier": "every history, every memory limit (including zero and negative), every id", "why_tests_cant": "Cache coherence bugs need a specific eviction order; the claim is about all of them.", "anchors": ["src/valori/storage/hybrid.py::HybridStorage.store_vector", "src/valori/storage/hybrid.py::HybridStorage.retrieve_vector", "src/valori/storage/hybrid.py::HybridStorage.update_vector", "src/valori/storage/hybrid.py::HybridStorage.delete_vector", "src/valori/storage/hybrid.py::HybridStorage._evict_from_memory"]}
{"id": "C10", "title": "Hybrid memory use is bounded", "statement": "The number of vectors the hybrid backend holds in memory never exceeds max(memory_limit, 1), at any moment of any history.", "quantifier": "every history, every memory limit, every id string", "why_tests_cant": "An invariant over all histories.", "anchors": ["src/valori/storage/hybrid.py::HybridStorage.store_vector", "src/valori/storage/hybrid.py::HybridStorage.retrieve_vector"]}
{"id": "C11", "title": "Hybrid storage loses nothing on restart", "statement": "At any moment, everything hybrid storage can return is on disk: closing it and opening a new one on the same directory (losing all memory) leaves every retrieve result unchanged, and list_vectors lists exactly the ids that retrieve something.", "quantifier": "every history with pairwise different file names, every memory limit", "why_tests_cant": "Restart points are part of the quantifier.", "anchors": ["src/valori/storage/hybrid.py::HybridStorage.close", "src/valori/storage/hybrid.py::HybridStorage.initialize", "src/valori/storage/hybrid.py::HybridStorage.list_vectors"]}
{"id": "C12", "title": "Hybrid storage and disk storage agree on every id string", "statement": "For arbitrary id strings, hybrid storage returns what a plain disk backend with the same history would return. False: when two ids share a file name the memory layer keeps serving a stale or deleted vector under one of them.", "quantifier": "every history over arbitrary id strings", "why_tests_cant": "Needs a colliding pair plus a particular interleaving.", "anchors": ["src/valori/storage/hybrid.py::HybridStorage.retrieve_vector", "src/valori/storage/disk.py::DiskStorage._sanitize_id"]}
{"id": "C13", "title": "Flat search is exact k-nearest-neighbour search", "statement": "For every state reached by index operations and every query, a search with k >= 0 that returns does return min(k, n) results where n is the number of live vectors; they have distinct ids, are ordered by non-decreasing distance, each carries the distance of the query to the vector currently stored under that id and its current metadata, and no live vector left out is closer than one returned.", "quantifier": "every history, every query, every k, every storage backend that behaves as a map, any tie-breaking of the (unstable) sort", "why_tests_cant": "Exactness for all data sets and all tie-breaks cannot be sampled.", "anchors": ["src/valori/indices/flat.py::FlatIndex.search", "src/valori/indices/flat.py::FlatIndex.insert"]}
{"id": "C14", "title": "Index contents follow the history (flat)", "statement": "After any sequence of insert/update/delete through the flat index, the live ids are exactly those inserted and not deleted since, each with the vector and metadata of its last insert or successful update; delete returns True exactly when all listed ids were live when reached, update returns True exactly when the id was live; get_stats vector_count is the number of live ids.", "quantifier": "every history of index calls over every map-like backend", "why_tests_cant": "Quantifies over all histories and over all backends meeting the map contract.", "anchors": ["src/valori/indices/flat.py::FlatIndex.insert", "src/valori/indices/flat.py::FlatIndex.delete", "src/valori/indices/flat.py::FlatIndex.update", "src/valori/indices/flat.py::FlatIndex.get_stats"]}
{"id": "C15", "title": "Deleted vectors never come back (flat, IVF, HNSW, LSH)", "statement": "Once an id has been deleted, no later search returns it, until the same id is inserted again.", "quantifier": "every history, every query, every k", "why_tests_cant": "Resurrection bugs depend on caches and clusters touched by unrelated calls.", "anchors": ["src/valori/indices/flat.py::FlatIndex.delete", "src/valori/indices/ivf.py::IVFIndex.delete", "src/valori/indices/hnsw.py::HNSWIndex.delete", "src/valori/indices/lsh.py::LSHIndex.delete"]}
{"id": "C16", "title": "Insert pairs rows, ids and metadata in order", "statement": "A successful insert of n rows returns n ids, all different from each other and from every id present before; the i-th id retrieves the i-th row with the i-th metadata entry, or no metadata when the metadata list is shorter or missing.", "quantifier": "every batch, every metadata list length, every prior state", "why_tests_cant": "Off-by-one pairing errors show only for particular length combinations.", "anchors": ["src/valori/indices/flat.py::FlatIndex.insert", "src/valori/indices/ivf.py::IVFIndex.insert", "src/valori/indices/hnsw.py::HNSWIndex.insert"]}
{"id": "C17", "title": "A failed batch insert is all-or-nothing", "statement": "If insert raises, no row of the batch is visible afterwards. False: rows stored before the failing row stay stored and searchable while the caller gets no ids and the reported vector_count is stale; what does hold is that exactly the rows before the failing one are added and nothing else changes.", "quantifier": "every batch, every position at which the backend fails", "why_tests_cant": "Fault positions are part of the quantifier.", "anchors": ["src/valori/indices/flat.py::FlatIndex.insert"]}
{"id": "C18", "title": "When flat search fails", "statement": "On a non-empty live index a flat search raises exactly when the metric is unsupported, or some live vector or the query is not finite, or some live vector's dimension differs from the query's; insert accepts such vectors, so one bad insert makes every later search fail until it is deleted.", "quantifier": "every reachable state and query", "why_tests_cant": "An exact characterisation needs both directions for all states.", "anchors": ["src/valori/indices/flat.py::FlatIndex.search", "src/valori/indices/flat.py::FlatIndex.insert"]}
{"id": "C19", "title": "Flat index over durable storage survives restart", "statement": "With a storage backend that keeps its content over close/reopen, closing client and index and opening new ones yields the same live ids, vectors and metadata, and every search returns the same set of (id, distance, metadata) up to ties.", "quantifier": "every history, every query", "why_tests_cant": "Restart points are part of the quantifier.", "anchors": ["src/valori/indices/flat.py::FlatIndex.initialize", "src/valori/indices/flat.py::FlatIndex.close", "src/valori/storage/disk.py::DiskStorage.initialize"]}
{"id": "C20", "title": "IVF clusters partition the live vectors", "statement": "While an IVF index is trained, every live id is in exactly one cluster exactly once and every cluster member is live, after any history of insert, update, delete.", "quantifier": "every history, every clustering outcome, every centroid set", "why_tests_cant": "Drift between cluster lists and the live set appears only after particular update/delete interleavings.", "anchors": ["src/valori/indices/ivf.py::IVFIndex._train_index", "src/valori/indices/ivf.py::IVFIndex._add_to_cluster", "src/valori/indices/ivf.py::IVFIndex._update_cluster_assignment", "src/valori/indices/ivf.py::IVFIndex.delete"]}
{"id": "C21", "title": "IVF search results are sound", "statement": "Every IVF search returns at most k results with distinct live ids, ordered by distance, each with the true distance to the current vector and the current metadata, whether or not the index is trained.", "quantifier": "every history, query, k >= 0, clustering outcome", "why_tests_cant": "Soundness over all states.", "anchors": ["src/valori/indices/ivf.py::IVFIndex.search", "src/valori/indices/ivf.py::IVFIndex._brute_force_search"]}
{"id": "C22", "title": "IVF search is exact when it looks everywhere", "statement": "An IVF search returns an exact k-nearest-neighbour answer when the index is untrained, or when n_probes is at least the number of centroids; with fewer probes it is exact among the vectors of the probed clusters.", "quantifier": "every history, query, k, clustering outcome", "why_tests_cant": "Exactness for all inputs.", "anchors": ["src/valori/indices/ivf.py::IVFIndex.search"]}
{"id": "C23", "title": "IVF places vectors in the nearest cluster", "statement": "Every vector inserted or updated while the index is trained is put in the cluster of a centroid at minimal distance (the first such centroid), so a query equal to that vector with n_probes >= 1 and k at least the number of live vectors finds it, even when several centroids are equally near.", "quantifier": "every vector, centroid set, history", "why_tests_cant": "Quantifies over all geometric configurations.", "anchors": ["src/valori/indices/ivf.py::IVFIndex._add_to_cluster", "src/valori/indices/ivf.py::IVFIndex.search"]}
{"id": "C24", "title": "HNSW graph stays well-formed", "statement": "After any history of HNSW operations: links are symmetric within each level, no node links to itself or twice to the same node, every linked node is present on that level, every node on any level is a live vector and is present on level 0, and every live vector is on level 0.", "quantifier": "every history, every outcome of the random level and neighbour choices", "why_tests_cant": "Random choices and histories are part of the quantifier.", "anchors": ["src/valori/indices/hnsw.py::HNSWIndex._insert_vector_internal", "src/valori/indices/hnsw.py::HNSWIndex._remove_vector_internal"]}
{"id": "C25", "title": "HNSW search results are sound", "statement": "Every HNSW search returns at most min(k, n) results, ordered by distance, each a live id with the true distance to its current vector and its current metadata.", "quantifier": "every history, random outcome, query, k >= 0", "why_tests_cant": "Soundness over all states.", "anchors": ["src/valori/indices/hnsw.py::HNSWIndex.search"]}
{"id": "C26", "title": "HNSW search finds something in a non-empty index", "statement": "A search with k >= 1 on an index with at least one live vector returns at least one result. False: whatever the history, if the highest level drawn so far is above 0 and at most one live vector stands on it, every search returns an empty list. While the index never held more than m vectors this is the only way to find nothing; it never happens while every node is on level 0 only.", "quantifier": "every history and every random outcome", "why_tests_cant": "Fails only for particular random outcomes or deletions, so tests are flaky at best.", "anchors": ["src/valori/indices/hnsw.py::HNSWIndex.search", "src/valori/indices/hnsw.py::HNSWIndex._remove_vector_internal"]}
{"id": "C27", "title": "HNSW search returns no id twice", "statement": "The ids returned by an HNSW search are pairwise different. False when the graph has more than one level; holds when only level 0 is populated. While the index never held more than m vectors and no two of them are equally far from the query, a search for two or more results repeats an id exactly if the levels drawn give two or more copies (C231).", "quantifier": "every history, random outcome, query", "why_tests_cant": "Depends on random graph shape.", "anchors": ["src/valori/indices/hnsw.py::HNSWIndex.search"]}
{"id": "C28", "title": "LSH hash tables mirror the live vectors", "statement": "After any history of LSH add/delete/update with ids the index handed out and vectors of the right dimension, an id is in bucket h of table t exactly when the id is live and the t-th hash of its current vector is h, and it is there exactly once.", "quantifier": "every history, every projection matrix and offsets", "why_tests_cant": "An invariant over histories and random projections.", "anchors": ["src/valori/indices/lsh.py::LSHIndex.add", "src/valori/indices/lsh.py::LSHIndex.remove", "src/valori/indices/lsh.py::LSHIndex.update"]}
{"id": "C29", "title": "An LSH query equal to a stored vector finds it", "statement": "Searching for a vector equal to a live stored one always considers that id: it is among the results whenever its self-similarity reaches the threshold and k is at least the number of live vectors.", "quantifier": "every history, projections, live vector", "why_tests_cant": "Holds for every random projection, which tests sample once per seed.", "anchors": ["src/valori/indices/lsh.py::LSHIndex.search", "src/valori/indices/lsh.py::LSHIndex._hash_vector"]}
{"id": "C30", "title": "LSH search results are sound", "statement": "Every LSH search returns at most k results with distinct live ids, each with the true similarity to its current vector, at least the threshold, ordered by non-increasing similarity, with the id's current metadata; no candidate sharing a bucket with the query and passing the threshold is dropped in favour of a less similar one.", "quantifier": "every history, query, threshold, k >= 0, any iteration order of Python sets", "why_tests_cant": "Soundness over all states and set orders.", "anchors": ["src/valori/indices/lsh.py::LSHIndex.search", "src/valori/indices/lsh.py::LSHIndex._relaxed_search"]}
{"id": "C31", "title": "LSH ids are sequential and never reused", "statement": "add assigns consecutive integers continuing from the previous ones; no id is handed out twice until clear(); an id keeps denoting the vector it was assigned to.", "quantifier": "every history of add/delete/update", "why_tests_cant": "A history property.", "anchors": ["src/valori/indices/lsh.py::LSHIndex.add", "src/valori/indices/lsh.py::LSHIndex.remove"]}
{"id": "C32", "title": "A rejected LSH add changes no content", "statement": "If add raises because of a length mismatch, a dimension mismatch or a non-finite vector, then vectors, metadata, ids and hash tables are unchanged (only the dimension may have been fixed by a first, rejected batch, which then rejects all batches of another dimension).", "quantifier": "every state and every rejected batch (with hash_size <= num_projections)", "why_tests_cant": "Atomicity over all failing inputs.", "anchors": ["src/valori/indices/lsh.py::LSHIndex.add"]}
{"id": "C33", "title": "A failed LSH update changes nothing", "statement": "If update returns False the index is as before. False: an update with a vector of the wrong dimension returns False after dropping the id from all buckets and replacing its vector; later searches can raise or miss it. Holds when the id is unknown or removed.", "quantifier": "every state, id, vector", "why_tests_cant": "Fault cases.", "anchors": ["src/valori/indices/lsh.py::LSHIndex.update"]}
{"id": "C34", "title": "Deleting an id that was never assigned has no effect (LSH)", "statement": "delete of an id string the index never returned leaves the live set unchanged. False for negative numbers: '-1' removes the last vector's data. Holds for all non-numeric strings and all numbers that are not negative.", "quantifier": "every state and every id string", "why_tests_cant": "The failing inputs are outside a tester's imagination.", "anchors": ["src/valori/indices/lsh.py::LSHIndex.delete", "src/valori/indices/lsh.py::LSHIndex.remove"]}
{"id": "C35", "title": "LSH hashing stays in range", "statement": "For every configuration with 0 < hash_size <= num_projections hashing never indexes outside the projection matrix, gives one code per table and each code has hash_size bits; with hash_size > num_projections (accepted by the constructor) the first insert can raise after the vector was already added.", "quantifier": "every configuration, table index and vector", "why_tests_cant": "Configuration space is unbounded.", "anchors": ["src/valori/indices/lsh.py::LSHIndex._hash_vector", "src/valori/indices/lsh.py::LSHIndex.__init__"]}
{"id": "C36", "title": "Annoy ids and metadata stay aligned while no update happens", "statement": "In every history of Annoy adds, builds and deletes (no update), each assigned id is the position of its vector, ids are consecutive, and a search result for an id carries the metadata given when that id was added, or None when it was deleted since.", "quantifier": "every history without update, every answer of the annoy library", "why_tests_cant": "A history property, over an external library's every answer.", "anchors": ["src/valori/indices/annoy.py::AnnoyIndex.add", "src/valori/indices/annoy.py::AnnoyIndex.remove", "src/valori/indices/annoy.py::AnnoyIndex.search"]}
{"id": "C37", "title": "Deleted vectors are not returned by Annoy search", "statement": "After delete, search does not return the id. False: deleted ids stay in the annoy structure and are returned with metadata None.", "quantifier": "every history and library answer", "why_tests_cant": "Needs an adversarial but legal library answer.", "anchors": ["src/valori/indices/annoy.py::AnnoyIndex.remove", "src/valori/indices/annoy.py::AnnoyIndex.search"]}
{"id": "C38", "title": "Annoy update keeps ids and metadata aligned", "statement": "After update(id, vector, metadata) returns True, results for id carry the new metadata and results for every other id are unchanged, now and after later inserts. False: the new metadata is appended at a different position, the updated id reports None and later inserted ids report another vector's metadata.", "quantifier": "every history with updates", "why_tests_cant": "Corruption appears only in later calls.", "anchors": ["src/valori/indices/annoy.py::AnnoyIndex.update", "src/valori/indices/annoy.py::AnnoyIndex.add"]}
{"id": "C39", "title": "An Annoy index can be reused after clear", "statement": "After clear() (or close() and initialize()) vectors can be added again. False: once a dimension was fixed, every later add of at least one vector raises and leaves the vector half-added.", "quantifier": "every history containing clear or close", "why_tests_cant": "A history property.", "anchors": ["src/valori/indices/annoy.py::AnnoyIndex.clear", "src/valori/indices/annoy.py::AnnoyIndex.add", "src/valori/indices/annoy.py::AnnoyIndex.close"]}
{"id": "C40", "title": "Annoy similarity scores respect distance order", "statement": "For the angular, euclidean, manhattan and hamming metrics a larger distance never yields a larger similarity score; scores for non-negative distances lie in [0,1] for angular, euclidean and manhattan; distance 0 gives 1. For dot products the score is the value of the library cut to [0,1].", "quantifier": "every non-negative distance, every metric", "why_tests_cant": "Quantifies over a continuum.", "anchors": ["src/valori/indices/annoy.py::AnnoyIndex._distance_to_similarity"]}
{"id": "C41", "title": "Tensor persistence round trip", "statement": "After any history of successful save_state/save_index calls, load_state and load_index of a path return the last value saved under that path (by either call), None when nothing was; saving one path never changes another; content survives close and reopen; save_count and load_count count exactly the successful saves and non-None loads.", "quantifier": "every history of saves/loads/reopens, every path and value", "why_tests_cant": "A history property over all interleavings and restarts.", "anchors": ["src/valori/persistence/tensor.py::TensorPersistence.save_state", "src/valori/persistence/tensor.py::TensorPersistence.load_state", "src/valori/persistence/tensor.py::TensorPersistence.save_index", "src/valori/persistence/tensor.py::TensorPersistence.load_index"]}
{"id": "C42", "title": "Vectors saved under a path load back from that path", "statement": "save_vectors(v, ids, path) followed by load_vectors(path) returns (v, ids). Holds exactly when the path ends in '.npz'; otherwise the data goes to path + '.npz' and the load reports nothing (or a stale unrelated file).", "quantifier": "every path string, vectors and ids", "why_tests_cant": "The suffix condition is an if-and-only-if over all paths.", "anchors": ["src/valori/persistence/tensor.py::TensorPersistence.save_vectors", "src/valori/persistence/tensor.py::TensorPersistence.load_vectors", "src/valori/persistence/incremental.py::IncrementalPersistence.save_vectors"]}
{"id": "C43", "title": "A failed save keeps the previous content", "statement": "If save_state raises because the value cannot be serialised, or the process dies during the save, the previously saved value is still loadable. False: the file is truncated before serialisation starts.", "quantifier": "every earlier content, every failing value, every crash point", "why_tests_cant": "Fault points are part of the quantifier.", "anchors": ["src/valori/persistence/tensor.py::TensorPersistence.save_state"]}
{"id": "C44", "title": "Incremental persistence returns the latest saved state", "statement": "In every crash-free history of save_state, save_vectors, save_index and restarts, with any checkpoint interval, load_state returns exactly the state passed to the last save_state, or None when there was none.", "quantifier": "every history including restarts, every interval", "why_tests_cant": "Counter bugs show only after particular numbers of operations and restarts.", "anchors": ["src/valori/persistence/incremental.py::IncrementalPersistence.save_state", "src/valori/persistence/incremental.py::IncrementalPersistence.load_state", "src/valori/persistence/incremental.py::IncrementalPersistence._log_operation", "src/valori/persistence/incremental.py::IncrementalPersistence._load_checkpoint_info"]}
{"id": "C45", "title": "Incremental persistence survives crashes", "statement": "After a crash at any point and restart, load_state returns a state that was saved or being saved, and states acknowledged after the restart are returned by later loads. False in the second part: a crash between writing the checkpoint and writing the counter file makes acknowledged later saves invisible. Holds when no crash hits that window.", "quantifier": "every crash point, every later history", "why_tests_cant": "Crash points are part of the quantifier.", "anchors": ["src/valori/persistence/incremental.py::IncrementalPersistence.save_state", "src/valori/persistence/incremental.py::IncrementalPersistence._save_checkpoint_info", "src/valori/persistence/incremental.py::IncrementalPersistence._load_checkpoint_info"]}
{"id": "C46", "title": "Operation log and checkpoint counters are consistent", "statement": "Within a session every acknowledged save adds exactly one log line; operation ids in the log of a session are consecutive; the recorded last checkpoint never exceeds the operation count and, between calls, trails it by less than the checkpoint interval (interval >= 1).", "quantifier": "every crash-free history, every interval >= 1", "why_tests_cant": "An invariant over histories.", "anchors": ["src/valori/persistence/incremental.py::IncrementalPersistence._log_operation", "src/valori/persistence/incremental.py::IncrementalPersistence._create_checkpoint", "src/valori/persistence/incremental.py::IncrementalPersistence.get_stats"]}
{"id": "C47", "title": "Incremental load_state honours its path argument", "statement": "load_state(p) returns what was saved under p. False: the path is ignored and the latest state of any path is returned. Holds when all saves use one path.", "quantifier": "every history over several paths", "why_tests_cant": "History property.", "anchors": ["src/valori/persistence/incremental.py::IncrementalPersistence.load_state"]}
{"id": "C48", "title": "Scalar quantiser codes are in range and decode into the training range", "statement": "For every trained scalar quantiser and every input vector (inside or outside the training range), each code lies in [0, 2^bits - 1] (bits <= 31) and its decoded value lies in [min, max] of that dimension in the training set, or equals min + code for constant dimensions.", "quantifier": "every training set, input, bit width (exact arithmetic)", "why_tests_cant": "Quantifies over all real inputs.", "anchors": ["src/valori/quantization/scalar.py::ScalarQuantizer.train", "src/valori/quantization/scalar.py::ScalarQuantizer.quantize", "src/valori/quantization/scalar.py::ScalarQuantizer.dequantize"]}
{"id": "C49", "title": "Scalar quantisation error bound", "statement": "For every vector inside the training range, quantising and dequantising changes each coordinate by at most half a quantisation step, (max-min)/(2*(2^bits-1)); training vectors in particular; constant dimensions are reproduced exactly.", "quantifier": "every training set, every vector within its range, every bit width from 1 to 63 (exact arithmetic)", "why_tests_cant": "A bound over a continuum.", "anchors": ["src/valori/quantization/scalar.py::ScalarQuantizer.quantize", "src/valori/quantization/scalar.py::ScalarQuantizer.dequantize"]}
{"id": "C50", "title": "Scalar quantisation is idempotent and order-preserving", "statement": "Re-quantising a dequantised code gives the same code back, and a larger coordinate never gets a smaller code.", "quantifier": "every trained quantiser of 1 to 63 bits, code and coordinate (exact arithmetic)", "why_tests_cant": "Quantifies over all codes and reals; depends on round-half-even and clipping.", "anchors": ["src/valori/quantization/scalar.py::ScalarQuantizer.quantize", "src/valori/quantization/scalar.py::ScalarQuantizer.dequantize"]}
{"id": "C51", "title": "Product quantisation picks the nearest codeword", "statement": "For every codebook and vector of the right dimension, the product quantiser's code decodes to a vector at minimal Euclidean distance among all vectors the codebook can decode to; codes are valid centroid numbers; decoding a code and encoding again decodes to the same vector.", "quantifier": "every codebook, vector, number of subspaces (exact arithmetic, at most 65536 centroids)", "why_tests_cant": "Global optimality over an exponential set of codes.", "anchors": ["src/valori/quantization/product.py::ProductQuantizer.quantize", "src/valori/quantization/product.py::ProductQuantizer.dequantize"]}
{"id": "C52", "title": "Product quantiser distance equals distance to the decoded vector", "statement": "compute_distance(query, code) equals the Euclidean distance between the (padded or truncated) query and dequantize(code).", "quantifier": "every codebook, query length, code (exact arithmetic)", "why_tests_cant": "An identity over a continuum.", "anchors": ["src/valori/quantization/product.py::ProductQuantizer.compute_distance", "src/valori/quantization/product.py::ProductQuantizer.dequantize"]}
{"id": "C53", "title": "SAQ segments tile the dimensions", "statement": "For every training set the segments chosen are non-empty, contiguous, in order, and cover all dimensions exactly once, and their number is min(n_segments, dim).", "quantifier": "every variance profile, every n_segments >= 1 and dim >= 1", "why_tests_cant": "A dynamic program's backtracking over all inputs.", "anchors": ["src/valori/quantization/saq.py::SAQQuantizer._segment_and_allocate_bits"]}
{"id": "C54", "title": "SAQ bit allocation uses exactly the budget", "statement": "The bits allocated to the segments sum to total_bits and every segment but the last gets at least one; the last can receive zero or negative bits when the budget is too small for the number of segments, in which case training with negative bits fails.", "quantifier": "every variance profile, budget and segment count", "why_tests_cant": "Boundary depends on all inputs.", "anchors": ["src/valori/quantization/saq.py::SAQQuantizer._segment_and_allocate_bits", "src/valori/quantization/saq.py::SAQQuantizer._train_segment_quantizers"]}
{"id": "C55", "title": "SAQ code adjustment never increases the reconstruction error", "statement": "The codes returned by quantize have a total squared reconstruction error, in normalised space, not larger than the initial nearest-centroid codes; in exact arithmetic the adjustment leaves the codes unchanged.", "quantifier": "every codebook, batch of vectors, number of iterations", "why_tests_cant": "Quantifies over all inputs and iteration counts.", "anchors": ["src/valori/quantization/saq.py::SAQQuantizer._apply_code_adjustment"]}
{"id": "C56", "title": "SAQ rescoring is exact when the rescoring set covers everything", "statement": "search_with_rescoring returns min(top_k, candidates) distinct indices ordered by true full-precision distance, exact among the candidates, and exact over the whole data set when rescore_top_k >= number of vectors.", "quantifier": "every data set, query, top_k, rescore_top_k and any tie-breaking", "why_tests_cant": "Exactness for all inputs.", "anchors": ["src/valori/quantization/saq.py::SAQQuantizer.search_with_rescoring", "src/valori/quantization/saq.py::SAQQuantizer._rescoring_search"]}
{"id": "C57", "title": "Fixed-size chunking terminates and covers the text", "statement": "For every text and every accepted configuration (chunk_size > 0, 0 <= overlap < chunk_size, min_chunk_size >= 0) fixed-size chunking terminates, its raw chunks' spans start at strictly increasing positions, are at most chunk_size long, every character that is not white space lies in some emitted span, and every emitted chunk's text is the stripped text of its span.", "quantifier": "every text, separators and configuration", "why_tests_cant": "Termination and coverage for all texts.", "anchors": ["src/valori/processors/chunking.py::ChunkingProcessor._fixed_size_chunking", "src/valori/processors/chunking.py::ChunkingProcessor._find_best_break"]}
{"id": "C58", "title": "Fixed-size chunking stops once the end is reached", "statement": "No chunk starts after a chunk already reached the end of the text (no chunk is a mere suffix of the previous one). False whenever overlap > 0 and the text is not exhausted at once: up to `overlap` one-character-shifted suffix chunks are produced before size filtering.", "quantifier": "every text and configuration", "why_tests_cant": "Off-by-one at the tail for all lengths.", "anchors": ["src/valori/processors/chunking.py::ChunkingProcessor._fixed_size_chunking"]}
{"id": "C59", "title": "Semantic chunking keeps every paragraph whole", "statement": "For every text and chunk_overlap, each non-blank paragraph is contained in full in at least one raw semantic chunk, in document order; no chunk is blank.", "quantifier": "every text and configuration", "why_tests_cant": "Quantifies over all texts.", "anchors": ["src/valori/processors/chunking.py::ChunkingProcessor._semantic_chunking"]}
{"id": "C60", "title": "Semantic chunks respect the size limit", "statement": "A semantic chunk is no longer than chunk_size plus overlap plus separators unless it holds a single oversized paragraph. False for chunk_overlap = 0: chunks accumulate the whole preceding text. Holds for 0 < overlap with an explicit bound.", "quantifier": "every text and configuration", "why_tests_cant": "The zero-overlap slice is an edge case over all texts.", "anchors": ["src/valori/processors/chunking.py::ChunkingProcessor._semantic_chunking"]}
{"id": "C61", "title": "Sliding-window chunking covers the text", "statement": "Windows start at multiples of chunk_size - overlap, have length chunk_size except possibly at the end, and cover every position; emitted chunks are numbered consecutively and have at least min_chunk_size characters.", "quantifier": "every text and accepted configuration with overlap >= 0", "why_tests_cant": "Quantifies over all texts.", "anchors": ["src/valori/processors/chunking.py::ChunkingProcessor._sliding_window_chunking"]}
{"id": "C62", "title": "Chunk filter and process contract", "statement": "process() returns exactly the raw chunks whose text length is between min_chunk_size and max_chunk_size, in order; counters grow by the number of returned chunks and of characters.", "quantifier": "every text, configuration, strategy", "why_tests_cant": "All inputs.", "anchors": ["src/valori/processors/chunking.py::ChunkingProcessor.process", "src/valori/processors/chunking.py::ChunkingProcessor._filter_chunks_by_size"]}
{"id": "C63", "title": "Parser chunkers terminate and cover the text", "statement": "The text, PDF and office parsers' chunkers terminate for every integer chunk_size and overlap, and for chunk_size > 0 and overlap >= 0 cover every position with spans of at most chunk_size characters whose stripped text is the chunk text.", "quantifier": "every text and configuration", "why_tests_cant": "Termination and coverage for all texts.", "anchors": ["src/valori/parsers/text_parser.py::TextParser._create_chunks", "src/valori/parsers/pdf_parser.py::PDFParser._create_chunks", "src/valori/parsers/office_parser.py::OfficeParser._create_chunks"]}
{"id": "C64", "title": "Docling chunker loses no text element", "statement": "Joining the docling parser's chunks gives back all non-blank text elements in order: each chunk is the stripped concatenation of a contiguous group of elements and the groups partition the element list (up to blank trailing groups).", "quantifier": "every list of text elements, every chunk_size", "why_tests_cant": "All inputs.", "anchors": ["src/valori/parsers/docling_parser.py::DoclingParser._create_structured_chunks"]}
{"id": "C65", "title": "PDF chunks name a page of the document", "statement": "The page reported for a chunk is always the number of an extracted page, and the page reported never decreases from one chunk to the next.", "quantifier": "every page-length table and text", "why_tests_cant": "All inputs.", "anchors": ["src/valori/parsers/pdf_parser.py::PDFParser._get_page_for_position"]}
{"id": "C66", "title": "Whitespace normalisation", "statement": "With whitespace normalisation on (no other option), cleaned text has no leading or trailing whitespace, no two adjacent whitespace characters, only single spaces, the same words in the same order, and cleaning is idempotent.", "quantifier": "every text", "why_tests_cant": "All texts.", "anchors": ["src/valori/processors/cleaning.py::CleaningProcessor._clean_text"]}
{"id": "C67", "title": "Embedding cache is transparent", "statement": "With any sequence of texts and cache clears, embeddings returned with caching enabled equal those returned without, for a deterministic model and an injective digest; blank texts always give the zero vector of length 384; the string that is digested differs for different texts of one processor.", "quantifier": "every sequence of texts", "why_tests_cant": "History property of a cache.", "anchors": ["src/valori/processors/embedding.py::EmbeddingProcessor._generate_embedding", "src/valori/processors/embedding.py::EmbeddingProcessor._get_cache_key"]}
{"id": "C68", "title": "Batch document processing isolates failures", "statement": "batch_process_documents returns exactly one entry per path, in order; the entry of a path equals what processing it alone gives, or an error record naming that path; a failure never affects other entries.", "quantifier": "every list of paths, every pattern of failures", "why_tests_cant": "Fault patterns are part of the quantifier.", "anchors": ["src/valori/processors/pipeline.py::ProcessingPipeline.batch_process_documents"]}
{"id": "C69", "title": "A configured pipeline can parse documents", "statement": "After initialising a pipeline with the documented configuration (parsers under the 'parsers' key), process_document works for files of configured types. False: the registry looks for a second nested 'parsers' key, so no parser is ever registered and every document fails.", "quantifier": "every documented configuration and path", "why_tests_cant": "Tests construct the registry directly.", "anchors": ["src/valori/processors/pipeline.py::ProcessingPipeline.initialize", "src/valori/parsers/registry.py::ParserRegistry.initialize"]}
{"id": "C70", "title": "Parser selection", "statement": "get_parser returns the requested parser when named and available; otherwise a registered parser that accepts the file with the highest priority (first registered among equals); it raises exactly when there is none.", "quantifier": "every registry content, priority table and file", "why_tests_cant": "All registries.", "anchors": ["src/valori/parsers/registry.py::ParserRegistry.get_parser"]}
{"id": "C71", "title": "Batch insert accounting", "statement": "batch_insert splits the rows into consecutive batches covering every row once with matching metadata; the returned ids are the concatenation, in order, of the ids of the batches that succeeded; without callback errors processed + failed grows by exactly the number of rows; one failing batch does not stop the others.", "quantifier": "every row count, batch size >= 1, and pattern of batch failures", "why_tests_cant": "Fault patterns and sizes are part of the quantifier.", "anchors": ["src/valori/utils/batch_manager.py::BatchManager.batch_insert"]}
{"id": "C72", "title": "Parallel batch insert returns the same ids in some order", "statement": "For every completion order of the worker threads, parallel_batch_insert returns a permutation of the ids sequential execution of the same batch results would give, and counts each row exactly once as processed or failed.", "quantifier": "every schedule, every failure pattern", "why_tests_cant": "Schedules cannot be enumerated by tests.", "anchors": ["src/valori/utils/batch_manager.py::BatchManager.parallel_batch_insert"]}
{"id": "C73", "title": "Batch search answers line up with queries", "statement": "batch_search returns one list per query in query order: the client's answer, or [] when that query failed; failed counts the failures.", "quantifier": "every query list, batch size >= 1, failure pattern", "why_tests_cant": "Fault patterns.", "anchors": ["src/valori/utils/batch_manager.py::BatchManager.batch_search", "src/valori/utils/helpers.py::batch_search"]}
{"id": "C74", "title": "Duplicate groups", "statement": "find_duplicates returns disjoint groups of at least two indices; every member is similar (>= threshold) to the group's first index, which is its smallest; of any two similar indices at least one is in a group.", "quantifier": "every similarity matrix and threshold", "why_tests_cant": "All inputs.", "anchors": ["src/valori/utils/helpers.py::find_duplicates"]}
{"id": "C75", "title": "Input validators accept exactly the documented inputs", "statement": "validate_vector, validate_vectors, validate_k, validate_id(s), validate_metric and validate_config succeed exactly on inputs meeting all their documented conditions.", "quantifier": "every input", "why_tests_cant": "If-and-only-if over all inputs.", "anchors": ["src/valori/utils/validation.py::validate_vector", "src/valori/utils/validation.py::validate_vectors", "src/valori/utils/validation.py::validate_k", "src/valori/utils/validation.py::validate_ids", "src/valori/utils/validation.py::validate_config", "src/valori/utils/validation.py::validate_metric"]}
{"id": "C76", "title": "Similarity functions", "statement": "Cosine similarity lies in [-1,1], is symmetric and is 1 for a non-zero vector with itself; cosine distance lies in [0,2]; Euclidean, Manhattan, Chebyshev and Hamming distances are symmetric, non-negative, zero on identical vectors and satisfy the triangle inequality; Jaccard similarity lies in [0,1].", "quantifier": "all vectors of equal length (exact arithmetic)", "why_tests_cant": "Laws over a continuum.", "anchors": ["src/valori/utils/similarity.py::cosine_similarity", "src/valori/utils/similarity.py::euclidean_distance", "src/valori/utils/similarity.py::manhattan_distance", "src/valori/utils/similarity.py::chebyshev_distance", "src/valori/utils/similarity.py::hamming_distance", "src/valori/utils/similarity.py::jaccard_similarity"]}
{"id": "C77", "title": "Normalisation", "statement": "normalize_vector returns a vector of norm 1 in the chosen norm for every non-zero vector and the zero vector unchanged.", "quantifier": "all vectors, each norm (exact arithmetic)", "why_tests_cant": "Laws over a continuum.", "anchors": ["src/valori/utils/similarity.py::normalize_vector"]}
{"id": "C78", "title": "Configuration recommendation returns a configuration", "statement": "get_recommended_config returns a configuration for every data-set description. False: it raises ValueError for every input.", "quantifier": "every input", "why_tests_cant": "For-all claim (of failure).", "anchors": ["src/valori/configs.py::get_recommended_config", "src/valori/configs.py::get_config"]}
{"id": "C79", "title": "Index recommendation is total and constructible", "statement": "get_recommended_index_config returns, for every vector count, dimension and use case, a configuration of one of the five known index types; small data sets always get the exact index; the configuration passes the index constructor's own checks.", "quantifier": "every integer count and dimension, every use case string", "why_tests_cant": "For-all claim.", "anchors": ["src/valori/utils/helpers.py::get_recommended_index_config", "src/valori/factory.py::_create_index"]}
{"id": "C80", "title": "Client lifecycle", "statement": "Every client operation before initialize or after close raises ValoriError without touching index or storage; in between, insert/search/delete/update return exactly the index's result; a client can be closed and initialised again.", "quantifier": "every history of client calls", "why_tests_cant": "History property.", "anchors": ["src/valori/client.py::VectorDBClient"]}
{"id": "C81", "title": "Memory usage accounting is exact", "statement": "At every moment the memory usage reported by get_stats() of the in-memory backend equals the sum, over the ids listed, of the sizes of the vector and metadata that retrieve returns for them.", "quantifier": "every history of store/update/delete/initialize/close calls, every size function", "why_tests_cant": "A counter drifts only on particular interleavings of overwrites, metadata removals and deletes.", "anchors": ["src/valori/storage/memory.py::MemoryStorage.get_stats", "src/valori/storage/memory.py::MemoryStorage.store_vector", "src/valori/storage/memory.py::MemoryStorage.delete_vector", "src/valori/storage/memory.py::MemoryStorage.update_vector"]}
{"id": "C82", "title": "HNSW index tracks the set of live vectors", "statement": "In every state reached by HNSW operations the replies of insert, delete and update are those of an ordinary set of live items (ids in row order, True exactly when every id was live), and the reported vector count, the storage listing and every retrieve agree with that set.", "quantifier": "every history, every random outcome, every storage that behaves as a map", "why_tests_cant": "The count, the graph and the storage are updated in different places; drift shows only after particular histories.", "anchors": ["src/valori/indices/hnsw.py::HNSWIndex.insert", "src/valori/indices/hnsw.py::HNSWIndex.delete", "src/valori/indices/hnsw.py::HNSWIndex.update", "src/valori/indices/hnsw.py::HNSWIndex.get_stats"]}
{"id": "C83", "title": "HNSW search is exact on a single-level graph's neighbourhood", "statement": "While max_level is 0, an HNSW search returns exactly the k nearest among the oldest live vector and its level-0 neighbours; if moreover the index never held more than m vectors it returns the k nearest of all live vectors.", "quantifier": "every history and random outcome with max_level 0, every query, k >= 0", "why_tests_cant": "Recall on small data looks perfect in tests; what it depends on is a statement about all graphs.", "anchors": ["src/valori/indices/hnsw.py::HNSWIndex.search", "src/valori/indices/hnsw.py::HNSWIndex._insert_vector_internal"]}
{"id": "C84", "title": "LSH metadata belongs to its id", "statement": "Whatever calls were made before, also ones that raised, the metadata an LSH search reports for an id is the metadata given for that id by its insert or its last update.", "quantifier": "all histories of insert/update/delete/search/clear, including inserts with None metadata entries", "why_tests_cant": "The failure needs a failing call followed by successful ones; tests look at one call at a time.", "anchors": ["src/valori/indices/lsh.py::LSHIndex.add", "src/valori/indices/lsh.py::LSHIndex.search"]}
{"id": "C85", "title": "LSH statistics are true", "statement": "get_stats reports the number of live vectors and the size of the largest bucket of the LSH index.", "quantifier": "all histories", "why_tests_cant": "Tests check that the keys exist; the values depend on the whole history.", "anchors": ["src/valori/indices/lsh.py::LSHIndex.get_stats"]}
{"id": "C86", "title": "A saved Annoy index answers after load", "statement": "An Annoy index saved and loaded into a new index answers searches as before. False: save writes neither the vectors nor the metadata, so every search on the loaded index returns nothing; dimension, metric and the library structure survive. Saving works exactly for a built index, and loading without a saved file fails.", "quantifier": "every saved index, every library answer, every query", "why_tests_cant": "Quantifies over every saved state and query.", "anchors": ["src/valori/indices/annoy.py::AnnoyIndex.save", "src/valori/indices/annoy.py::AnnoyIndex.load", "src/valori/indices/annoy.py::AnnoyIndex.search"]}
{"id": "C87", "title": "A failed incremental save keeps the previous state loadable", "statement": "If IncrementalPersistence.save_state raises because the state cannot be serialised, load_state still returns the state saved before. False: the half-written checkpoint has the highest number, so every load_state raises, also after a restart, until a later save_state in the same session succeeds.", "quantifier": "every history before the failing save, every unserialisable state", "why_tests_cant": "Quantifies over histories and failing values.", "anchors": ["src/valori/persistence/incremental.py::IncrementalPersistence.save_state", "src/valori/persistence/incremental.py::IncrementalPersistence.load_state"]}
{"id": "C88", "title": "A failed training call leaves a trained quantiser as it was", "statement": "If train raises on a scalar, product or SAQ quantiser that was trained before, every later quantize and dequantize call answers as it would have answered without the failed call.", "quantifier": "every trained quantiser, every rejected training array", "why_tests_cant": "Depends on which fields are assigned before the exception; tests train a fresh quantiser and stop at the exception.", "anchors": ["src/valori/quantization/scalar.py::ScalarQuantizer.train", "src/valori/quantization/product.py::ProductQuantizer.train", "src/valori/quantization/saq.py::SAQQuantizer.train"]}
{"id": "C89", "title": "SAQ segmentation ignores the data", "statement": "In exact arithmetic SAQ training chooses the same segments for every training set: single dimensions first, and one last segment with all remaining dimensions; the variances play no role.", "quantifier": "every training set, segment count and dimension", "why_tests_cant": "Tests see one rounded outcome; the claim is about all data.", "anchors": ["src/valori/quantization/saq.py::SAQQuantizer._segment_and_allocate_bits"]}
{"id": "C90", "title": "SAQ segment count after training again", "statement": "A SAQ quantiser trained again uses min(configured n_segments, new dimension) segments. (False: training on narrower data stores the reduced number for good.)", "quantifier": "every pair of successive trainings", "why_tests_cant": "Depends on the history of an object.", "anchors": ["src/valori/quantization/saq.py::SAQQuantizer._segment_and_allocate_bits", "src/valori/quantization/saq.py::SAQQuantizer.train"]}
{"id": "C91", "title": "SAQ codes name the nearest decodable vector", "statement": "In exact arithmetic quantize gives every vector a code whose decoding is at least as near, in normalised space, as the decoding of any other legal code.", "quantifier": "every codebook, batch, number of adjustment rounds", "why_tests_cant": "Optimality over all codes.", "anchors": ["src/valori/quantization/saq.py::SAQQuantizer.quantize", "src/valori/quantization/saq.py::SAQQuantizer._apply_code_adjustment"]}
{"id": "C92", "title": "Semantic chunks report where they are", "statement": "start_pos and end_pos of a semantic chunk delimit its text in the document. False: current_start is advanced by the length of the new chunk, not by its place in the document, and the overlap is glued to the next paragraph without a separator, so the chunk's text need not occur in the document at all. What holds: positions are not negative and at least a text's length apart.", "quantifier": "every text and configuration", "why_tests_cant": "Positions for all texts.", "anchors": ["src/valori/processors/chunking.py::ChunkingProcessor._semantic_chunking"]}
{"id": "C93", "title": "PDF chunks name the page they start on", "statement": "The page reported for a position is the page whose text holds it. False: the two-character separators between pages are not counted, so the end of every page but the first and last is attributed to a later page. What holds: never an earlier page, and the first page is right.", "quantifier": "every list of page texts, every position", "why_tests_cant": "Drift over all page tables.", "anchors": ["src/valori/parsers/pdf_parser.py::PDFParser._get_page_for_position", "src/valori/parsers/pdf_parser.py::PDFParser.parse"]}
{"id": "C94", "title": "Docling chunks name their elements", "statement": "start_element and end_element are the first and last element of the chunk. end_element is right; start_element is chunk_id * chunk_size, which is no element number.", "quantifier": "every list of elements, every chunk_size", "why_tests_cant": "All inputs.", "anchors": ["src/valori/parsers/docling_parser.py::DoclingParser._create_structured_chunks"]}
{"id": "C95", "title": "Batch cosine similarity agrees with the single one", "statement": "Entry i of batch_cosine_similarity(queries, vectors) row q equals cosine_similarity(query q, vector i) for every pair, in exact arithmetic; zero vectors give 0.", "quantifier": "every matrix of queries and vectors, every dimension", "why_tests_cant": "Numerical identity over all reals.", "anchors": ["src/valori/utils/similarity.py::batch_cosine_similarity", "src/valori/utils/similarity.py::cosine_similarity"]}
{"id": "C96", "title": "Identical vectors are duplicates of each other", "statement": "find_duplicates with the cosine metric reports identical non-zero vectors as duplicates at every threshold up to 1. False: normalisation divides by norm + 1e-8, so the self-similarity is (n/(n+1e-8))^2 < 1; threshold 1 never matches and short vectors match at no useful threshold.", "quantifier": "every vector and threshold", "why_tests_cant": "Claim over all vectors; tests use long vectors and lower thresholds.", "anchors": ["src/valori/utils/helpers.py::find_duplicates", "src/valori/utils/helpers.py::normalize_vectors"]}
{"id": "C97", "title": "Jaccard distance is a metric", "statement": "Jaccard distance of vectors of one dimension is symmetric, zero on itself, within [0,1] and satisfies the triangle inequality on supports.", "quantifier": "every three vectors of one dimension", "why_tests_cant": "Universal inequality.", "anchors": ["src/valori/utils/similarity.py::jaccard_distance"]}
{"id": "C98", "title": "validate_config keeps values in their range", "statement": "After validate_config accepts, every value with a range lies in it. False: NaN passes every range, and a value that is no number (a string) is never checked unless a type is also given.", "quantifier": "every configuration and range table", "why_tests_cant": "NaN and non-numeric values are outside the tested values.", "anchors": ["src/valori/utils/validation.py::validate_config"]}
{"id": "C99", "title": "Configuration listing and lookup agree", "statement": "get_config(category, name) succeeds exactly for the names list_configs() shows under that category (for \"index\": inside its groups), returns the entry of that group, and raises ValueError for everything else; list_configs(category) shows the same names.", "quantifier": "every category and name string", "why_tests_cant": "For-all over strings; tests check a few names.", "anchors": ["src/valori/configs.py::get_config", "src/valori/configs.py::list_configs"]}
{"id": "C100", "title": "create_vector_db works with its defaults", "statement": "create_vector_db(), all of whose parameters are optional, returns a client. False: without index_type and num_vectors it compares None with 1000 and raises TypeError, whatever else is given.", "quantifier": "every set of keyword arguments, every environment", "why_tests_cant": "For-all over arguments.", "anchors": ["src/valori/factory.py::create_vector_db", "src/valori/utils/helpers.py::get_recommended_index_config"]}
{"id": "C101", "title": "Shipped configuration values take effect", "statement": "Every parameter in the shipped index and storage configurations reaches the object built from it. False: HNSW reads \"m\" while every shipped configuration says \"M\", so hnsw_fast (M = 8) runs with 16; hybrid storage reads none of memory_limit_mb, disk_path, cache_size.", "quantifier": "every value of the ignored keys; every shipped index configuration for the others", "why_tests_cant": "The wrong key changes no result a test looks at.", "anchors": ["src/valori/configs.py::INDEX_CONFIGS", "src/valori/indices/hnsw.py::HNSWIndex.__init__", "src/valori/storage/hybrid.py::HybridStorage.__init__"]}
{"id": "C102", "title": "Templates build what they say", "statement": "create_from_template(name) builds, for each of the six templates, an index and storage of the named types with the template's parameters, and raises ValueError for every other name.", "quantifier": "every name", "why_tests_cant": "For-all over names.", "anchors": ["src/valori/factory.py::create_from_template", "src/valori/factory.py::TEMPLATES"]}
{"id": "C103", "title": "Template overrides take effect", "statement": "Overrides given to create_from_template change the database built. False for everything but the seven arguments of create_vector_db: create_from_template(\"medium_dataset\", num_trees=50) silently builds 10 trees. The seven arguments replace the template values one by one.", "quantifier": "every template, override name and value", "why_tests_cant": "For-all over overrides.", "anchors": ["src/valori/factory.py::create_from_template", "src/valori/factory.py::create_vector_db"]}
{"id": "C104", "title": "create_document_db uses the index configuration given", "statement": "An index_config passed to create_document_db configures its index. False for annoy (the default) and hnsw: it is overwritten, so every value gives the same index.", "quantifier": "every index_config and other arguments", "why_tests_cant": "For-all over configurations.", "anchors": ["src/valori/factory.py::create_document_db"]}
{"id": "C105", "title": "Progress callbacks do not influence batch insert", "statement": "The rows stored, the ids returned and the counters of batch_insert are the same whatever the progress callback does, including raising. False for the counters: a raising callback makes every row of its batch count as processed and as failed.", "quantifier": "every row count, batch size >= 1, failure pattern and callback", "why_tests_cant": "Callback behaviours are part of the quantifier.", "anchors": ["src/valori/utils/batch_manager.py::BatchManager.batch_insert"]}
{"id": "C106", "title": "Batch counters add up", "statement": "After batch_insert processed + failed = total_items. False on a second run without reset_stats: processed and failed accumulate while total_items is replaced.", "quantifier": "every starting counter state, row count and failure pattern", "why_tests_cant": "History property.", "anchors": ["src/valori/utils/batch_manager.py::BatchManager.batch_insert", "src/valori/utils/batch_manager.py::BatchManager.reset_stats"]}
{"id": "C107", "title": "Tag removal removes tags", "statement": "With remove_html on, cleaned text contains no <...> part, and a text without tags or entities is left alone. False with the default options: Unicode normalisation runs after the removal and turns full-width brackets into a tag.", "quantifier": "every text and option combination", "why_tests_cant": "All texts.", "anchors": ["src/valori/processors/cleaning.py::CleaningProcessor._clean_text"]}
{"id": "C108", "title": "Stop-word removal keeps the other words", "statement": "With stop-word removal on, the words of the cleaned text are exactly the words of the text that are not stop words and have an admissible length, in order, separated by single spaces.", "quantifier": "every text, stop-word list and bounds", "why_tests_cant": "All texts.", "anchors": ["src/valori/processors/cleaning.py::CleaningProcessor._clean_text"]}
{"id": "C109", "title": "Word length bounds are respected", "statement": "Every word of a cleaned text has a length between min_word_length and max_word_length. False unless stop-word removal is on with a non-empty list: otherwise the bounds are ignored.", "quantifier": "every text and option combination", "why_tests_cant": "All texts and options.", "anchors": ["src/valori/processors/cleaning.py::CleaningProcessor._clean_text"]}
{"id": "C110", "title": "Cleaning touches only texts", "statement": "process cleans the text and each chunk text; absent keys stay absent, chunks keep number, order and other fields; the counters grow by the text lengths before and after.", "quantifier": "every document", "why_tests_cant": "All documents.", "anchors": ["src/valori/processors/cleaning.py::CleaningProcessor.process"]}
{"id": "C111", "title": "Embeddings of one processor have one length", "statement": "All embeddings a processor returns have the length of the model. False for blank texts: they get 384 zeros whatever the model.", "quantifier": "every model, history and text", "why_tests_cant": "Depends on the model and on the history.", "anchors": ["src/valori/processors/embedding.py::EmbeddingProcessor._generate_embedding"]}
{"id": "C112", "title": "Batch embedding agrees with single embedding", "statement": "batch_process answers what embedding the texts one after the other answers. False for blank texts when the model length is not 384: sentence-transformers batches embed them with the model, other model types raise ValueError when stacking.", "quantifier": "every list of texts, batch size >= 1, history", "why_tests_cant": "All lists and batch sizes.", "anchors": ["src/valori/processors/embedding.py::EmbeddingProcessor.batch_process", "src/valori/processors/embedding.py::EmbeddingProcessor._generate_embedding"]}
{"id": "C113", "title": "Statistics of the embedding processor are read-only", "statement": "get_stats does not change what later calls answer. False for the statistics themselves: each call embeds the text \"test\" and two successive calls never agree; true for the embeddings.", "quantifier": "every state and history", "why_tests_cant": "History property.", "anchors": ["src/valori/processors/embedding.py::EmbeddingProcessor.get_stats", "src/valori/processors/embedding.py::EmbeddingProcessor.get_embedding_dimension"]}
{"id": "C114", "title": "Cache hit rate", "statement": "cache_hit_rate is the fraction of the embedded texts answered from the cache. False: hits are divided by the generated embeddings, so the rate exceeds 1; hits + generated is the number of answered calls for texts that are not blank.", "quantifier": "every history", "why_tests_cant": "History property.", "anchors": ["src/valori/processors/embedding.py::EmbeddingProcessor.get_stats", "src/valori/processors/embedding.py::EmbeddingProcessor._generate_embedding"]}
{"id": "C115", "title": "Returned embeddings are the caller's", "statement": "Writing into a returned embedding does not change later answers. False with caching: the array returned is the one in the cache.", "quantifier": "every history of calls and writes", "why_tests_cant": "Aliasing shows only in histories.", "anchors": ["src/valori/processors/embedding.py::EmbeddingProcessor._generate_embedding"]}
{"id": "C116", "title": "Chunk embeddings line up with chunks", "statement": "chunk_embeddings[i] is the embedding of the text of chunks[i]. False when a chunk has no text: it is skipped and the later ones shift.", "quantifier": "every document and history", "why_tests_cant": "All documents.", "anchors": ["src/valori/processors/embedding.py::EmbeddingProcessor.process"]}
{"id": "C117", "title": "Initialising a pipeline gives the configured processors", "statement": "After initialize the pipeline has exactly the configured processors once each, in the order cleaning, chunking, embedding. False for a second initialize, and for one after a failed one: the processors are appended to those already there.", "quantifier": "every configuration and pattern of failures", "why_tests_cant": "Histories and failures are part of the quantifier.", "anchors": ["src/valori/processors/pipeline.py::ProcessingPipeline.initialize", "src/valori/processors/pipeline.py::ProcessingPipeline.close"]}
{"id": "C118", "title": "create_vectors_from_files returns vectors", "statement": "create_vectors_from_files returns one vector per file that can be parsed. False: its pipeline never has a parser, every file fails, and the empty answer raises ValueError in reshape(0, -1).", "quantifier": "every list of files, every parser class and model", "why_tests_cant": "Depends on external parsers in tests.", "anchors": ["src/valori/utils/helpers.py::create_vectors_from_files"]}
{"id": "C119", "title": "Adding and removing parsers", "statement": "After any history, add_parser makes exactly that name answer the new parser, remove_parser makes exactly that name unavailable, a failed call changes nothing, and after close no parser can be had.", "quantifier": "every history of registry calls, every parser class", "why_tests_cant": "History property.", "anchors": ["src/valori/parsers/registry.py::ParserRegistry.add_parser", "src/valori/parsers/registry.py::ParserRegistry.remove_parser", "src/valori/parsers/registry.py::ParserRegistry.close"]}
{"id": "C120", "title": "Supported formats are the formats that can be parsed", "statement": "get_supported_formats is strictly increasing, contains exactly the formats of the registered parsers, and get_parser finds a parser for a file exactly when its suffix is listed.", "quantifier": "every registry content and file", "why_tests_cant": "All registries.", "anchors": ["src/valori/parsers/registry.py::ParserRegistry.get_supported_formats", "src/valori/parsers/registry.py::ParserRegistry.get_parser"]}
{"id": "C121", "title": "Saved vectors load back", "statement": "load_vectors_from_file(p) after save_vectors_to_file(v, m, p, format) returns v and m. False unless the suffix of p is the one for the format (\".npz\", \".pkl\", \".json\"); JSON loses the width of an empty array. In the npz format a path without the suffix is written under the path with \".npz\" appended, and loads back from there.", "quantifier": "every array, metadata, path and format", "why_tests_cant": "All paths and formats.", "anchors": ["src/valori/utils/helpers.py::save_vectors_to_file", "src/valori/utils/helpers.py::load_vectors_from_file"]}
{"id": "C122", "title": "Measuring does not change a program", "statement": "A program using `with profiler.measure(name)` blocks, nested in any way, has the same outcome, exception and effect as the program without them.", "quantifier": "every program built from code that may raise, sequences and nested measured blocks; every clock", "why_tests_cant": "All nestings and all exceptions.", "anchors": ["src/valori/utils/debugging.py::PerformanceProfiler.measure"]}
{"id": "C123", "title": "Every measured block is recorded", "statement": "Each measured block that is left, normally or by an exception, adds exactly one record under its name; earlier records stay; a record is the difference of the readings at its start and end; durations are not negative if the clock does not go back.", "quantifier": "every program, clock and memory reading", "why_tests_cant": "All nestings and exceptions; the number of records depends on control flow.", "anchors": ["src/valori/utils/debugging.py::PerformanceProfiler.measure"]}
{"id": "C124", "title": "Profiler summaries are exact", "statement": "get_summary never raises, lists exactly the recorded names with their number of records, and least, greatest, mean and total are those of the records.", "quantifier": "every program run under a fresh profiler", "why_tests_cant": "All record lists reachable by a program.", "anchors": ["src/valori/utils/debugging.py::PerformanceProfiler.get_summary"]}
{"id": "C125", "title": "Decorated functions are called once", "statement": "A function decorated with timing_decorator, debug_function or memory_usage_decorator is executed once per call, with the same result, exception and effect. False for memory_usage_decorator when the function raises ImportError: it is executed again.", "quantifier": "every function, state and exception", "why_tests_cant": "All functions, including failing ones with side effects.", "anchors": ["src/valori/utils/helpers.py::timing_decorator", "src/valori/utils/helpers.py::memory_usage_decorator", "src/valori/utils/debugging.py::debug_function"]}
{"id": "C126", "title": "Quality score", "statement": "The quality score lies between 0 and 1, and is 1 exactly for data without NaN, infinities and constant rows; no data scores below 0.2.", "quantifier": "every non-empty matrix of floats including NaN and infinities", "why_tests_cant": "All matrices.", "anchors": ["src/valori/utils/debugging.py::VectorAnalyzer._compute_quality_score"]}
{"id": "C127", "title": "Similar pairs are counted once", "statement": "high_similarity_pairs and low_similarity_pairs are the numbers of pairs of vectors above 0.95 and below -0.5. False: both are exactly twice that.", "quantifier": "every matrix that can be analysed, every symmetric similarity", "why_tests_cant": "All matrices.", "anchors": ["src/valori/utils/debugging.py::VectorAnalyzer._similarity_analysis"]}
{"id": "C128", "title": "Every non-empty data set can be analysed", "statement": "analyze_vectors succeeds on every non-empty matrix and its counts (rows, columns, NaN, infinite, constant and zero vectors) are right. False for a single vector, for which it raises ValueError.", "quantifier": "every matrix", "why_tests_cant": "All sizes.", "anchors": ["src/valori/utils/debugging.py::VectorAnalyzer.analyze_vectors", "src/valori/utils/debugging.py::VectorAnalyzer._quality_analysis"]}
{"id": "C129", "title": "Sparsity is the fraction of zeros", "statement": "The field sparsity is the fraction of zero entries. False: it is the fraction of entries that are not zero.", "quantifier": "every matrix that can be analysed", "why_tests_cant": "All matrices.", "anchors": ["src/valori/utils/debugging.py::VectorAnalyzer._basic_statistics"]}
{"id": "C130", "title": "Query history", "statement": "analyze_query reports the number of results and their true distance range and is recorded only if it succeeds; analyze_query_patterns summarises exactly the recorded queries.", "quantifier": "every sequence of calls, results with and without distances", "why_tests_cant": "Histories with failing calls.", "anchors": ["src/valori/utils/debugging.py::QueryAnalyzer.analyze_query", "src/valori/utils/debugging.py::QueryAnalyzer.analyze_query_patterns"]}
{"id": "C131", "title": "An index can be inspected", "statement": "inspect_index succeeds on every index; for LSH every live vector is counted once per hash table. False: it raises for a non-empty HNSW index, and for an LSH or Annoy index in which a vector other than the first of the leading hundred slots was deleted.", "quantifier": "every history of an LSH index; every HNSW content", "why_tests_cant": "History property.", "anchors": ["src/valori/utils/debugging.py::IndexInspector._inspect_vectors", "src/valori/utils/debugging.py::IndexInspector._inspect_hash_tables"]}
{"id": "C132", "title": "Scalar codes are nearest codes", "statement": "After training, the code of every coordinate, inside or outside the trained range, is a nearest of the 2^bits codes; of two equally near codes the even one is taken.", "quantifier": "every training table, every table encoded, 1 to 63 bits", "why_tests_cant": "Ties and values outside the range, for all tables.", "anchors": ["src/valori/quantization/scalar.py::ScalarQuantizer.train", "src/valori/quantization/scalar.py::ScalarQuantizer.quantize"]}
{"id": "C133", "title": "Scalar quantiser failures", "statement": "Every failure of train, quantize, dequantize and compute_distance is a QuantizationError; quantizers that are new, freshly initialised or untrained refuse to encode, decode and measure; one-dimensional and empty training arrays are refused and leave the statistics.", "quantifier": "every state and argument", "why_tests_cant": "All states, including those after re-initialisation.", "anchors": ["src/valori/quantization/scalar.py::ScalarQuantizer.initialize", "src/valori/quantization/scalar.py::ScalarQuantizer.train", "src/valori/quantization/scalar.py::ScalarQuantizer.quantize", "src/valori/quantization/scalar.py::ScalarQuantizer.dequantize", "src/valori/quantization/scalar.py::ScalarQuantizer.compute_distance"]}
{"id": "C134", "title": "Scalar distances are cosine distances", "statement": "compute_distance is 1 - cos of the angle between the query, cut or padded with zeros to the trained width, and the decoded vector, so it lies between 0 and 2; a zero vector is at distance 1.", "quantifier": "every training table, query of any length and code of the trained width", "why_tests_cant": "All queries, lengths and codes.", "anchors": ["src/valori/quantization/scalar.py::ScalarQuantizer.compute_distance"]}
{"id": "C135", "title": "Product codebook contents", "statement": "After training, subspace i holds the mean of the i-th blocks if there is one centroid per subspace, otherwise the KMeans centres of the i-th blocks followed by zero vectors up to the effective k.", "quantifier": "every training table and every KMeans that keeps shapes", "why_tests_cant": "All tables and numbers of subspaces.", "anchors": ["src/valori/quantization/product.py::ProductQuantizer.train"]}
{"id": "C136", "title": "Product quantiser failures", "statement": "Every failure of train, quantize, dequantize and compute_distance is a QuantizationError; training succeeds exactly for an initialised quantiser and a width divisible by a positive m; new, freshly initialised and untrained quantisers refuse to encode and decode.", "quantifier": "every state and argument", "why_tests_cant": "All states and widths.", "anchors": ["src/valori/quantization/product.py::ProductQuantizer.initialize", "src/valori/quantization/product.py::ProductQuantizer.train", "src/valori/quantization/product.py::ProductQuantizer.quantize", "src/valori/quantization/product.py::ProductQuantizer.dequantize", "src/valori/quantization/product.py::ProductQuantizer.compute_distance"]}
{"id": "C137", "title": "SAQ failures", "statement": "The constructor accepts exactly positive budgets and segment counts and raises ValueError otherwise; every failure of train, quantize and dequantize is a QuantizationError; new, untrained and freshly initialised quantisers refuse.", "quantifier": "every configuration, state and argument", "why_tests_cant": "All states and configurations.", "anchors": ["src/valori/quantization/saq.py::SAQQuantizer.__init__", "src/valori/quantization/saq.py::SAQQuantizer.initialize", "src/valori/quantization/saq.py::SAQQuantizer.train", "src/valori/quantization/saq.py::SAQQuantizer.quantize", "src/valori/quantization/saq.py::SAQQuantizer.dequantize"]}
{"id": "C138", "title": "SAQ distances are cosine distances", "statement": "For a trained quantiser and a legal code, compute_distance is the cosine distance between the query, cut or padded with zeros, and the decoded vector, between 0 and 2.", "quantifier": "every trained quantiser, legal code and query of any length", "why_tests_cant": "All codebooks and queries.", "anchors": ["src/valori/quantization/saq.py::SAQQuantizer.compute_distance"]}
{"id": "C139", "title": "search_with_rescoring searches the vectors that were encoded", "statement": "For codes of vectors Y, at most rescore_top_k of them, search_with_rescoring returns the exact nearest of Y. True when Y is the training data; false otherwise: candidates are ranked by the training vectors with the same numbers.", "quantifier": "every training table, query, top_k and tie-breaking", "why_tests_cant": "Holds for the data tests use (search what was trained on) and fails elsewhere.", "anchors": ["src/valori/quantization/saq.py::SAQQuantizer.search_with_rescoring", "src/valori/quantization/saq.py::SAQQuantizer._rescoring_search", "src/valori/quantization/saq.py::SAQQuantizer._initial_quantized_search"]}
{"id": "C140", "title": "LSH failures and replies", "statement": "The LSH constructor accepts exactly positive sizes; an index that is not initialised refuses inserts, searches and updates, and its delete returns False; each reason for refusing a batch has its own exception; delete returns True; update returns True exactly for live ids; an invalid query raises ValidationError.", "quantifier": "every configuration, state, argument and history", "why_tests_cant": "All states and histories, not a few call orders.", "anchors": ["src/valori/indices/lsh.py::LSHIndex.__init__", "src/valori/indices/lsh.py::LSHIndex.add", "src/valori/indices/lsh.py::LSHIndex.search", "src/valori/indices/lsh.py::LSHIndex.delete", "src/valori/indices/lsh.py::LSHIndex.update"]}
{"id": "C141", "title": "Annoy failures and replies", "statement": "The Annoy constructor accepts exactly a positive number of trees and a known metric; an index that is not initialised refuses every call and stays as it is; each reason for refusing a batch has its own exception; search before build raises ValoriIndexError, an invalid query ValidationError, and a search after clear and build AttributeError; a delete with a malformed id does nothing.", "quantifier": "every configuration, state, argument and history without update and clear", "why_tests_cant": "All states and histories, not a few call orders.", "anchors": ["src/valori/indices/annoy.py::AnnoyIndex.__init__", "src/valori/indices/annoy.py::AnnoyIndex.add", "src/valori/indices/annoy.py::AnnoyIndex.build", "src/valori/indices/annoy.py::AnnoyIndex.search", "src/valori/indices/annoy.py::AnnoyIndex.delete", "src/valori/indices/annoy.py::AnnoyIndex.update"]}
{"id": "C142", "title": "Storage failures and statistics", "statement": "Whatever their state and however damaged their files, the storage backends raise nothing but StorageError; new and closed backends report that they are not initialised; a backend just initialised reports the number of vectors it holds.", "quantifier": "every backend, state, directory content and call", "why_tests_cant": "All damaged states.", "anchors": ["src/valori/storage/memory.py::MemoryStorage", "src/valori/storage/disk.py::DiskStorage", "src/valori/storage/hybrid.py::HybridStorage"]}
{"id": "C143", "title": "Index failures", "statement": "Every failure of a flat, IVF or HNSW index is a ValoriIndexError, whatever the storage raises; new and closed indices and arrays of the wrong rank are refused without any effect on index and storage; an IVF index initialised on fewer vectors than clusters works untrained.", "quantifier": "every storage, state and call", "why_tests_cant": "All storages and states.", "anchors": ["src/valori/indices/flat.py::FlatIndex", "src/valori/indices/ivf.py::IVFIndex", "src/valori/indices/hnsw.py::HNSWIndex"]}
{"id": "C144", "title": "SAQ gives bits to variance", "statement": "Every SAQ segment gets the whole part of total_bits times its share of the variance of the normalised data, at least one bit, so that a segment with more variance never gets fewer bits. True of all segments but the last, which gets what is left and may get none.", "quantifier": "every training table and configuration", "why_tests_cant": "All tables.", "anchors": ["src/valori/quantization/saq.py::SAQQuantizer._segment_and_allocate_bits", "src/valori/quantization/saq.py::SAQQuantizer.train"]}
{"id": "C145", "title": "HNSW links are bounded by m", "statement": "Each inserted vector is linked to at most m others per level, and no vector has more than a multiple of m links. The average is at most 2m; a single vector may be linked to all others.", "quantifier": "every history, storage and random choice", "why_tests_cant": "All random choices.", "anchors": ["src/valori/indices/hnsw.py::HNSWIndex._insert_vector_internal", "src/valori/indices/hnsw.py::HNSWIndex._remove_vector_internal"]}
{"id": "C146", "title": "Stored values are isolated from the caller", "statement": "What a memory storage answers depends only on the values passed at the time of the calls, not on what the caller later does with arrays and dictionaries they passed or were given. True of arrays passed and returned and of dictionaries passed with immutable values; false of returned metadata dictionaries (not copied) and of lists inside metadata (shallow copy).", "quantifier": "every program of calls and in-place changes of shared objects", "why_tests_cant": "All interleavings of mutation and calls.", "anchors": ["src/valori/storage/memory.py::MemoryStorage.store_vector", "src/valori/storage/memory.py::MemoryStorage.retrieve_vector", "src/valori/storage/memory.py::MemoryStorage.update_vector"]}
{"id": "C147", "title": "Order of starting and stopping components", "statement": "initialize starts storage, index, quantizer and persistence in this order up to the first that raises, whose exception becomes a ValoriError, leaving the client open or closed as it was; close stops them in the opposite order up to the first that raises, whose exception passes through and after which the client still counts as open and the remaining components are not stopped.", "quantifier": "every combination of components and exceptions", "why_tests_cant": "All combinations of failures.", "anchors": ["src/valori/client.py::VectorDBClient.initialize", "src/valori/client.py::VectorDBClient.close"]}
{"id": "C148", "title": "What the text parser returns", "statement": "Every parser accepts exactly initialised, existing, supported, not too large and readable files and raises nothing but ParsingError. The text parser returns the decoded file unchanged, chunks only for texts longer than chunk_size, and the language \"en\" only for English. (The last is false: words are searched as parts of words.)", "quantifier": "every file, configuration and library behaviour", "why_tests_cant": "All files.", "anchors": ["src/valori/parsers/text_parser.py::TextParser.parse", "src/valori/parsers/text_parser.py::TextParser._detect_language", "src/valori/parsers/pdf_parser.py::PDFParser.parse", "src/valori/parsers/docling_parser.py::DoclingParser.parse"]}
{"id": "C149", "title": "What the Word parser returns", "statement": "The lines of the text are the trimmed non-blank paragraphs in order, paragraphs_info numbers them by their position in the document, the chunks cut the text, and the text includes the tables. (The last is false: tables are reported apart and cannot be found by search.)", "quantifier": "every document and configuration", "why_tests_cant": "All documents.", "anchors": ["src/valori/parsers/office_parser.py::OfficeParser.parse", "src/valori/parsers/office_parser.py::OfficeParser._parse_docx"]}
{"id": "C150", "title": "What the Excel and PowerPoint parsers return", "statement": "Every value of a workbook stands in its text, from which sheets, rows and columns can be read off; every text of a presentation stands under the number of its slide. (False of columns and empty rows, which leave no trace.)", "quantifier": "every workbook and presentation", "why_tests_cant": "All documents.", "anchors": ["src/valori/parsers/office_parser.py::OfficeParser._parse_excel", "src/valori/parsers/office_parser.py::OfficeParser._parse_pptx"]}
{"id": "C151", "title": "Where chunks end", "statement": "A chunk that does not reach the end of the text ends right after the last separator inside its window of chunk_size characters if that lies in the second half (text parser: full stop or newline; PDF: blank line; office: newline), else with the window. Fixed-size chunking takes the first configured separator that occurs more than min_chunk_size characters into the window, and its last occurrence there.", "quantifier": "every text, size, overlap and separator list", "why_tests_cant": "All texts and positions of separators.", "anchors": ["src/valori/parsers/text_parser.py::TextParser._create_chunks", "src/valori/parsers/pdf_parser.py::PDFParser._create_chunks", "src/valori/parsers/office_parser.py::OfficeParser._create_chunks", "src/valori/processors/chunking.py::ChunkingProcessor._fixed_size_chunking"]}
{"id": "C152", "title": "Normalised rows", "statement": "normalize_vectors scales every row by a positive factor to norm one (l2, l1, max), and maps entries order-preservingly into [0, 1] (minmax); unknown methods raise ValidationError. Norm one is false: the norm becomes N / (N + 1e-8).", "quantifier": "every matrix", "why_tests_cant": "Exact values for all real rows.", "anchors": ["src/valori/utils/helpers.py::normalize_vectors"]}
{"id": "C153", "title": "Similarity matrix and duplicates by distance", "statement": "Entry (i, j) of the similarity matrix is the similarity of rows i and j in the chosen metric; the matrix is symmetric; Euclidean similarities lie in (0, 1] and are 1 only for equal vectors. With the Euclidean metric find_duplicates groups vectors within 1/threshold - 1 of the first of the group, and identical vectors are always in one group (threshold up to 1). Unknown metrics raise ValidationError.", "quantifier": "every matrix and threshold", "why_tests_cant": "All real matrices.", "anchors": ["src/valori/utils/helpers.py::compute_similarity_matrix", "src/valori/utils/helpers.py::find_duplicates"]}
{"id": "C154", "title": "Cleaning with default options", "statement": "With default options the cleaned text has single spaces and no outer white space, and exactly the words of the decoded text with tags cut out and NFKD applied: case, punctuation, short and common words are kept.", "quantifier": "every text and every behaviour of html.unescape and NFKD", "why_tests_cant": "All texts.", "anchors": ["src/valori/processors/cleaning.py::CleaningProcessor._clean_text"]}
{"id": "C155", "title": "Incremental persistence returns indices and vectors", "statement": "load_index and load_vectors of a path return what was last saved there, None when nothing was, whatever other saves, restarts and crashes happened; a closed manager refuses every call and changes nothing.", "quantifier": "every history with crashes", "why_tests_cant": "All histories.", "anchors": ["src/valori/persistence/incremental.py::IncrementalPersistence.save_index", "src/valori/persistence/incremental.py::IncrementalPersistence.load_index", "src/valori/persistence/incremental.py::IncrementalPersistence.save_vectors", "src/valori/persistence/incremental.py::IncrementalPersistence.load_vectors"]}
{"id": "C156", "title": "Operation numbers are unique", "statement": "Every operation in the log has its own number, also across restarts. False: the counter is stored at checkpoints only (and before the operation is counted), so numbers are reused after a restart. True with checkpoint_interval 1.", "quantifier": "every history with restarts", "why_tests_cant": "All histories.", "anchors": ["src/valori/persistence/incremental.py::IncrementalPersistence._log_operation", "src/valori/persistence/incremental.py::IncrementalPersistence._save_checkpoint_info", "src/valori/persistence/incremental.py::IncrementalPersistence._load_checkpoint_info"]}
{"id": "C157", "title": "Logger set-up can be repeated", "statement": "Asking for a logger or setting up logging again does not pile up handlers: get_logger is idempotent and gives each logger one handler, setup_logging replaces the earlier set-up of the root logger and touches no other logger. The level asked for is the level given. False: a later get_logger with another level has no effect, and setup_logging of the debugging module adds a handler each time, so k calls write every message k times.", "quantifier": "every history of get_logger, setup_logging and log calls", "why_tests_cant": "All histories of calls in one process.", "anchors": ["src/valori/utils/logging.py::get_logger", "src/valori/utils/logging.py::setup_logging", "src/valori/utils/debugging.py::setup_logging"]}
{"id": "C158", "title": "Every message is written once", "statement": "A message of log_info, log_error and the other helpers whose level is enabled is written exactly once, and not at all when the configured level is higher. True as long as setup_logging is not called. False after it: messages are written twice (by the topic logger and by the root), a configured level above INFO does not silence them, and log_debug never writes.", "quantifier": "every history of calls", "why_tests_cant": "All histories of calls in one process.", "anchors": ["src/valori/utils/logging.py::log_info", "src/valori/utils/logging.py::log_debug", "src/valori/utils/logging.py::setup_logging"]}
{"id": "C159", "title": "A document goes through the whole pipeline", "statement": "process_text and process_document give the cleaned text, the chunks of the cleaned text, and one embedding for each chunk in the same order, and keep everything else; chunks and embeddings a parser leaves behind, and documents processed before, make no difference. The only failure in processing is an embedding that fails, reported as ProcessingError; a pipeline that is not initialised, a parser that fails and a document without text are refused.", "quantifier": "every text, cleaning and chunking configuration, embedding function, history of earlier documents", "why_tests_cant": "All texts and all histories of the shared cache of embeddings.", "anchors": ["src/valori/processors/pipeline.py::ProcessingPipeline.process_text", "src/valori/processors/pipeline.py::ProcessingPipeline.process_document"]}
{"id": "C160", "title": "The shipped document pipeline cuts documents into chunks that cover the text", "statement": "The pipeline of create_document_db cuts a document into chunks of about chunk_size characters and every part of the cleaned text is in a chunk. False: cleaning removes all line breaks, so the semantic strategy sees a single paragraph: one chunk if the cleaned text has 50 to 2000 characters, otherwise none, whatever chunk_size is. With fixed-size chunks and an overlap of at least min_chunk_size, as by default, every position of a cleaned text of at least min_chunk_size characters lies in a kept chunk.", "quantifier": "every text, chunk size and overlap, history", "why_tests_cant": "Depends on the composition of cleaning and chunking for all texts.", "anchors": ["src/valori/factory.py::create_document_db", "src/valori/processors/chunking.py::ChunkingProcessor.process", "src/valori/processors/cleaning.py::CleaningProcessor._clean_text"]}
{"id": "C161", "title": "The reported compression ratio is the true one", "statement": "The compression_ratio of get_stats is the size of a float32 vector divided by the size of its codes. False of all three quantisers: scalar codes are 32-bit integers, as large as the vectors; the ratio of the product quantiser is too small by the factor subvector_dimensions; SAQ codes take 32 bits per segment. What is true: scalar codes fit into `bits` bits and SAQ segments share exactly total_bits, so the ratios are those of codes packed into that many bits; total_bits of the product quantiser is right.", "quantifier": "every training set, configuration and table of vectors", "why_tests_cant": "All configurations and training sets, and irrational logarithms.", "anchors": ["src/valori/quantization/scalar.py::ScalarQuantizer.get_stats", "src/valori/quantization/product.py::ProductQuantizer.get_stats", "src/valori/quantization/saq.py::SAQQuantizer.get_stats"]}
{"id": "C162", "title": "Closing a quantiser makes it new", "statement": "After close every operation is refused and statistics say not_initialized; close followed by initialize gives a quantiser like a new one, whatever was done before. Holds for scalar and product; the SAQ quantiser keeps a number of segments reduced by training on short vectors. initialize alone is not enough: the quantiser still says it is trained, cannot encode, and the statistics of SAQ raise AttributeError.", "quantifier": "every history of initialize, train and close", "why_tests_cant": "All histories of calls.", "anchors": ["src/valori/quantization/scalar.py::ScalarQuantizer.close", "src/valori/quantization/product.py::ProductQuantizer.close", "src/valori/quantization/saq.py::SAQQuantizer.close"]}
{"id": "C163", "title": "In-memory storage may be shared by threads", "statement": "Any number of threads may call store, retrieve, delete, update, list and get_storage_stats of an open in-memory storage at once: the replies and the final contents are those of some order of the calls in which each thread's calls keep their order, and no thread waits for ever. False when a thread may close the storage: retrieve may answer None for a vector that was there until the close, which no order of the calls explains, because _initialized is looked at before the lock is taken.", "quantifier": "every number of threads, programs and schedules", "why_tests_cant": "The set of schedules is unbounded; a test sees a few of them.", "anchors": ["src/valori/storage/memory.py::MemoryStorage.store_vector", "src/valori/storage/memory.py::MemoryStorage.retrieve_vector", "src/valori/storage/memory.py::MemoryStorage.close", "src/valori/utils/batch_manager.py::BatchManager.parallel_batch_insert"]}
{"id": "C164", "title": "Parallel insertion into a flat index loses nothing", "statement": "When several threads have inserted rows with ids of their own into one flat index, as parallel_batch_insert does, the index lists the old ids and each new id exactly once, each thread's ids in its order, storage and cache hold every row under its id and nothing else has changed. The number of vectors in the statistics is not guaranteed: it may stay too small for good.", "quantifier": "every number of threads and rows and every schedule of the statements", "why_tests_cant": "The set of schedules is unbounded; a test sees a few of them.", "anchors": ["src/valori/indices/flat.py::FlatIndex.insert", "src/valori/utils/batch_manager.py::BatchManager.parallel_batch_insert"]}
{"id": "C165", "title": "Parallel insertion into an LSH index keeps vectors under their ids", "statement": "After threads have added vectors to one LSH index, each vector is found under the id returned for it, with its metadata, and is entered in the hash tables with the projections that queries use. False: a vector may be found under the id of another one; the first additions may draw projections twice, and what was entered before is lost to searches; an addition may raise AssertionError and leave its vector behind. What is true: ids are distinct under every schedule, and calls made one after another, by whichever threads, are safe.", "quantifier": "every number of threads and rows and every schedule of the statements", "why_tests_cant": "The set of schedules is unbounded; a test sees a few of them.", "anchors": ["src/valori/indices/lsh.py::LSHIndex.add", "src/valori/utils/batch_manager.py::BatchManager.parallel_batch_insert"]}
{"id": "C166", "title": "The resource monitor runs one thread and stops when told", "statement": "With one caller: at most one monitoring thread is alive at any time; samples are never lost or changed; stop_monitoring returns, at most one sample is recorded after it was called, and none after it has returned until the next start; whatever fails and whenever the threads run. False in two cases: after one failed sample start_monitoring does nothing until stop has been called, and two callers starting at once get two threads, one of which stop does not wait for.", "quantifier": "every interleaving of callers and threads and every pattern of failures", "why_tests_cant": "Interleavings and failures are unbounded.", "anchors": ["src/valori/utils/batch_manager.py::ResourceMonitor.start_monitoring", "src/valori/utils/batch_manager.py::ResourceMonitor.stop_monitoring", "src/valori/utils/batch_manager.py::ResourceMonitor._monitor_loop"]}
{"id": "C167", "title": "The resource summary is true of the samples", "statement": "get_summary is empty exactly when there are no samples; minimum and maximum are attained, the average is the mean and lies between them; the duration is that from first to last sample. It is not about the last run only: samples of earlier runs stay.", "quantifier": "every list of samples", "why_tests_cant": "All lists.", "anchors": ["src/valori/utils/batch_manager.py::ResourceMonitor.get_summary"]}
{"id": "C168", "title": "Progress lines make sense", "statement": "A tracker for at least one item that is not told of more items than there are never fails; each line has thirty places, as many full as the share done, a percentage between 0 and 100 and a remaining time that is not negative; the numbers never decrease and lines are at least a second apart; finish shows 100 percent. False with no items (finish raises ZeroDivisionError) and when more is reported than announced.", "quantifier": "every sequence of updates and clock readings", "why_tests_cant": "All sequences.", "anchors": ["src/valori/utils/batch_manager.py::ProgressTracker.update", "src/valori/utils/batch_manager.py::ProgressTracker.finish", "src/valori/utils/batch_manager.py::ProgressTracker._print_progress"]}
{"id": "C169", "title": "Batch statistics give the time and the rate of the last operation", "statement": "After an operation get_stats gives the time it took and the number of items it processed per second. True for the first operation and the first after reset_stats; otherwise the items of all operations are divided by the time of the last, and during a second operation time and rate are negative.", "quantifier": "every history of operations", "why_tests_cant": "All histories.", "anchors": ["src/valori/utils/batch_manager.py::BatchManager.get_stats", "src/valori/utils/batch_manager.py::BatchManager.reset_stats"]}
{"id": "C170", "title": "A client over an Annoy index answers searches", "statement": "A database made with index_type \"annoy\" (the default of create_semantic_search_db and create_document_db, and two of the templates) answers a search after vectors were inserted. False: the client never calls build, so every search through it raises ValoriIndexError (ValoriError while the client is not initialised), whatever was done through the client before. What helps is to call build on the index itself.", "quantifier": "every history of client calls, every storage", "why_tests_cant": "All histories.", "anchors": ["src/valori/client.py::VectorDBClient.search", "src/valori/indices/annoy.py::AnnoyIndex.search", "src/valori/factory.py::create_semantic_search_db"]}
{"id": "C171", "title": "A hybrid search database keeps the metadata of its documents", "statement": "create_hybrid_search_db inserts one entry per document in order, with its text and its own values under its keys, and values describing the text under the keys it does not have; a document without text is refused with KeyError before anything is encoded. One exception: a doc_id of the document is replaced by its position.", "quantifier": "every list of documents, every encoder", "why_tests_cant": "All lists.", "anchors": ["src/valori/factory.py::create_hybrid_search_db", "src/valori/utils/helpers.py::create_vectors_from_text"]}
{"id": "C172", "title": "A semantic search database holds all its texts", "statement": "create_semantic_search_db inserts one row and one metadata entry per text in order; with a flat index searches are exact among them. No database can be made of no texts (IndexError).", "quantifier": "every list of texts, every encoder", "why_tests_cant": "All lists.", "anchors": ["src/valori/factory.py::create_semantic_search_db", "src/valori/utils/helpers.py::create_vectors_from_text"]}
{"id": "C173", "title": "An image search database holds the images that can be read", "statement": "create_image_search_db inserts exactly the images that can be read, in order, each with its path and its position in the list given; it raises IndexError when none can be read.", "quantifier": "every list of images and every pattern of failures", "why_tests_cant": "All lists.", "anchors": ["src/valori/factory.py::create_image_search_db", "src/valori/factory.py::_extract_image_features"]}
{"id": "C174", "title": "Saves acknowledged after a crash are in the log", "statement": "Every save acknowledged after a restart has its line in operations.log. False after a process died while writing a line: the first acknowledged save continues the cut line and cannot be read; the following ones are all there.", "quantifier": "every open manager and every state of the directory; every session", "why_tests_cant": "A crash inside a write cannot be staged by a unit test, and the claim is about all sessions after it.", "anchors": ["src/valori/persistence/incremental.py::IncrementalPersistence._log_operation"]}
{"id": "C175", "title": "Tensor persistence answers True or raises PersistenceError", "statement": "A closed manager refuses every call with PersistenceError and changes nothing; on an open one a save answers True exactly if the file can be written and the data can be encoded, and raises PersistenceError otherwise; a failing save_index makes its own path unreadable and leaves the other paths as they are.", "quantifier": "every state, every path, object and id list", "why_tests_cant": "All states and inputs.", "anchors": ["src/valori/persistence/tensor.py::TensorPersistence.save_state", "src/valori/persistence/tensor.py::TensorPersistence.save_index", "src/valori/persistence/tensor.py::TensorPersistence.save_vectors", "src/valori/persistence/tensor.py::TensorPersistence.load_vectors", "src/valori/persistence/tensor.py::TensorPersistence.load_index"]}
{"id": "C176", "title": "Statistics of tensor persistence", "statement": "save_count and load_count are the acknowledged saves and the loads that handed out something since the manager was made; file_count is the number of different paths written to, with unreadable files; disk_usage_bytes is the sum of the sizes of these files.", "quantifier": "every history from an empty directory", "why_tests_cant": "Counts over all histories.", "anchors": ["src/valori/persistence/tensor.py::TensorPersistence.get_stats"]}
{"id": "C177", "title": "Statistics of incremental persistence", "statement": "operation_count and logged_operations both are the number of acknowledged saves, and checkpoint_count the number of acknowledged state saves. True in the first session; false after a restart, when the two operation counts disagree.", "quantifier": "every history of the first session; every open manager", "why_tests_cant": "Counts over all histories.", "anchors": ["src/valori/persistence/incremental.py::IncrementalPersistence.get_stats", "src/valori/persistence/incremental.py::IncrementalPersistence._load_checkpoint_info"]}
{"id": "C178", "title": "Restarting a parser registry", "statement": "A registry whose parsers close without error can be closed, and after initialising it again it answers under each name the parser built from the configuration entry and the class last known under the name (given by successful add_parser/remove_parser calls). A parser made available with add_parser is still available afterwards: false, unless the configuration has an entry of its name.", "quantifier": "every configuration, every history of calls of the registry", "why_tests_cant": "Unit tests add one parser and look it up; the claim is about all histories and the restart.", "anchors": ["src/valori/parsers/registry.py::ParserRegistry.initialize", "src/valori/parsers/registry.py::ParserRegistry.add_parser", "src/valori/parsers/registry.py::ParserRegistry.remove_parser", "src/valori/parsers/registry.py::ParserRegistry.close"]}
{"id": "C179", "title": "The pipeline raises ProcessingError only", "statement": "Whatever fails in a pipeline (a parser, a processor, the configuration) reaches the caller as ProcessingError; a pipeline that is not initialised refuses every document, text and batch and touches nothing; a failing initialize does not make it usable; failed entries of a batch name a path of the batch.", "quantifier": "every pipeline, every state, all inputs", "why_tests_cant": "All failures of all parsers and processors.", "anchors": ["src/valori/processors/pipeline.py::ProcessingPipeline.initialize", "src/valori/processors/pipeline.py::ProcessingPipeline.process_document", "src/valori/processors/pipeline.py::ProcessingPipeline.process_text", "src/valori/processors/pipeline.py::ProcessingPipeline.batch_process_documents"]}
{"id": "C180", "title": "Texts and files go through the same processors", "statement": "process_text succeeds exactly if each processor in turn succeeds and answers the result of the last; process_document does the same with what the chosen parser answers.", "quantifier": "every pipeline, document and processor behaviour", "why_tests_cant": "All processor behaviours.", "anchors": ["src/valori/processors/pipeline.py::ProcessingPipeline.process_text", "src/valori/processors/pipeline.py::ProcessingPipeline.process_document"]}
{"id": "C181", "title": "get_parser_info tells which parsers can be used", "statement": "get_parser_info lists as available exactly the parsers that can be requested by name, with their formats, and as unavailable the other known classes, without formats; before initialising and after closing it lists nothing.", "quantifier": "every history of calls of the registry", "why_tests_cant": "All histories.", "anchors": ["src/valori/parsers/registry.py::ParserRegistry.get_parser_info"]}
{"id": "C182", "title": "The description of a pipeline", "statement": "get_supported_formats of an initialised pipeline are exactly the formats of the parsers that could be built from the configuration; a pipeline not yet initialised or closed supports none and describes itself as not initialised.", "quantifier": "every configuration and pipeline", "why_tests_cant": "All configurations.", "anchors": ["src/valori/processors/pipeline.py::ProcessingPipeline.get_supported_formats", "src/valori/processors/pipeline.py::ProcessingPipeline.get_pipeline_info", "src/valori/processors/pipeline.py::ProcessingPipeline.close"]}
{"id": "C183", "title": "An index whose initialize raised refuses work", "statement": "After initialize of a flat, IVF or HNSW index raised, the index refuses inserts and searches until initialize succeeds. False: if listing the storage raised, the index counts as initialised and answers every search with an empty list although the storage holds vectors. Initialising it again behaves as on a new index.", "quantifier": "every storage, every state of it, every query", "why_tests_cant": "Tests initialise with a working storage; the claim is about every failing one.", "anchors": ["src/valori/indices/flat.py::FlatIndex.initialize", "src/valori/indices/ivf.py::IVFIndex.initialize", "src/valori/indices/hnsw.py::HNSWIndex.initialize"]}
{"id": "C184", "title": "A refused write to disk does no lasting harm", "statement": "If the operating system refuses a write of the disk storage at any point, the call raises StorageError and no id with another file name is touched. Whatever was refused before, an id reads as the last write about it that answered says, provided no later write about it raised. The count in the statistics is the number of listed vectors: false after a refused store, true again after the next store or delete that answered True.", "quantifier": "every directory, every sequence of calls, every point of refusal in each call", "why_tests_cant": "A test would have to fill the disk at every point of every call.", "anchors": ["src/valori/storage/disk.py::DiskStorage.store_vector", "src/valori/storage/disk.py::DiskStorage.update_vector", "src/valori/storage/disk.py::DiskStorage.delete_vector"]}
{"id": "C185", "title": "The hybrid storage after refused writes", "statement": "Whatever writes the disk refused before and whatever was evicted from memory, an id of the hybrid storage reads as the last write about it that answered says, provided no later write about it raised. Two reads with no write between them agree: false after a refused update, since memory answers the old vector until it is evicted.", "quantifier": "every directory, every memory limit, every sequence of calls, every point of refusal in each call", "why_tests_cant": "The answer depends on what the eviction left in memory and on the point where the disk refused.", "anchors": ["src/valori/storage/hybrid.py::HybridStorage.store_vector", "src/valori/storage/hybrid.py::HybridStorage.update_vector", "src/valori/storage/hybrid.py::HybridStorage.delete_vector", "src/valori/storage/hybrid.py::HybridStorage.retrieve_vector"]}
{"id": "C186", "title": "What the PDF parser returns", "statement": "A PDF that can be opened is parsed, whatever its pages do; anything else raises ParsingError. The text is the texts of the readable pages that are not blank, in order and unchanged, with blank lines between them. Every entry of page_metadata is true of a page and the page of every chunk is one of them. The number of pages with text is the number of pages whose text is in the document: false for a page whose images cannot be counted.", "quantifier": "every PDF, every configuration, every set of pages that raise", "why_tests_cant": "The page loop swallows exceptions; tests use PDFs whose pages can all be read.", "anchors": ["src/valori/parsers/pdf_parser.py::PDFParser.parse"]}
{"id": "C187", "title": "What the docling parser returns", "statement": "The text is the stripped texts of the elements that are not blank, one per line, and joining the chunks gives it back. The tables and figures are those of the elements labelled so, and none if not wanted. Anything that goes wrong is a ParsingError. The tables of a document are in its chunks: false, the chunker does not use them.", "quantifier": "every document, every configuration, every chunk size", "why_tests_cant": "Docling is not installed where the tests run, so the parser is not run at all.", "anchors": ["src/valori/parsers/docling_parser.py::DoclingParser.parse", "src/valori/parsers/docling_parser.py::DoclingParser._create_structured_chunks"]}
{"id": "C188", "title": "Statistics of chunking and cleaning", "statement": "After any documents, refused ones included, chunks_created is the number of chunks handed out and total_characters_processed the characters passed in; the counters of the cleaning processor are the documents, the characters of their main texts before and after. average_chunk_size is the average length of the chunks: false with overlap, size limits or refused documents; without any chunk it is the number of characters. characters_removed is never negative: false when NFKD or unescaping lengthens the text.", "quantifier": "every configuration, every sequence of documents", "why_tests_cant": "Tests look at the counters after one document and only check that the keys are there.", "anchors": ["src/valori/processors/chunking.py::ChunkingProcessor.get_stats", "src/valori/processors/cleaning.py::CleaningProcessor.get_stats"]}
{"id": "C189", "title": "Starting parsers and the cleaning processor", "statement": "initialize of a parser succeeds exactly when every library it uses answers; a missing library is a ParsingError and the parser stays as it was. Without stop-word removal the cleaning processor always starts; with it the words of nltk are used, or 24 English ones when nltk is missing, whatever the language. Other failures are reported as ParsingError or ProcessingError and change nothing: false, they come out as they are, and a failed start of a running cleaning processor takes its stop words away.", "quantifier": "every parser, every behaviour of the libraries, every configuration", "why_tests_cant": "Tests run with one set of libraries installed.", "anchors": ["src/valori/parsers/pdf_parser.py::PDFParser.initialize", "src/valori/parsers/office_parser.py::OfficeParser.initialize", "src/valori/parsers/docling_parser.py::DoclingParser.initialize", "src/valori/processors/cleaning.py::CleaningProcessor.initialize"]}
{"id": "C190", "title": "Starting the embedding processor", "statement": "initialize succeeds or raises ProcessingError. After success the processor holds the model loaded, moved to the device configured, or for \"auto\" to the graphics card if there is one. \"auto\" is decided at each start: false, the first successful start fixes it. A failed start leaves the processor as it was: false, it may hold a model that could not be moved while still counting as initialised.", "quantifier": "every model type, every device, every behaviour of the libraries", "why_tests_cant": "The model libraries are not installed where the tests run.", "anchors": ["src/valori/processors/embedding.py::EmbeddingProcessor.initialize"]}
{"id": "C191", "title": "Measuring an index", "statement": "validate_index_performance reports the vectors and queries divided by the times measured exactly when adding, building and all searches succeed and no time is zero; the test vectors stay in the index. It works for every index: false for flat, HNSW and IVF, which have no add. It works for every set of queries: false for none.", "quantifier": "every index, every clock, every set of vectors and queries", "why_tests_cant": "No test calls it.", "anchors": ["src/valori/utils/helpers.py::validate_index_performance"]}
{"id": "C192", "title": "How many bits the scalar quantiser really has", "statement": "With at most 24 bits, converting the divisor, the largest code and the codes to floating point changes nothing: encoding and decoding are those of exact arithmetic. Every number of bits works like that: false. With float32 data from 25 bits on (float64: 54) the largest trained value gets the code 2^bits, one too many, which at 31 (63) bits does not fit the integer type; and decoding never tells apart codes beyond 24 digits. What is left is an error of at most the 2^24-th part of the distance from the minimum.", "quantifier": "every number of bits up to 63, every precision, every quantiser and every code", "why_tests_cant": "Tests use 8 bits; the loss starts where nobody looks.", "anchors": ["src/valori/quantization/scalar.py::ScalarQuantizer.quantize", "src/valori/quantization/scalar.py::ScalarQuantizer.dequantize"]}
{"id": "C193", "title": "What the quantizer and the persistence manager of a client do", "statement": "A quantizer and a persistence manager handed to a client compress and keep its vectors: false. For every history of calls the client answers and stores what it would without them; the quantizer is never trained, and the persistence manager never reads or writes a file. A client on memory storage with a persistence manager finds nothing after close and initialize.", "quantifier": "every client, every index and storage, every quantizer and every history of calls", "why_tests_cant": "That something is never called in any history cannot be tested; the test suite checks that a client with these components can be created.", "anchors": ["src/valori/client.py::VectorDBClient.initialize", "src/valori/client.py::VectorDBClient.insert", "src/valori/client.py::VectorDBClient.search", "src/valori/client.py::VectorDBClient.close"]}
{"id": "C194", "title": "A client over a flat index is an exact search database", "statement": "Seen from outside, a client with a flat index is one database: in every history of opening, closing, inserting, searching, deleting and updating, each answer is the one of an abstract list of live items. A closed client refuses; a search raises exactly when a vector or the query is unusable and otherwise returns the exact nearest neighbours with their metadata; closing and reopening keeps everything on disk and hybrid storage and forgets everything in memory. A quantizer or persistence manager does not change any answer.", "quantifier": "every history of calls on the client, every storage backend, metric, vector and metadata", "why_tests_cant": "Tests try a few fixed sequences on one backend; the claim is about all interleavings of life cycle and data calls.", "anchors": ["src/valori/client.py::VectorDBClient", "src/valori/indices/flat.py::FlatIndex", "src/valori/storage/memory.py::MemoryStorage", "src/valori/storage/disk.py::DiskStorage", "src/valori/storage/hybrid.py::HybridStorage"]}
{"id": "C195", "title": "Clients over IVF and HNSW indices are honest search databases", "statement": "Seen from outside, a client with an IVF or HNSW index is one database, too: in every history of opening, closing, inserting, searching, deleting and updating, a closed client refuses, inserts, deletes and updates answer truthfully, closing and reopening keeps everything on disk and hybrid storage and forgets everything in memory, and the reported number of vectors is the number of live vectors. A search may miss items but what it returns is live, ordered nearest first, at most k, with true distances and metadata (for IVF also without repetition). Requests of the right shape raise only if some distance is not defined.", "quantifier": "every history of calls on the client, every storage backend, metric, k-means outcome and random choice", "why_tests_cant": "The state of clusters, caches and graph levels depends on the whole history including reopening; tests only look at one new client.", "anchors": ["src/valori/client.py::VectorDBClient", "src/valori/indices/ivf.py::IVFIndex.initialize", "src/valori/indices/ivf.py::IVFIndex.search", "src/valori/indices/hnsw.py::HNSWIndex.initialize", "src/valori/indices/hnsw.py::HNSWIndex.search"]}
{"id": "C196", "title": "A client over an LSH index is a database for one session", "statement": "Seen from outside, a client with an LSH index answers every history of opening, closing and requests as one abstract table of numbered slots: a closed client refuses; accepted batches get the next numbers as ids, others raise; deletes say True; updates tell whether the id was live; the count is the number of live slots; a search is sound, ordered, at most k, and considers every vector equal to the query. A client on disk or hybrid storage keeps its vectors over close and initialize, and initialising it again while open does no harm.", "quantifier": "every history of calls on the client, every storage backend, hash functions, similarity and set order", "why_tests_cant": "The loss shows only after a close and reopen or a second initialize, with a storage that is not the one in memory; the unit tests never combine an LSH index with another storage.", "anchors": ["src/valori/client.py::VectorDBClient", "src/valori/indices/lsh.py::LSHIndex.initialize", "src/valori/indices/lsh.py::LSHIndex.close", "src/valori/indices/lsh.py::LSHIndex.search", "src/valori/factory.py::create_vector_db"]}
{"id": "C197", "title": "Files stay in their directory", "statement": "What the persistence managers save and load under a path given by the caller lies in their data directory, and a save under such a path leaves the files the manager keeps for itself alone. The disk storage keeps the vector and the metadata of every id, whatever characters it has, in files directly in its two directories.", "quantifier": "every data directory, every path and id string, every file on the machine", "why_tests_cant": "Tests use harmless names; which path leaves the directory depends on dots, slashes and depth in combination.", "anchors": ["src/valori/persistence/tensor.py::TensorPersistence.save_state", "src/valori/persistence/tensor.py::TensorPersistence.load_state", "src/valori/persistence/tensor.py::TensorPersistence.save_vectors", "src/valori/persistence/incremental.py::IncrementalPersistence.save_index", "src/valori/storage/disk.py::DiskStorage._sanitize_id"]}
{"id": "C198", "title": "Threads with different ids do not disturb each other on disk", "statement": "If several threads share one disk storage and no two of them work on ids with the same file name, then every thread gets the replies it would get if it were the only one, its vectors are as if it were the only one even while others are still at work, no other vector changes, and no thread waits for another.", "quantifier": "every number of threads, every list of calls for each, every order in which the single file accesses of the threads are executed, every initial directory", "why_tests_cant": "Tests run a few threads and see the few interleavings the machine happens to produce.", "anchors": ["src/valori/storage/disk.py::DiskStorage.store_vector", "src/valori/storage/disk.py::DiskStorage.retrieve_vector", "src/valori/storage/disk.py::DiskStorage.delete_vector", "src/valori/storage/disk.py::DiskStorage.update_vector", "src/valori/utils/batch_manager.py::BatchManager.parallel_batch_insert"]}
{"id": "C199", "title": "Parallel calls on a disk storage are orderly", "statement": "Whatever threads do with a shared disk storage, their replies and the vectors and metadata found afterwards are those of making the calls one after the other in some order, and the reported number of vectors is the number of vectors stored.", "quantifier": "every number of threads, every list of calls for each, every order of their file accesses", "why_tests_cant": "A wrong result needs a switch of threads between two particular file accesses, which tests almost never hit.", "anchors": ["src/valori/storage/disk.py::DiskStorage.store_vector", "src/valori/storage/disk.py::DiskStorage.retrieve_vector", "src/valori/storage/disk.py::DiskStorage.delete_vector", "src/valori/storage/disk.py::DiskStorage.update_vector", "src/valori/utils/batch_manager.py::BatchManager.parallel_batch_insert"]}
{"id": "C200", "title": "Distances of integer vectors", "statement": "The distance and similarity functions, and the distances HNSW and IVF indices search by, give for integer arrays the same result as for the same numbers as floats; in particular they are symmetric, 0 only for equal vectors, and put nearer vectors first.", "quantifier": "every integer type of every width, signed or not, all vectors of every length", "why_tests_cant": "Tests use float arrays; wrap-around only shows for particular differences or sums in narrow types.", "anchors": ["src/valori/utils/similarity.py::cosine_similarity", "src/valori/utils/similarity.py::euclidean_distance", "src/valori/utils/similarity.py::euclidean_distance_squared", "src/valori/utils/similarity.py::manhattan_distance", "src/valori/utils/similarity.py::chebyshev_distance", "src/valori/utils/similarity.py::dot_product", "src/valori/indices/hnsw.py::HNSWIndex._compute_distance", "src/valori/indices/ivf.py::IVFIndex._compute_distance"]}
{"id": "C201", "title": "Numbers reported about a data set", "statement": "analyze_vectors of a matrix with at least two rows gives the extremes, the mean and the standard deviation of all entries, of the lengths of the rows, and of the cosines of pairs of rows (of all rows up to a thousand, else of a thousand of them). The numbers fit together: the mean of the column means is the mean, the variance is the variance of the column means plus the mean variance of the columns, the mean squared length follows from mean and deviation of the entries, deviations are bounded by the extremes. Without zero rows the similarities are between -1 and 1 and their mean over n rows is at least -1/(n-1).", "quantifier": "every real matrix of every size, every choice of the sample (exact arithmetic)", "why_tests_cant": "Identities between reported numbers over all matrices.", "anchors": ["src/valori/utils/debugging.py::VectorAnalyzer._basic_statistics", "src/valori/utils/debugging.py::VectorAnalyzer._distribution_analysis", "src/valori/utils/debugging.py::VectorAnalyzer._similarity_analysis"]}
{"id": "C202", "title": "A hybrid storage may be shared by threads", "statement": "Whatever threads do with a shared hybrid storage, the replies and the final contents are those of making the calls one after the other in some order in which each thread keeps its own order, and no thread waits for ever.", "quantifier": "every number of threads, every list of calls for each, every interleaving of single file accesses and calls of the memory part", "why_tests_cant": "All interleavings of all programs.", "anchors": ["src/valori/storage/hybrid.py::HybridStorage.store_vector", "src/valori/storage/hybrid.py::HybridStorage.retrieve_vector", "src/valori/storage/hybrid.py::HybridStorage.delete_vector", "src/valori/storage/hybrid.py::HybridStorage.update_vector", "src/valori/storage/hybrid.py::HybridStorage.list_vectors", "src/valori/storage/hybrid.py::HybridStorage.get_stats", "src/valori/storage/hybrid.py::HybridStorage.close"]}
{"id": "C203", "title": "The batch size of batch_insert does not matter", "statement": "If inserting a collection with one client.insert succeeds, then batch_insert with any positive batch size returns the same ids, leaves the database in the same state (so every later call answers the same) and counts every row as processed once.", "quantifier": "every index type, storage backend, batch size, collection, metadata list of any length, and state of the database", "why_tests_cant": "Unit tests insert small collections in one or two batches and look at counts; whether every later answer is independent of every way of cutting every collection is a statement about all states and sizes.", "anchors": ["src/valori/utils/batch_manager.py::BatchManager.batch_insert", "src/valori/client.py::VectorDBClient.insert", "src/valori/indices/flat.py::FlatIndex.insert", "src/valori/indices/hnsw.py::HNSWIndex.insert", "src/valori/indices/ivf.py::IVFIndex.insert", "src/valori/indices/lsh.py::LSHIndex.insert", "src/valori/indices/annoy.py::AnnoyIndex.insert"]}
{"id": "C204", "title": "An IVF index filled by several threads can be searched", "statement": "If several threads insert into one IVF index, then after all have returned every vector is stored, listed once among the ids, and in exactly one cluster, that of the centroid nearest to it, so that a search with enough probes can find it; no thread raises.", "quantifier": "every number of threads, rows for each thread, interleaving of single operations on the shared state, and start state", "why_tests_cant": "Races show in few of the interleavings, and a test cannot enumerate the interleavings of any number of threads and rows.", "anchors": ["src/valori/indices/ivf.py::IVFIndex.insert", "src/valori/indices/ivf.py::IVFIndex._train_index", "src/valori/indices/ivf.py::IVFIndex._add_to_cluster"]}
{"id": "C205", "title": "A search beside inserts answers for one moment", "statement": "A search on a flat index while other threads insert and search answers exactly as a search that has the index for itself would at one moment during the call: the k nearest of the vectors then in the index, with their distances and metadata.", "quantifier": "every number of threads, every call of each thread, every interleaving of single operations on the shared state, every start state whose cache agrees with the storage", "why_tests_cant": "The outcome depends on how single statements of the threads interleave; tests run a few of the interleavings of a few threads.", "anchors": ["src/valori/indices/flat.py::FlatIndex.search", "src/valori/indices/flat.py::FlatIndex.insert"]}
{"id": "C206", "title": "Searches do not disturb inserts, updates and deletions", "statement": "Whatever threads do with a flat index, its ids, its count, the storage and the replies to inserts, updates and deletions are as if nobody searched. The same holds for threads that insert into and search an IVF index: ids, count, storage, centroids, clusters and the progress of the insertions, also of those that train the index, are as if nobody searched; and for threads that insert into and search an HNSW index: storage, vectors, count, graph and the progress of the insertions.", "quantifier": "every number of threads, every call of each thread, every interleaving of single operations on the shared state and every start state (IVF: every start state at rest and new ids)", "why_tests_cant": "The outcome depends on how single statements of the threads interleave; tests run a few of the interleavings of a few threads.", "anchors": ["src/valori/indices/flat.py::FlatIndex.search", "src/valori/indices/flat.py::FlatIndex.insert", "src/valori/indices/flat.py::FlatIndex.update", "src/valori/indices/flat.py::FlatIndex.delete", "src/valori/indices/ivf.py::IVFIndex.search", "src/valori/indices/ivf.py::IVFIndex.insert", "src/valori/indices/hnsw.py::HNSWIndex.search", "src/valori/indices/hnsw.py::HNSWIndex.insert"]}
{"id": "C207", "title": "A search beside updates and deletions answers for one moment", "statement": "A search on a flat index while other threads update and delete answers as it would at one moment before, between or after their calls; it does not raise and misses no vector that is stored all the time.", "quantifier": "every number of threads, every call of each thread, every interleaving of single operations on the shared state and every start state", "why_tests_cant": "The outcome depends on how single statements of the threads interleave; tests run a few of the interleavings of a few threads.", "anchors": ["src/valori/indices/flat.py::FlatIndex.search", "src/valori/indices/flat.py::FlatIndex.insert", "src/valori/indices/flat.py::FlatIndex.update", "src/valori/indices/flat.py::FlatIndex.delete"]}
{"id": "C208", "title": "Threads leave the cache in agreement with the storage", "statement": "When no thread is in the middle of a call on a flat index, every vector in the cache is the one in the storage, so later searches give the distances of the stored vectors.", "quantifier": "every number of threads, every call of each thread, every interleaving of single operations on the shared state, every start state whose cache agrees with the storage", "why_tests_cant": "The outcome depends on how single statements of the threads interleave; tests run a few of the interleavings of a few threads.", "anchors": ["src/valori/indices/flat.py::FlatIndex.search", "src/valori/indices/flat.py::FlatIndex.insert", "src/valori/indices/flat.py::FlatIndex.update", "src/valori/indices/flat.py::FlatIndex.delete"]}
{"id": "C209", "title": "Configurations that cannot work are refused when the database is made", "statement": "create_vector_db refuses an unknown index or storage type with ValueError, LSH and Annoy indices whose sizes are not positive numbers, whose seed NumPy does not take or whose metric Annoy does not know, and a disk directory that is no text; each refusal has its own exception. An index that is made is of the type asked for and has each parameter given, or its default. It refuses what cannot work for the other indices too: false, flat, HNSW and IVF take any metric and any numbers.", "quantifier": "every index and storage type, every configuration dictionary and every other value in its place", "why_tests_cant": "Configurations are arbitrary dictionaries; tests try a few.", "anchors": ["src/valori/factory.py::_create_index", "src/valori/factory.py::_create_storage", "src/valori/indices/lsh.py::LSHIndex.__init__", "src/valori/indices/annoy.py::AnnoyIndex.__init__", "src/valori/storage/hybrid.py::HybridStorage.__init__"]}
{"id": "C210", "title": "Parallel insertion into an HNSW index keeps the graph well-formed", "statement": "When several threads insert into one HNSW index, no insertion fails and each returns its ids. When all have returned, every row is stored under its id with its metadata, is in the index and on the levels drawn for it; links are symmetric, between nodes of one level, not to oneself and not doubled; a search has a place to start from and returns stored vectors with their distances and metadata in order; get_stats gives the number of vectors and the highest level.", "quantifier": "every number of threads, every rows and queries, every interleaving of single operations on the shared state, every random level and choice of neighbours, every index at rest before", "why_tests_cant": "The outcome depends on how single statements of the threads interleave and on random levels and neighbours; tests run a few of the interleavings of a few threads.", "anchors": ["src/valori/indices/hnsw.py::HNSWIndex.insert", "src/valori/indices/hnsw.py::HNSWIndex._insert_vector_internal", "src/valori/utils/batch_manager.py::BatchManager.parallel_batch_insert", "src/valori/indices/hnsw.py::HNSWIndex.search"]}
{"id": "C211", "title": "A search beside inserts into an HNSW index is sound", "statement": "A search on an HNSW index while other threads insert into it returns at most k results in order of distance, each a stored vector with its distance and its metadata, and it does not fail.", "quantifier": "every number of threads, every rows and queries, every interleaving of single operations on the shared state, every random level and choice of neighbours, every index at rest before", "why_tests_cant": "The outcome depends on how single statements of the threads interleave and on random levels and neighbours; tests run a few of the interleavings of a few threads.", "anchors": ["src/valori/indices/hnsw.py::HNSWIndex.search", "src/valori/indices/hnsw.py::HNSWIndex.insert", "src/valori/indices/hnsw.py::HNSWIndex._insert_vector_internal"]}
{"id": "C212", "title": "A vector that is not finite is refused or harms nobody", "statement": "insert and search refuse a vector with a NaN or infinity in it, or else searches go on returning the nearest stored vectors in order, inserts of other vectors go on working, and an update that is refused leaves the stored vector.", "quantifier": "every history of inserts, updates and deletes, every query and k, every distance function with NaN among its values, every sort that treats NaN as Python does", "why_tests_cant": "A test with a NaN in it shows what one version of the sort does with one list; whether any order of any stored vectors can be relied on is a question about all of them.", "anchors": ["src/valori/indices/ivf.py::IVFIndex.search", "src/valori/indices/ivf.py::IVFIndex._brute_force_search", "src/valori/indices/ivf.py::IVFIndex.insert", "src/valori/indices/hnsw.py::HNSWIndex.search", "src/valori/indices/flat.py::FlatIndex.search", "src/valori/indices/lsh.py::LSHIndex.insert", "src/valori/indices/lsh.py::LSHIndex.update", "src/valori/indices/annoy.py::AnnoyIndex.insert", "src/valori/indices/annoy.py::AnnoyIndex.update", "src/valori/utils/validation.py::validate_vector"]}
{"id": "C213", "title": "A call that nobody interrupts is that of a single caller", "statement": "If one thread calls insert or search on a flat, IVF, HNSW, LSH or built Annoy index, or delete on an Annoy index, or delete or update on a flat, HNSW, LSH or trained IVF index, and no other thread runs until the call is over, the call comes to an end with the reply, the index and the storage a program with one thread gets, even if other threads are in the middle of calls of their own.", "quantifier": "every state of the index, every call with its arguments, every place the other threads are at, all random choices (HNSW and IVF with updates and deletions: every state whose nodes or clusters have lists of their own, HNSW nodes not linked to themselves; LSH searches: every state whose tables have each code once, which is so in every execution; LSH: an index that has its dimension, vectors of that dimension with finite numbers, ids that are not negative)", "why_tests_cant": "A test of one call on one index does not show that the statement-by-statement model of the threads and the function-by-function model of the calls are the same program; and no test can stop the other threads at every statement.", "anchors": ["src/valori/indices/flat.py::FlatIndex.insert", "src/valori/indices/flat.py::FlatIndex.search", "src/valori/indices/flat.py::FlatIndex.delete", "src/valori/indices/flat.py::FlatIndex.update", "src/valori/indices/ivf.py::IVFIndex.insert", "src/valori/indices/ivf.py::IVFIndex.search", "src/valori/indices/ivf.py::IVFIndex._brute_force_search", "src/valori/indices/ivf.py::IVFIndex._train_index", "src/valori/indices/ivf.py::IVFIndex.update", "src/valori/indices/ivf.py::IVFIndex.delete", "src/valori/indices/ivf.py::IVFIndex._add_to_cluster", "src/valori/indices/ivf.py::IVFIndex._update_cluster_assignment", "src/valori/indices/hnsw.py::HNSWIndex.insert", "src/valori/indices/hnsw.py::HNSWIndex.search", "src/valori/indices/hnsw.py::HNSWIndex.update", "src/valori/indices/hnsw.py::HNSWIndex.delete", "src/valori/indices/hnsw.py::HNSWIndex._insert_vector_internal", "src/valori/indices/hnsw.py::HNSWIndex._remove_vector_internal", "src/valori/indices/lsh.py::LSHIndex.add", "src/valori/indices/lsh.py::LSHIndex.insert", "src/valori/indices/lsh.py::LSHIndex.search", "src/valori/indices/lsh.py::LSHIndex.update", "src/valori/indices/lsh.py::LSHIndex.remove", "src/valori/indices/lsh.py::LSHIndex.delete", "src/valori/indices/lsh.py::LSHIndex._relaxed_search", "src/valori/indices/annoy.py::AnnoyIndex.insert", "src/valori/indices/annoy.py::AnnoyIndex.add", "src/valori/indices/annoy.py::AnnoyIndex.search", "src/valori/indices/annoy.py::AnnoyIndex.delete", "src/valori/indices/annoy.py::AnnoyIndex.remove"]}
{"id": "C214", "title": "Statistics of a pipeline", "statement": "The statistics get_pipeline_info reports about a pipeline of cleaning, chunking and embedding are those of what went through it: documents_processed counts the documents the parser delivered, the character counters add up their texts before and after cleaning, chunks_created counts the chunks in the answers, and every embedding of a text with a visible character in the answers was either generated or came out of the cache, one being generated for each different text.", "quantifier": "every configuration of the three processors, every sequence of texts and parsed documents, failed calls included, every embedding model", "why_tests_cant": "A test looks at the counters after a few documents that succeed; that they still agree after any mixture of repeated, empty and failing documents is a statement about all histories of three processors that feed each other.", "anchors": ["src/valori/processors/pipeline.py::ProcessingPipeline.get_pipeline_info", "src/valori/processors/pipeline.py::ProcessingPipeline.process_document", "src/valori/processors/pipeline.py::ProcessingPipeline.process_text", "src/valori/processors/embedding.py::EmbeddingProcessor._generate_embedding", "src/valori/processors/chunking.py::ChunkingProcessor.process", "src/valori/processors/cleaning.py::CleaningProcessor.process"]}
{"id": "C215", "title": "A client over an Annoy index keeps count of what it was given", "statement": "Whatever is inserted, deleted and asked through a client over an Annoy index: inserts number the vectors by position, counted up and never given twice, or are refused as a whole; deletions are carried out or refused as a whole; searches are refused as long as nobody builds the index; vector_count is the number of vectors inserted and not deleted; and after closing and opening the client the index can be filled again.", "quantifier": "every storage backend, every metric, every sequence of requests to one client, refused requests included", "why_tests_cant": "Tests insert a few vectors and delete one; that ids are never given twice and that the count stays right after every order of inserts, refused inserts and deletions is a statement about all histories.", "anchors": ["src/valori/indices/annoy.py::AnnoyIndex.insert", "src/valori/indices/annoy.py::AnnoyIndex.delete", "src/valori/indices/annoy.py::AnnoyIndex.update", "src/valori/indices/annoy.py::AnnoyIndex.add", "src/valori/indices/annoy.py::AnnoyIndex.remove", "src/valori/indices/annoy.py::AnnoyIndex.get_stats", "src/valori/indices/annoy.py::AnnoyIndex.close", "src/valori/client.py::VectorDBClient.insert", "src/valori/client.py::VectorDBClient.delete", "src/valori/client.py::VectorDBClient.get_stats"]}
{"id": "C216", "title": "A database on disk after the death of its process", "statement": "If the process of a client over a flat index on disk storage dies at any moment of any call, a new client on the same directory finds every earlier call complete and the interrupted call either done or not done, each item with the vector and metadata of one call, and it can search.", "quantifier": "every history of a client, every further call, every number of file steps of that call that were carried out", "why_tests_cant": "Tests do not kill the process between two file operations; the claim is about every history and every such moment.", "anchors": ["src/valori/storage/disk.py::DiskStorage.store_vector", "src/valori/storage/disk.py::DiskStorage.update_vector", "src/valori/storage/disk.py::DiskStorage.delete_vector", "src/valori/storage/disk.py::DiskStorage.retrieve_vector", "src/valori/storage/disk.py::DiskStorage.list_vectors", "src/valori/indices/flat.py::FlatIndex.initialize", "src/valori/indices/flat.py::FlatIndex.insert", "src/valori/indices/flat.py::FlatIndex.search", "src/valori/indices/flat.py::FlatIndex.delete", "src/valori/indices/flat.py::FlatIndex.update", "src/valori/client.py::VectorDBClient.initialize"]}
{"id": "C217", "title": "IVF and HNSW databases on disk after the death of their process", "statement": "If the process of a client over an IVF or HNSW index on disk storage dies at any moment of any call, a new client on the same directory can be opened, finds every earlier call complete and the interrupted call either done or not done, and its answers are right from then on.", "quantifier": "every history of a client, every further call, every number of file steps of that call that were carried out, every outcome of the random choices before and after", "why_tests_cant": "Tests do not kill the process between two file operations, and whether the database can ever be opened again is a statement about every sequence of later calls.", "anchors": ["src/valori/storage/disk.py::DiskStorage.store_vector", "src/valori/storage/disk.py::DiskStorage.update_vector", "src/valori/storage/disk.py::DiskStorage.delete_vector", "src/valori/storage/disk.py::DiskStorage.retrieve_vector", "src/valori/indices/hnsw.py::HNSWIndex.initialize", "src/valori/indices/hnsw.py::HNSWIndex.insert", "src/valori/indices/hnsw.py::HNSWIndex.delete", "src/valori/indices/hnsw.py::HNSWIndex.update", "src/valori/indices/ivf.py::IVFIndex.initialize", "src/valori/indices/ivf.py::IVFIndex.insert", "src/valori/indices/ivf.py::IVFIndex._train_index", "src/valori/indices/ivf.py::IVFIndex._brute_force_search", "src/valori/client.py::VectorDBClient.initialize"]}
{"id": "C218", "title": "The statistics of a database are true", "statement": "After any history of calls on a client, get_stats() gives the number of vectors that are in the database, and the count of the storage and the count of the index agree; on hybrid storage the memory part never counts more than that; a closed client raises ValoriError.", "quantifier": "every history of opening, closing, inserting, searching, deleting and updating over flat, IVF and HNSW indices on memory, disk and hybrid storage; every metric and every outcome of the random choices", "why_tests_cant": "Tests read the counts after one insert; here the counts kept separately by index and storage stay equal along every history, including calls that raise.", "anchors": ["src/valori/client.py::VectorDBClient.get_stats", "src/valori/storage/memory.py::MemoryStorage.get_stats", "src/valori/storage/disk.py::DiskStorage.get_stats", "src/valori/storage/hybrid.py::HybridStorage.get_stats", "src/valori/indices/flat.py::FlatIndex.get_stats", "src/valori/indices/ivf.py::IVFIndex.get_stats", "src/valori/indices/hnsw.py::HNSWIndex.get_stats"]}
{"id": "C219", "title": "Deleting one id deletes that vector", "statement": "client.delete(id) with a single id, as the guide writes it, deletes the vector with this id and no other.", "quantifier": "every history before the call, every id, every index", "why_tests_cant": "A test of delete passes a list, or an id of one character; the effect of a longer id is silent because a string can be iterated.", "anchors": ["src/valori/client.py::VectorDBClient.delete", "src/valori/indices/flat.py::FlatIndex.delete", "src/valori/indices/ivf.py::IVFIndex.delete", "src/valori/indices/hnsw.py::HNSWIndex.delete", "src/valori/indices/lsh.py::LSHIndex.delete", "src/valori/indices/annoy.py::AnnoyIndex.delete"]}
{"id": "C220", "title": "The embedding processor counts its texts", "statement": "texts_processed is the number of texts the processor has embedded: one for each text embedded alone, len(texts) for each batch; clear_cache clears the cache and its hits and no other count.", "quantifier": "every history of single texts, batches, cleared caches, statistics and writes to returned arrays; every model, batch size and cache setting", "why_tests_cant": "Tests read the counters after one call with one model; how counters of single calls and of batches add up depends on the model type, the cache and blank texts.", "anchors": ["src/valori/processors/embedding.py::EmbeddingProcessor.batch_process", "src/valori/processors/embedding.py::EmbeddingProcessor.get_stats", "src/valori/processors/embedding.py::EmbeddingProcessor.clear_cache"]}
{"id": "C221", "title": "When an HNSW search finds nothing", "statement": "While nothing is deleted, with m >= 2 and ef_search >= 1, a search with k >= 1 returns an empty list exactly if the index is empty or the highest level drawn for its vectors is above 0 and was drawn for one vector only; after any history, a highest level above 0 with at most one node left means that nothing is found.", "quantifier": "every history of inserts, updates and searches (for the second part also deletions) on every storage, every outcome of the random draws, every query", "why_tests_cant": "The level of a vector is random: a test passes or fails by chance, and cannot tell for which draws an index full of vectors answers nothing.", "anchors": ["src/valori/indices/hnsw.py::HNSWIndex.search", "src/valori/indices/hnsw.py::HNSWIndex._insert_vector_internal"]}
{"id": "C222", "title": "An id that was never handed out touches nothing", "statement": "On LSH and Annoy indices, which hand out \"0\", \"1\", ..., an update or delete with any other string leaves the index and its answers alone. True of strings that denote no number or a number not reached yet. False of negative numbers: \"-1\" names the last vector. LSH update(\"-1\", v) returns True, replaces the last vector, and searches then report the id -1; delete([\"-1\"]) takes the last vector on both indices; on Annoy update(\"-1\", v) raises after taking the last vector, and the next insert hands out \"0\" again.", "quantifier": "every LSH history with any live slot and every negative number that reaches it; every Annoy state; every vector and query", "why_tests_cant": "Tests use ids the index returned or plainly absent ones; that a whole family of strings aliases live vectors, in every state, needs a statement over all of them.", "anchors": ["src/valori/indices/lsh.py::LSHIndex.update", "src/valori/indices/lsh.py::LSHIndex.remove", "src/valori/indices/annoy.py::AnnoyIndex.update", "src/valori/indices/annoy.py::AnnoyIndex.remove"]}
{"id": "C223", "title": "A vector of another length is refused or harms nobody", "statement": "Inserting or updating with a vector whose length differs from the others is either refused without effect or leaves the other vectors searchable. An IVF index that is trained refuses such an insert and answers every query as before, but stores and counts the rows. A refused update removes the id from all answers. An untrained IVF index, and an HNSW index with one level, accept the vector and then raise on every query; when n_clusters vectors of unequal lengths are stored, every further IVF insert raises and the storage can no longer be opened.", "quantifier": "every storage, history, vector, query and k; every distance function that raises on unequal lengths other than 1; every k-means that raises on unequal lengths; every random outcome of HNSW", "why_tests_cant": "A test inserts one wrong vector into one state; which searches fail afterwards depends on training, graph links and lengths, and the claim is about all queries.", "anchors": ["src/valori/indices/ivf.py::IVFIndex.insert", "src/valori/indices/ivf.py::IVFIndex.update", "src/valori/indices/ivf.py::IVFIndex._train_index", "src/valori/indices/ivf.py::IVFIndex._add_to_cluster", "src/valori/indices/hnsw.py::HNSWIndex.insert", "src/valori/indices/hnsw.py::HNSWIndex.search"]}
{"id": "C224", "title": "A hybrid database after the death of its process", "statement": "If the process of a client over a flat index on hybrid storage, with any memory limit, dies at any moment of any call, a new client on the same directory finds every earlier call complete, including vectors that were only read from memory or had been evicted from it, and the interrupted call either done or not done, and it can search.", "quantifier": "every history of a client, every memory limit, every further call, every number of file steps of that call that were carried out", "why_tests_cant": "Tests do not kill the process between two file operations, and the loss of the memory part matters only then; the claim is about every history and every such moment.", "anchors": ["src/valori/storage/hybrid.py::HybridStorage.store_vector", "src/valori/storage/hybrid.py::HybridStorage.update_vector", "src/valori/storage/hybrid.py::HybridStorage.delete_vector", "src/valori/storage/hybrid.py::HybridStorage.retrieve_vector", "src/valori/storage/hybrid.py::HybridStorage.list_vectors", "src/valori/storage/disk.py::DiskStorage.store_vector", "src/valori/indices/flat.py::FlatIndex.initialize", "src/valori/indices/flat.py::FlatIndex.search", "src/valori/client.py::VectorDBClient.initialize"]}
{"id": "C225", "title": "Databases with the same content give the same answers", "statement": "Two flat-index databases that hold the same vectors and metadata answer every later request alike, whatever storage backend each uses, whatever was inserted, updated, deleted, closed and opened before to arrive at that content, and however each one's sort breaks ties: inserts, updates and deletes return the same values, and a search returns the same distances in the same order and the same items with the same metadata, where only items exactly as far as the last one returned may be exchanged. If no two vectors are equally far from the query, the results are equal. So inserting a batch and deleting it again, doing two inserts in the other order, choosing another storage backend, or closing and opening a disk database changes no later answer.", "quantifier": "for all histories of the two databases, all later requests, all backends and all ways of breaking ties in the sort", "why_tests_cant": "Two databases reach the same content through infinitely many histories, and internal traces of the history (the order of ids, cached vectors, files) may change an answer only in few of them.", "anchors": ["src/valori/client.py::VectorDBClient", "src/valori/indices/flat.py::FlatIndex.search", "src/valori/indices/flat.py::FlatIndex.initialize", "src/valori/storage/memory.py::MemoryStorage", "src/valori/storage/disk.py::DiskStorage", "src/valori/storage/hybrid.py::HybridStorage"]}
{"id": "C226", "title": "Storage backend and earlier searches leave no trace in IVF and HNSW answers", "statement": "For an IVF or HNSW database the answers to a history of requests do not depend on the storage backend: two databases that start empty on any two backends, with the same k-means results or the same random choices, give equal answers to the same history, including the approximate search results. Nor does a search leave a trace: leaving out the searches made so far, with any query and any k, changes no later answer.", "quantifier": "for all histories, all pairs of backends, all k-means functions and all outcomes of the random choices", "why_tests_cant": "The claim compares two runs for every history; a cache that is read in the wrong place, or a search that moves something in the index, shows in few histories only.", "anchors": ["src/valori/client.py::VectorDBClient", "src/valori/indices/ivf.py::IVFIndex", "src/valori/indices/hnsw.py::HNSWIndex", "src/valori/storage/memory.py::MemoryStorage", "src/valori/storage/disk.py::DiskStorage", "src/valori/storage/hybrid.py::HybridStorage"]}
{"id": "C227", "title": "An IVF database that probes all its clusters is exact", "statement": "An IVF database with at least as many probes as k-means gives centroids returns, for every search, exactly the k nearest vectors with their true distances and metadata, in order, whatever was inserted, updated, deleted, closed and opened before and whatever clusters k-means chose. It answers every history as a flat-index database with the same metric does, where only items exactly as far as the last one returned may be exchanged.", "quantifier": "for all histories, all k-means functions with valid labels, all backends, all queries and all k", "why_tests_cant": "A vector that is in no cluster, in two clusters, or in a cluster no longer probed is lost or doubled in the results after particular histories of training, updating and deleting only.", "anchors": ["src/valori/indices/ivf.py::IVFIndex.search", "src/valori/indices/ivf.py::IVFIndex.insert", "src/valori/indices/ivf.py::IVFIndex._train_index", "src/valori/indices/flat.py::FlatIndex.search", "src/valori/client.py::VectorDBClient"]}
{"id": "C228", "title": "Closing and opening a persistent database changes no answer", "statement": "On storage that keeps its content, a database that is closed and opened again answers every later request as it would have done without closing: the same ids, the same flags, and the same search results.", "quantifier": "for all histories before, all requests after, all index types and all persistent backends", "why_tests_cant": "Reopening rebuilds the index from the storage; whether the rebuilt index answers alike depends on the whole history and on the query.", "anchors": ["src/valori/client.py::VectorDBClient", "src/valori/indices/ivf.py::IVFIndex.initialize", "src/valori/indices/hnsw.py::HNSWIndex.initialize", "src/valori/storage/disk.py::DiskStorage"]}
{"id": "C229", "title": "Asking for more results only adds results at the end", "statement": "In any state, a search for k results returns exactly the first k results of the same search for k' ≥ k results: ids, distances and metadata. It holds for the flat, IVF, HNSW and LSH indices and for the rescoring search of SAQ, and for Annoy if the library has this property for a fixed search_k.", "quantifier": "for all states of index and storage, all queries, all 0 ≤ k ≤ k'", "why_tests_cant": "The claim compares two searches for every state, query and pair of numbers; a search that collects candidates by the number of results wanted breaks it for few of them only.", "anchors": ["src/valori/indices/flat.py::FlatIndex.search", "src/valori/indices/ivf.py::IVFIndex.search", "src/valori/indices/hnsw.py::HNSWIndex.search", "src/valori/indices/lsh.py::LSHIndex.search", "src/valori/indices/annoy.py::AnnoyIndex.search", "src/valori/quantization/saq.py::SAQQuantizer.search_with_rescoring"]}
{"id": "C230", "title": "Looking at more of the index never makes results worse", "statement": "Raising the number of clusters probed by an IVF search (n_probes), the number of candidates kept by an HNSW search (ef_search) or the number of candidates rescored by an SAQ search (rescore_top_k) never makes the results worse: at least as many are returned, and the result of each rank is at most as far from the query as before.", "quantifier": "for all histories, all queries, all k and all pairs of parameter values", "why_tests_cant": "Whether a larger search effort can lose a result depends on the shape of the graph or of the clusters; tests of recall on sample data show averages only.", "anchors": ["src/valori/indices/ivf.py::IVFIndex.search", "src/valori/indices/hnsw.py::HNSWIndex.search", "src/valori/quantization/saq.py::SAQQuantizer.search_with_rescoring"]}
{"id": "C231", "title": "What an HNSW search finds in a database of at most m vectors", "statement": "While an HNSW index never held more vectors than m, a search returns the nearest vectors with every vector counted the same number of times, a number fixed by the levels drawn and ef_search alone and not by the query or the vectors: 1 if only level 0 was drawn, min(ef_search, n-1) if level 1 is the highest and n live vectors stand on it, and so on level by level. If the number is 0 nothing is returned; otherwise min(k, live vectors) results are.", "quantifier": "every history that never holds more than m vectors, every random outcome, every query and k ≥ 0", "why_tests_cant": "The graph is random; a test sees one draw of levels and cannot tell repeated results from a rule about all draws.", "anchors": ["src/valori/indices/hnsw.py::HNSWIndex.search", "src/valori/indices/hnsw.py::HNSWIndex._insert_vector_internal", "src/valori/indices/hnsw.py::HNSWIndex._remove_vector_internal"]}
{"id": "C232", "title": "Changing metadata dictionaries in place does not change the database", "statement": "A program that changes a metadata dictionary in place does not change what the database holds. Over memory storage this holds for the dictionaries the program made itself, before and after passing them to insert or update: every answer is right for the contents the dictionaries had when they were passed. It is false for the dictionaries in search results, which are the stored ones: whatever the program did, writing into one changes the metadata that later searches report for that item, until the item is deleted or updated or the database is closed or opened. Over disk storage results are new dictionaries and any write is harmless.", "quantifier": "every program of calls, new dictionaries and writes into dictionaries, over a flat, IVF or HNSW index", "why_tests_cant": "A test compares values right after a call; whether some later search sees a write depends on which of many dictionaries are shared.", "anchors": ["src/valori/storage/memory.py::MemoryStorage.store_vector", "src/valori/storage/memory.py::MemoryStorage.retrieve_vector", "src/valori/storage/disk.py::DiskStorage.retrieve_vector", "src/valori/indices/flat.py::FlatIndex.search", "src/valori/client.py::VectorDBClient.search"]}
{"id": "C233", "title": "A search beside insertions into an IVF index is right", "statement": "While other threads insert into an IVF index, a search does not raise and returns at most k results in order of distance with different ids, each a stored vector with its distance and metadata; and it misses nothing that was in the n_probes nearest clusters (all vectors, if the index is not trained) when the threads started: it returns it or k results that are not farther away. Soundness holds for every schedule. The rest holds with at most one inserting thread, or when the index was trained before and has a list for the cluster of every new row, or as long as the index is not trained. It is false when two threads train the index at once: a search can raise, or return a vector twice.", "quantifier": "every number of inserting and searching threads, rows, queries, interleaving of single operations on the shared state, and start state at rest", "why_tests_cant": "Races show in few of the interleavings, and a test cannot enumerate the interleavings of any number of threads and rows.", "anchors": ["src/valori/indices/ivf.py::IVFIndex.search", "src/valori/indices/ivf.py::IVFIndex._brute_force_search", "src/valori/indices/ivf.py::IVFIndex.insert", "src/valori/indices/ivf.py::IVFIndex._train_index", "src/valori/indices/ivf.py::IVFIndex._add_to_cluster"]}
{"id": "C234", "title": "A search of an HNSW index beside updates and deletions is sound", "statement": "A search on an HNSW index while other threads insert, update and delete returns at most k results in order of distance; the distance of each result is that of a vector which the index had under its id at some moment of the search, and its metadata were stored under the id at some moment of the search; the search does not fail.", "quantifier": "every number of threads, every call of each thread, every interleaving of single operations on the shared state, every random level and choice of neighbours, every start state", "why_tests_cant": "The outcome depends on how single statements of the threads interleave; tests run a few of the interleavings of a few threads.", "anchors": ["src/valori/indices/hnsw.py::HNSWIndex.search", "src/valori/indices/hnsw.py::HNSWIndex.insert", "src/valori/indices/hnsw.py::HNSWIndex.update", "src/valori/indices/hnsw.py::HNSWIndex.delete", "src/valori/indices/hnsw.py::HNSWIndex._insert_vector_internal", "src/valori/indices/hnsw.py::HNSWIndex._remove_vector_internal"]}
{"id": "C235", "title": "Inserts, updates and deletions of several threads on an HNSW index all take effect", "statement": "Threads insert, update and delete on one HNSW index, no id being written by two of the calls. Ids that no call touches keep their vectors, metadata and nodes at every moment. When an insertion has returned, its rows are in the storage, in the index and on their levels; when an update has returned, it gave True exactly if the id was stored, and vector and metadata are the new ones; when a deletion has returned, its ids are gone from the storage, the index and all levels for good. No call fails; when all are over, vectors and storage agree, and a search ends with an answer of stored vectors in order of distance.", "quantifier": "every number of threads, every call of each thread, every interleaving of single operations on the shared state, every random level and choice of neighbours, every start state (at rest, for the last sentence)", "why_tests_cant": "The outcome depends on how single statements of the threads interleave; tests run a few of the interleavings of a few threads.", "anchors": ["src/valori/indices/hnsw.py::HNSWIndex.search", "src/valori/indices/hnsw.py::HNSWIndex.insert", "src/valori/indices/hnsw.py::HNSWIndex.update", "src/valori/indices/hnsw.py::HNSWIndex.delete", "src/valori/indices/hnsw.py::HNSWIndex._insert_vector_internal", "src/valori/indices/hnsw.py::HNSWIndex._remove_vector_internal"]}
{"id": "C236", "title": "Inserts, updates and deletions of several threads on a trained IVF index all take effect", "statement": "If threads insert, search, update and delete on one trained IVF index at the same time and no id is touched by two of them, no insert, update or delete raises; each replies what it would reply alone; an inserted or updated vector is stored, cached, listed once and in the list of the cluster with the nearest centroid only; a deleted one is nowhere; ids that nobody touches stay as they were; and when all are done the index is consistent again and its count is that of its vectors; a search made then gives the exact k nearest of the vectors in the clusters it probes, and of all vectors if it probes all clusters.", "quantifier": "every number of threads, every interleaving of single statements, every trained index at rest in which every cluster has a list, all vectors and ids", "why_tests_cant": "The outcome depends on how single statements of the threads interleave; tests run a few of the interleavings of a few threads.", "anchors": ["src/valori/indices/ivf.py::IVFIndex.insert", "src/valori/indices/ivf.py::IVFIndex.search", "src/valori/indices/ivf.py::IVFIndex.update", "src/valori/indices/ivf.py::IVFIndex.delete", "src/valori/indices/ivf.py::IVFIndex._add_to_cluster", "src/valori/indices/ivf.py::IVFIndex._update_cluster_assignment"]}
{"id": "C237", "title": "A search of a trained IVF index beside inserts, updates and deletions is sound", "statement": "A search of a trained IVF index while other threads insert, update and delete returns at most k results, in order of distance, no id twice, each with a distance and metadata that the id had at some moment of the search, misses no vector of the probed clusters that nobody touches, does not raise, and disturbs nobody.", "quantifier": "every number of threads, every interleaving of single statements, all queries, k, vectors and ids", "why_tests_cant": "The outcome depends on how single statements of the threads interleave; tests run a few of the interleavings of a few threads.", "anchors": ["src/valori/indices/ivf.py::IVFIndex.insert", "src/valori/indices/ivf.py::IVFIndex.search", "src/valori/indices/ivf.py::IVFIndex.update", "src/valori/indices/ivf.py::IVFIndex.delete", "src/valori/indices/ivf.py::IVFIndex._add_to_cluster", "src/valori/indices/ivf.py::IVFIndex._update_cluster_assignment"]}
{"id": "C238", "title": "A call comes to its end whatever other threads do", "statement": "An insert, search, update or delete on a flat, HNSW, LSH or trained IVF index, or an insert, search or delete on a built Annoy index, is over after a number of its own statements that depends only on its arguments and the size of the index, whatever other threads do at the same time on the same index: no call waits for another or is kept busy by it.", "quantifier": "every state the threads begin with, every number of threads, all their calls, every interleaving of single statements", "why_tests_cant": "A test sees that a call came to its end in a few executions; that it does in all of them, within a bound that other threads cannot move, is a statement about all interleavings of all lengths.", "anchors": ["src/valori/indices/flat.py::FlatIndex.insert", "src/valori/indices/flat.py::FlatIndex.search", "src/valori/indices/flat.py::FlatIndex.delete", "src/valori/indices/flat.py::FlatIndex.update", "src/valori/indices/hnsw.py::HNSWIndex.insert", "src/valori/indices/hnsw.py::HNSWIndex.search", "src/valori/indices/hnsw.py::HNSWIndex.delete", "src/valori/indices/hnsw.py::HNSWIndex.update", "src/valori/indices/hnsw.py::HNSWIndex._remove_vector_internal", "src/valori/indices/ivf.py::IVFIndex.insert", "src/valori/indices/ivf.py::IVFIndex.search", "src/valori/indices/ivf.py::IVFIndex.update", "src/valori/indices/ivf.py::IVFIndex.delete", "src/valori/indices/ivf.py::IVFIndex._add_to_cluster", "src/valori/indices/ivf.py::IVFIndex._update_cluster_assignment", "src/valori/indices/annoy.py::AnnoyIndex.insert", "src/valori/indices/annoy.py::AnnoyIndex.add", "src/valori/indices/annoy.py::AnnoyIndex.search", "src/valori/indices/annoy.py::AnnoyIndex.delete", "src/valori/indices/annoy.py::AnnoyIndex.remove", "src/valori/indices/lsh.py::LSHIndex.add", "src/valori/indices/lsh.py::LSHIndex.search", "src/valori/indices/lsh.py::LSHIndex.update", "src/valori/indices/lsh.py::LSHIndex.remove", "src/valori/indices/lsh.py::LSHIndex._relaxed_search"]}
{"id": "C239", "title": "Metadata saved in a JSON file comes back as it was", "statement": "Metadata that validate_metadata accepts, saved with save_vectors_to_file(..., format=\"json\") and read by load_vectors_from_file, is the metadata that was saved. False for every metadata with a tuple, or with a nested dictionary that has a key which is no string: tuples come back as lists, keys as texts, and of two keys with the same text one is lost with its value. True exactly for the others; top-level keys and their order are always kept, and what came back once comes back unchanged ever after. Metadata that was not validated may make the save raise and destroy the file.", "quantifier": "every metadata value, nested at will, every list of them, every path with suffix \".json\", every earlier content of the file system", "why_tests_cant": "Tests save a few dictionaries of texts and numbers; which nested values survive the text format is a statement about all of them, proved by induction over their structure.", "anchors": ["src/valori/utils/validation.py::validate_metadata", "src/valori/utils/helpers.py::save_vectors_to_file", "src/valori/utils/helpers.py::load_vectors_from_file"]}
{"id": "C240", "title": "A search of an LSH index beside inserts, updates and deletions is sound and finds what nobody touches", "statement": "A search of an LSH index while other threads insert, update and delete returns at most k results, the most similar first, no id twice, each with a similarity that reaches the threshold and that the vector of the id had at some moment of the search, and with metadata that belonged to that vector; it finds every vector that shares a bucket with the query, unless k results are as similar, and it does not raise.", "quantifier": "every number of threads, every interleaving of single statements, all queries, k, vectors and ids", "why_tests_cant": "The outcome depends on how single statements of the threads interleave; tests run a few of the interleavings of a few threads.", "anchors": ["src/valori/indices/lsh.py::LSHIndex.add", "src/valori/indices/lsh.py::LSHIndex.search", "src/valori/indices/lsh.py::LSHIndex.update", "src/valori/indices/lsh.py::LSHIndex.remove", "src/valori/indices/lsh.py::LSHIndex.delete", "src/valori/indices/lsh.py::LSHIndex._relaxed_search"]}
{"id": "C241", "title": "Inserts, updates and deletions of several threads on an LSH index all take effect", "statement": "If threads insert, search, update and delete on one LSH index at the same time, no insert raises, each call replies what it would reply in some order of the calls, an inserted or updated vector is stored with its metadata and is exactly once in the bucket of its code in every table and in no other, a deleted one is nowhere, ids that nobody names stay as they were, and when all have ended the tables mirror the stored vectors again: a search made then returns at most k living ids, the most similar first, with their true similarity and metadata, and leaves out a vector it has to consider only for vectors at least as similar.", "quantifier": "every number of threads, every interleaving of single statements, every index at rest, all vectors and ids; one thread that inserts", "why_tests_cant": "The outcome depends on how single statements of the threads interleave; tests run a few of the interleavings of a few threads.", "anchors": ["src/valori/indices/lsh.py::LSHIndex.add", "src/valori/indices/lsh.py::LSHIndex.search", "src/valori/indices/lsh.py::LSHIndex.update", "src/valori/indices/lsh.py::LSHIndex.remove", "src/valori/indices/lsh.py::LSHIndex.delete", "src/valori/indices/lsh.py::LSHIndex._relaxed_search"]}
{"id": "C242", "title": "A call that keeps getting its turn comes to its end", "statement": "In an execution without end in which a thread with one call of insert, search, update or delete gets its turn again and again, its call is over at some time, whatever calls the other threads make and however many: on an LSH index for all four calls, on a built Annoy index for insert, search and delete, on a flat or trained IVF index for insert, update and delete, on an HNSW index for insert and update. A search on a flat, trained IVF or HNSW index, and a deletion on an HNSW index, may go on for ever.", "quantifier": "every index, every call with its arguments, all calls of any number of other threads, all executions without end in which the thread gets its turn infinitely often (refuted parts: one such execution for every index whose searched list has a vector)", "why_tests_cant": "A test stops after finitely many statements: it can neither see that a call ends in every endless execution nor that there is one in which it never does.", "anchors": ["src/valori/indices/lsh.py::LSHIndex.add", "src/valori/indices/lsh.py::LSHIndex.search", "src/valori/indices/lsh.py::LSHIndex.update", "src/valori/indices/lsh.py::LSHIndex.remove", "src/valori/indices/lsh.py::LSHIndex._relaxed_search", "src/valori/indices/flat.py::FlatIndex.search", "src/valori/indices/ivf.py::IVFIndex.search", "src/valori/indices/hnsw.py::HNSWIndex.search", "src/valori/indices/hnsw.py::HNSWIndex.delete", "src/valori/indices/hnsw.py::HNSWIndex._remove_vector_internal", "src/valori/indices/annoy.py::AnnoyIndex.insert", "src/valori/indices/annoy.py::AnnoyIndex.add", "src/valori/indices/annoy.py::AnnoyIndex.search", "src/valori/indices/annoy.py::AnnoyIndex.delete", "src/valori/indices/annoy.py::AnnoyIndex.remove"]}
{"id": "C243", "title": "Threads that keep out of each other's way leave the same index in whatever order", "statement": "When insertions, updates and deletions of several threads name different ids (on an LSH index at most one thread inserts, as it hands out the ids), any two executions in which they have ended leave the same content: for a flat index the same vectors and metadata in storage and cache and the same ids; for LSH the same vectors, metadata and next id, and the same ids in every bucket; for a trained IVF index also the same ids in every cluster; for Annoy, where again one thread inserts, the same vectors, metadata, next id and library object; for HNSW the same vectors and metadata. Each call also returns the same. So the result is that of the calls made one after the other, in any order. For HNSW this does not extend to the graph: which of two insertions comes first decides what later searches find, with the same random numbers.", "quantifier": "every index at rest, all calls of any number of threads that keep apart, all pairs of executions in which the same calls have ended, with any searches beside them", "why_tests_cant": "The number of interleavings is not bounded; a test compares the few the scheduler happens to produce.", "anchors": ["src/valori/indices/lsh.py::LSHIndex.add", "src/valori/indices/lsh.py::LSHIndex.insert", "src/valori/indices/lsh.py::LSHIndex.update", "src/valori/indices/lsh.py::LSHIndex.remove", "src/valori/indices/lsh.py::LSHIndex.delete", "src/valori/indices/ivf.py::IVFIndex.insert", "src/valori/indices/ivf.py::IVFIndex.update", "src/valori/indices/ivf.py::IVFIndex.delete", "src/valori/indices/flat.py::FlatIndex.insert", "src/valori/indices/flat.py::FlatIndex.update", "src/valori/indices/flat.py::FlatIndex.delete", "src/valori/indices/hnsw.py::HNSWIndex.insert", "src/valori/indices/hnsw.py::HNSWIndex.update", "src/valori/indices/hnsw.py::HNSWIndex.delete", "src/valori/indices/annoy.py::AnnoyIndex.insert", "src/valori/indices/annoy.py::AnnoyIndex.add", "src/valori/indices/annoy.py::AnnoyIndex.search", "src/valori/indices/annoy.py::AnnoyIndex.delete", "src/valori/indices/annoy.py::AnnoyIndex.remove"]}
{"id": "C244", "title": "Inserts, updates and deletions of several threads on a flat index all take effect", "statement": "Several threads insert, update, delete and search on one flat index whose stored vectors are all listed and cached; no id is named by two of the calls and insertions use new ids. Ids that no call names stay as they are at every moment. No insertion, update or deletion raises. When an insertion has returned, its rows are stored, cached and listed once; when an update has returned it gave True exactly if the id was stored, and storage and cache have the new vector; when a deletion has returned, its ids are gone for good, also from the cache, and it gave True exactly if they were different and stored. When all are over, storage, cache and list of ids agree, and a search gives the exact k nearest vectors of the storage. (A search may raise while ids are being deleted, C207; if stored vectors are not all cached a search can bring a stale vector into the cache, C208.)", "quantifier": "every number of threads, every call of each thread, every interleaving of single operations on the shared state, every start state in which storage, cache and list agree", "why_tests_cant": "The outcome depends on how single statements of the threads interleave; tests run a few of the interleavings of a few threads.", "anchors": ["src/valori/indices/flat.py::FlatIndex.insert", "src/valori/indices/flat.py::FlatIndex.search", "src/valori/indices/flat.py::FlatIndex.update", "src/valori/indices/flat.py::FlatIndex.delete"]}
{"id": "C245", "title": "Threads that insert, search and delete on one Annoy index do not harm each other", "statement": "If threads call insert, search and delete on one Annoy index at the same time, no call raises. An insertion returns the next ids in order, with its vectors and metadata stored under them; a deletion returns True and the vectors and metadata of its ids are gone; ids that nobody deletes keep theirs; a search returns exactly the neighbours that the library named at some moment, in its order, each with its own metadata, which can be missing only for an id being deleted. When all calls have ended there are as many vectors as metadata as ids given. True if one thread inserts and deletions name ids given before; false if two threads insert (both return the same id, and its vector has the metadata of the other) or if a deletion names an id just being inserted (it raises after taking away the vector).", "quantifier": "all Annoy indices that have their dimension, all calls of any number of threads, all interleavings of their statements, all library answers", "why_tests_cant": "The interleavings of several threads cannot be enumerated, and the harmful ones are a few statements wide.", "anchors": ["src/valori/indices/annoy.py::AnnoyIndex.insert", "src/valori/indices/annoy.py::AnnoyIndex.add", "src/valori/indices/annoy.py::AnnoyIndex.search", "src/valori/indices/annoy.py::AnnoyIndex.delete", "src/valori/indices/annoy.py::AnnoyIndex.remove"]}
{"id": "C246", "title": "An Annoy index that builds on disk removes its temporary file", "statement": "An Annoy index with build_on_disk that is opened, used and closed leaves the files as they were before, whatever the library answers and even if others remove files meanwhile; while in use it has at most one file of its own and touches no other. Between initialize and clear it can be built, with the reply and the search answers of an index built in memory. Without build_on_disk it has no files. False if initialize is called on an index in use (also by a client whose initialize is tried again): the first file stays for ever. False after clear: build then raises a TypeError.", "quantifier": "all histories of initialize, insert, search, update, delete, build, clear, load, close and removals by others, of any length, all files before, all library answers", "why_tests_cant": "A leaked file is seen by nobody who looks only at replies; that none is left after any history, with a library that may raise anywhere, is a statement about all histories.", "anchors": ["src/valori/indices/annoy.py::AnnoyIndex.initialize", "src/valori/indices/annoy.py::AnnoyIndex.build", "src/valori/indices/annoy.py::AnnoyIndex.clear", "src/valori/indices/annoy.py::AnnoyIndex.close"]}
{"id": "C247", "title": "An index may be saved under any name without harm to the saved states", "statement": "With incremental persistence, save_index under a path of the caller's choice does not change what load_state gives, and save_state does not change what load_index gives for that path. True for every name that is not of the form checkpoint_*.pkl. False for those: under checkpoint_old.pkl load_state raises from then on, whatever is saved later and also after restarts; under a checkpoint name with a number above all others load_state gives the index data as the state; under the name of the next checkpoint the next save_state replaces the index.", "quantifier": "all managers, all file names (a path like ./x is not told from x), all states and indices, all later histories with restarts and crashes", "why_tests_cant": "A test saves under a few names; that all but the names of one form are harmless, and that the harm of the others lasts through every later history, are statements about all names and histories.", "anchors": ["src/valori/persistence/incremental.py::IncrementalPersistence.save_index", "src/valori/persistence/incremental.py::IncrementalPersistence.load_index", "src/valori/persistence/incremental.py::IncrementalPersistence.save_state", "src/valori/persistence/incremental.py::IncrementalPersistence.load_state"]}
{"id": "C248", "title": "A cleared LSH index behaves like a new one", "statement": "After clear, an LSH index in use answers every later call (insert, delete, update, search, clear) as a newly created and initialised index with the same configuration does. True for all histories whose inserted vectors have the length the index had before and whose queries are well formed for it. False for other lengths: the length outlives clear, and also close followed by initialize, so that an insertion of vectors of another length raises ValoriIndexError where a new index takes it.", "quantifier": "all states of the index, all configurations with hash_size at most num_projections, all later histories", "why_tests_cant": "A test clears one index and makes a few calls; that no later history tells the cleared index from a new one is a statement about all states and all histories.", "anchors": ["src/valori/indices/lsh.py::LSHIndex.clear", "src/valori/indices/lsh.py::LSHIndex.close", "src/valori/indices/lsh.py::LSHIndex.initialize", "src/valori/indices/lsh.py::LSHIndex.add", "src/valori/indices/lsh.py::LSHIndex.search"]}
{"id": "C249", "title": "An incremental save that raises leaves what was saved before", "statement": "An open incremental persistence manager answers True to a save exactly if the data can be encoded and raises PersistenceError otherwise; loads raise nothing but PersistenceError; load_state gives None exactly without checkpoint files, a state exactly if every checkpoint file has a number and the one with the highest holds that state. A save that raises changes no counter, no log line and no file but its own. That its own file is as before is false: save_vectors with ids that make an array but no JSON (integers of numpy, say) raises PersistenceError and has replaced the vectors all the same.", "quantifier": "all managers and directories, all data, ids and paths", "why_tests_cant": "A test tries a few failures; which failures are possible, what each leaves behind and which directories make load_state fail are statements about all inputs and directories.", "anchors": ["src/valori/persistence/incremental.py::IncrementalPersistence.save_vectors", "src/valori/persistence/incremental.py::IncrementalPersistence.save_index", "src/valori/persistence/incremental.py::IncrementalPersistence.save_state", "src/valori/persistence/incremental.py::IncrementalPersistence.load_state", "src/valori/persistence/incremental.py::IncrementalPersistence._log_operation"]}
{"id": "C250", "title": "SAQ refuses codes with the wrong number of entries", "statement": "A trained SAQ quantiser decodes codes with one entry per segment and raises QuantizationError for codes with any other number of entries. Codes that are too long are refused whenever the data have more dimensions than segments. The rest is false: codes cut off after some entries are decoded, the missing dimensions as the mean of the training data, and with as many segments as dimensions entries beyond the last segment are ignored, also if they name no centroid.", "quantifier": "all trained quantisers, all codes, all numbers of entries", "why_tests_cant": "A test decodes codes that quantize made; what happens for every other shape depends on how numpy splits and assigns arrays and is a statement about all shapes and all trained quantisers.", "anchors": ["src/valori/quantization/saq.py::SAQQuantizer._dequantize_segments", "src/valori/quantization/saq.py::SAQQuantizer.dequantize", "src/valori/quantization/saq.py::SAQQuantizer.compute_distance"]}
{"id": "C251", "title": "Scalar and product quantisers refuse to encode vectors of another width", "statement": "A scalar or product quantiser trained on vectors of one width raises QuantizationError when asked to encode a non-empty array of vectors of another width. The scalar quantiser does so for every width but 1, the product quantiser with parts of two or more entries for every smaller width that does not leave exactly one entry of the last part. The rest is false: a vector of one entry is encoded by the scalar quantiser as if the entry stood in every dimension, the product quantiser ignores entries beyond the trained width, it fills the last part with its only entry, and with parts of one entry it refuses no width: parts that are missing get the code 0.", "quantifier": "all trained quantisers, all widths, all arrays of vectors", "why_tests_cant": "A test encodes vectors of the trained width and perhaps of one other; which widths numpy broadcasting and slicing let through is a statement about all pairs of widths, and that the codes are those of another vector about all contents.", "anchors": ["src/valori/quantization/scalar.py::ScalarQuantizer.quantize", "src/valori/quantization/product.py::ProductQuantizer.quantize"]}
{"id": "C252", "title": "Scalar and product quantisers refuse to decode codes of another width", "statement": "A trained scalar or product quantiser decodes codes of its own width to vectors of the trained width and raises QuantizationError for a non-empty array of codes of any other width. The scalar quantiser trained on more than one dimension does so for every width but 1, the product quantiser for every row that lacks an entry or names no centroid. The rest is false: a code of one entry is decoded as if it stood in every dimension, a scalar quantiser trained on one dimension decodes codes of every width to vectors of that width, and the product quantiser ignores entries beyond the last part, also if they name no centroid.", "quantifier": "all trained quantisers, all widths, all arrays of codes", "why_tests_cant": "A test decodes codes that quantize made; which other arrays numpy broadcasting and indexing let through is a statement about all widths and all trained quantisers.", "anchors": ["src/valori/quantization/scalar.py::ScalarQuantizer.dequantize", "src/valori/quantization/product.py::ProductQuantizer.dequantize"]}
{"id": "C253", "title": "Distances are refused for exactly the codes that cannot be decoded", "statement": "For every code, of any length and with any entries, compute_distance of a trained scalar or product quantiser raises QuantizationError if and only if dequantize does; for the product quantiser the distance is the Euclidean distance of the query, cut or padded, to the decoded vector. It is false for a scalar quantiser trained on one dimension: it decodes codes of every length but refuses the distance unless the length is 1.", "quantifier": "all trained quantisers, all queries of any length, all codes of any length", "why_tests_cant": "compute_distance of the product quantiser does not call dequantize but runs its own loop; that both accept the same codes is a statement about all codes, most of which no call of quantize ever makes.", "anchors": ["src/valori/quantization/product.py::ProductQuantizer.compute_distance", "src/valori/quantization/product.py::ProductQuantizer.dequantize", "src/valori/quantization/scalar.py::ScalarQuantizer.compute_distance", "src/valori/quantization/scalar.py::ScalarQuantizer.dequantize"]}
{"id": "C254", "title": "Every data set that can be analysed can be printed", "statement": "print_analysis prints the report of every array for which analyze_vectors answers: for at least two rows and one column the heading and all sections, with the true numbers of rows, columns, NaNs, infinities, constant and zero vectors, and under the name Sparsity the share of entries that are not zero. It is false for arrays without entries: analyze_vectors answers, and print_analysis prints the heading and raises KeyError. Where the analysis itself raises (a single vector, a one-dimensional array), nothing is printed.", "quantifier": "all arrays of floats with NaN and infinities, all sizes", "why_tests_cant": "A test prints one data set; which shapes are printed in full, in part or not at all is a statement about all shapes, and the printed counts about all contents.", "anchors": ["src/valori/utils/debugging.py::VectorAnalyzer.print_analysis", "src/valori/utils/debugging.py::VectorAnalyzer.analyze_vectors"]}
{"id": "C255", "title": "A printed profile shows every measured operation once", "statement": "After any program run under a new profiler, whether it finished or raised, print_summary does not raise and prints the heading and exactly one block for each name of a measured block that was left, with the number of such blocks and the mean, least and greatest of their durations and memory differences, the mean between the other two.", "quantifier": "all programs with measured blocks nested and repeated in any way, all clocks and memory readings", "why_tests_cant": "A test measures a few blocks and reads the output by eye; that no name is lost, doubled or miscounted holds for all programs, including those that raise inside nested blocks.", "anchors": ["src/valori/utils/debugging.py::PerformanceProfiler.print_summary", "src/valori/utils/debugging.py::PerformanceProfiler.get_summary", "src/valori/utils/debugging.py::PerformanceProfiler.measure"]}
{"id": "C256", "title": "The progress a batch search shows ends at 100 per cent", "statement": "A batch search with show_progress prints one progress line for each batch, never more than 100 per cent, and the last line shows 100 per cent, also if single queries fail. True for a new batch manager and after reset_stats; false on every manager that has processed items before: every search that returns ends with a line above 100 per cent and more items processed than there are.", "quantifier": "all batch sizes from 1 on, all lists of queries, all clients and callbacks, all states of the counters", "why_tests_cant": "A test runs one operation on a new manager; the statement is about all histories of the counters, all sizes that do not divide evenly, and clients that fail.", "anchors": ["src/valori/utils/batch_manager.py::BatchManager._print_progress", "src/valori/utils/batch_manager.py::BatchManager.batch_search", "src/valori/utils/batch_manager.py::BatchManager.reset_stats"]}
{"id": "C257", "title": "The progress a batch insert shows ends at 100 per cent", "statement": "A batch insert with show_progress never shows more than 100 per cent and the last line shows 100 per cent. True for a new manager or after reset_stats with a client that stores every batch and a callback that does not raise: then there is one line for each batch. False if the client refuses a batch: no line shows 100 per cent, as failed items do not count as progress. False on every manager that has processed items before: an insert that stores everything ends above 100 per cent.", "quantifier": "all batch sizes from 1 on, all data, all clients and callbacks, all states of the counters", "why_tests_cant": "A test runs one operation that succeeds on a new manager; the statement is about all sizes, all patterns of failing batches and all histories of the counters.", "anchors": ["src/valori/utils/batch_manager.py::BatchManager._print_progress", "src/valori/utils/batch_manager.py::BatchManager.batch_insert", "src/valori/utils/batch_manager.py::BatchManager.reset_stats"]}
