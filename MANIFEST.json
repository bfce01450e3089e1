{
 "claims": [
  {
   "property": "C01",
   "status": "proved",
   "theorems": [
    "Valori.Props.C01_memory_is_map",
    "Valori.Props.C01_last_write_wins"
   ],
   "note": "Replies to every history equal those of the abstract map; last-write-wins stated separately."
  },
  {
   "property": "C02",
   "status": "proved",
   "theorems": [
    "Valori.Props.C02_memory_listing"
   ],
   "note": "Listing, prefix, count for every reachable state; order of first store since last deletion is the abstract store's order list (C01_memory_is_map covers replies of list)."
  },
  {
   "property": "C03",
   "status": "proved",
   "theorems": [
    "Valori.Props.C03_refuses",
    "Valori.Props.C03_not_open"
   ],
   "note": "All three backends, every state."
  },
  {
   "property": "C04",
   "status": "proved",
   "theorems": [
    "Valori.Props.C04_disk_is_map",
    "Valori.Props.C04_safe_ids_distinct"
   ],
   "note": "Replies equal those of the abstract map over file names; ids of safe characters have distinct file names."
  },
  {
   "property": "C05",
   "status": "proved",
   "theorems": [
    "Valori.Props.C05_disk_durable"
   ],
   "note": "Any later process sees the same replies."
  },
  {
   "property": "C06",
   "status": "partial",
   "theorems": [
    "Valori.Props.C06_disk_isolation_refuted",
    "Valori.Props.C06_disk_isolation_partial",
    "Valori.Props.C06_disk_isolation_iff"
   ],
   "note": "Exactly characterised: isolation holds for a pair of ids iff their sanitised file names differ (`_iff`)."
  },
  {
   "property": "C07",
   "status": "proved",
   "theorems": [
    "Valori.Props.C07_crash_isolation",
    "Valori.Props.C07_store_repairs"
   ],
   "note": "Every crash point of every write; other ids unaffected, a later store repairs the id."
  },
  {
   "property": "C08",
   "status": "partial",
   "theorems": [
    "Valori.Props.C08_delete_atomic",
    "Valori.Props.C08_store_atomic_refuted",
    "Valori.Props.C08_store_outcomes_partial",
    "Valori.Props.C08_replacement_refuted"
   ],
   "note": "Delete atomic. Store/update refuted for every replacement with other metadata: the four crash points and what each leaves; exact list of outcomes proved."
  },
  {
   "property": "C09",
   "status": "proved",
   "theorems": [
    "Valori.Props.C09_hybrid_is_map"
   ],
   "note": "Every memory limit; hypothesis: ids used have pairwise different file names."
  },
  {
   "property": "C10",
   "status": "proved",
   "theorems": [
    "Valori.Props.C10_hybrid_memory_bound"
   ],
   "note": "No aliasing restriction."
  },
  {
   "property": "C11",
   "status": "proved",
   "theorems": [
    "Valori.Props.C11_hybrid_restart"
   ],
   "note": "Restart with any memory limit."
  },
  {
   "property": "C12",
   "status": "partial",
   "theorems": [
    "Valori.Props.C12_hybrid_eq_disk_refuted",
    "Valori.Props.C12_hybrid_eq_disk_partial",
    "Valori.Props.C12_hybrid_eq_disk_iff"
   ],
   "note": "Exactly characterised: hybrid and disk answer alike on all histories over a set of ids iff sanitising is injective on it (`_iff`)."
  },
  {
   "property": "C13",
   "status": "proved",
   "theorems": [
    "Valori.Props.C13_flat_exact",
    "Valori.Props.C13_exact_unique"
   ],
   "note": "Every reachable state, every lawful storage (memory, disk, hybrid), any argsort tie-breaking; what an exact answer fixes is stated separately."
  },
  {
   "property": "C14",
   "status": "proved",
   "theorems": [
    "Valori.Props.C14_flat_history"
   ],
   "note": "Replies, count, storage content of every history."
  },
  {
   "property": "C15",
   "status": "proved",
   "theorems": [
    "Valori.Props.C15_flat_deleted_gone",
    "Valori.Props.C15_hnsw_deleted_gone",
    "Valori.Props.C15_ivf_deleted_gone",
    "Valori.Props.C15_lsh_deleted_gone"
   ],
   "note": "Flat, IVF and HNSW index: every history over every lawful storage."
  },
  {
   "property": "C16",
   "status": "proved",
   "theorems": [
    "Valori.Props.C16_insert_pairs"
   ],
   "note": "Every reachable state; other ids keep their value."
  },
  {
   "property": "C17",
   "status": "partial",
   "theorems": [
    "Valori.Props.C17_failed_disk_refuted",
    "Valori.Props.C17_failed_insert_partial",
    "Valori.Props.C17_failed_insert_refuted"
   ],
   "note": "Refuted on disk storage for every history and every batch with a row that cannot be pickled: the earlier rows stay and are found, the count is stale, and a new process cannot search until the id of the failing row is deleted. The exact partial effect is proved over any backend whatsoever."
  },
  {
   "property": "C18",
   "status": "proved",
   "theorems": [
    "Valori.Props.C18_flat_search_fails_iff"
   ],
   "note": "Exact condition for raising, in every reachable state."
  },
  {
   "property": "C19",
   "status": "proved",
   "theorems": [
    "Valori.Props.C19_flat_restart",
    "Valori.Props.C19_disk_durable",
    "Valori.Props.C19_hybrid_durable"
   ],
   "note": "Any durable storage; disk and hybrid shown durable. Equality up to ties with the last result, because listing order may change."
  },
  {
   "property": "C20",
   "status": "partial",
   "theorems": [
    "Valori.Props.C20_ivf_members_live",
    "Valori.Props.C20_ivf_partition_partial",
    "Valori.Props.C20_ivf_partition_refuted"
   ],
   "note": "Members live and listed once after any history; full partition when no insert/update raised; refuted otherwise (a raising update loses the id)."
  },
  {
   "property": "C21",
   "status": "proved",
   "theorems": [
    "Valori.Props.C21_ivf_sound"
   ],
   "note": "Every history, raising calls included; n_probes >= 0."
  },
  {
   "property": "C22",
   "status": "proved",
   "theorems": [
    "Valori.Props.C22_ivf_untrained_exact",
    "Valori.Props.C22_ivf_probed_exact",
    "Valori.Props.C22_ivf_all_probes_exact"
   ],
   "note": "Untrained, all clusters probed, and exactness among probed clusters."
  },
  {
   "property": "C23",
   "status": "proved",
   "theorems": [
    "Valori.Props.C23_ivf_nearest_cluster",
    "Valori.Props.C23_ivf_self_query"
   ],
   "note": "Placement for insert and update; self-query after any later history not touching the id, also with tied centroids."
  },
  {
   "property": "C24",
   "status": "proved",
   "theorems": [
    "Valori.Props.C24_hnsw_graph"
   ],
   "note": "Every history, random stream, storage."
  },
  {
   "property": "C25",
   "status": "proved",
   "theorems": [
    "Valori.Props.C25_hnsw_sound"
   ],
   "note": "Every history; also: search returns whenever the distances are defined."
  },
  {
   "property": "C26",
   "status": "partial",
   "theorems": [
    "Valori.Props.C26_hnsw_nonempty_partial",
    "Valori.Props.C26_hnsw_nonempty_refuted",
    "Valori.Props.C26_hnsw_deleted_top_refuted",
    "Valori.Props.C26_hnsw_lone_top_refuted",
    "Valori.Props.C26_hnsw_single_refuted",
    "Valori.Props.C26_hnsw_small_iff"
   ],
   "note": "Refuted for every history that leaves at most one live vector on the highest level drawn, whatever the sampling (C26_hnsw_lone_top_refuted, C26_hnsw_single_refuted); for at most m vectors an exact criterion (C26_hnsw_small_iff); proved while only level 0 is drawn."
  },
  {
   "property": "C27",
   "status": "partial",
   "theorems": [
    "Valori.Props.C27_hnsw_distinct_partial",
    "Valori.Props.C27_hnsw_distinct_refuted",
    "Valori.Props.C27_hnsw_small_iff"
   ],
   "note": "Refuted; proved on level 0 only; for at most m vectors without ties an exact criterion (C27_hnsw_small_iff)."
  },
  {
   "property": "C28",
   "status": "proved",
   "theorems": [
    "Valori.Props.C28_lsh_tables"
   ],
   "note": "For hash_size ≤ num_projections and histories without None metadata entries, negative ids or wrong-dimension updates (those are refuted in C33, C34, C84)."
  },
  {
   "property": "C29",
   "status": "proved",
   "theorems": [
    "Valori.Props.C29_lsh_self"
   ],
   "note": "Every projection matrix, similarity and set order; same history assumptions as C28."
  },
  {
   "property": "C30",
   "status": "proved",
   "theorems": [
    "Valori.Props.C30_lsh_sound",
    "Valori.Props.C30_lsh_answers"
   ],
   "note": "Includes the relaxed fallback: with no exact collision, vectors within two bits must be considered."
  },
  {
   "property": "C31",
   "status": "proved",
   "theorems": [
    "Valori.Props.C31_lsh_ids",
    "Valori.Props.C31_lsh_stable"
   ],
   "note": "Two theorems: sequence and stability."
  },
  {
   "property": "C32",
   "status": "proved",
   "theorems": [
    "Valori.Props.C32_lsh_rejected"
   ],
   "note": "Any state of the index, reachable or not."
  },
  {
   "property": "C33",
   "status": "partial",
   "theorems": [
    "Valori.Props.C33_lsh_update_partial",
    "Valori.Props.C33_lsh_update_refuted",
    "Valori.Props.C33_lsh_update_all_refuted"
   ],
   "note": "Holds for vectors of the right length; for every history, an update of a live id with another length is refuted: it returns False and leaves the id unfindable, not updatable and not deletable."
  },
  {
   "property": "C34",
   "status": "partial",
   "theorems": [
    "Valori.Props.C34_lsh_delete_partial",
    "Valori.Props.C34_lsh_delete_refuted"
   ],
   "note": "False for negative ids (refuted); proved for all other never-assigned strings, in any state."
  },
  {
   "property": "C35",
   "status": "proved",
   "theorems": [
    "Valori.Props.C35_lsh_hash",
    "Valori.Props.C35_lsh_oversize"
   ],
   "note": "Both directions, for all sizes."
  },
  {
   "property": "C36",
   "status": "proved",
   "theorems": [
    "Valori.Props.C36_annoy_aligned"
   ],
   "note": "All histories of insert (without None metadata entries), build, search and delete of non-negative ids; the annoy library is an arbitrary state with arbitrary answers."
  },
  {
   "property": "C37",
   "status": "partial",
   "theorems": [
    "Valori.Props.C37_annoy_deleted_partial",
    "Valori.Props.C37_annoy_deleted_refuted",
    "Valori.Props.C37_annoy_same_results_refuted"
   ],
   "note": "Partial: deleted ids carry metadata None. Refuted for every state and every library: a delete changes no id and no score of any later search."
  },
  {
   "property": "C38",
   "status": "partial",
   "theorems": [
    "Valori.Props.C38_annoy_update_partial",
    "Valori.Props.C38_annoy_update_refuted",
    "Valori.Props.C38_annoy_later_refuted",
    "Valori.Props.C38_annoy_next_refuted"
   ],
   "note": "Refuted for every update (updated id reports None, for any library) and for every later insert (the next id reports the metadata of the update); partial: other ids keep their metadata."
  },
  {
   "property": "C39",
   "status": "partial",
   "theorems": [
    "Valori.Props.C39_annoy_clear_partial",
    "Valori.Props.C39_annoy_clear_refuted"
   ],
   "note": "Refuted for every index with a fixed dimension; partial: a never-used index is as new after clear."
  },
  {
   "property": "C40",
   "status": "proved",
   "theorems": [
    "Valori.Props.C40_annoy_scores",
    "Valori.Props.C40_annoy_dot"
   ],
   "note": "Over any ordered field."
  },
  {
   "property": "C41",
   "status": "proved",
   "theorems": [
    "Valori.Props.C41_tensor_roundtrip"
   ],
   "note": "All histories with failures, closes and reopens; the specification is read off calls and replies only."
  },
  {
   "property": "C42",
   "status": "proved",
   "theorems": [
    "Valori.Props.C42_vectors_roundtrip"
   ],
   "note": "Exact characterisation: round trip iff the path ends in .npz; ids must survive np.array(ids).tolist() (a parameter)."
  },
  {
   "property": "C43",
   "status": "partial",
   "theorems": [
    "Valori.Props.C43_failed_save_refuted",
    "Valori.Props.C43_failed_save_partial"
   ],
   "note": "Refuted for every earlier content; partial: other paths, refused writes, and crashes outside the write."
  },
  {
   "property": "C44",
   "status": "proved",
   "theorems": [
    "Valori.Props.C44_incr_latest"
   ],
   "note": "Paths of save_index must not match checkpoint_*.pkl; save_state must not fail (see C87)."
  },
  {
   "property": "C45",
   "status": "partial",
   "theorems": [
    "Valori.Props.C45_incr_crash_partial",
    "Valori.Props.C45_incr_torn_refuted",
    "Valori.Props.C45_incr_lost_refuted",
    "Valori.Props.C45_crash_end"
   ],
   "note": "Refuted for torn checkpoint and for lost acknowledged saves after every history; partial: any number of crashes at the other points."
  },
  {
   "property": "C46",
   "status": "proved",
   "theorems": [
    "Valori.Props.C46_incr_log"
   ],
   "note": "Log lines, their call names, paths and consecutive ids; counters within the interval."
  },
  {
   "property": "C47",
   "status": "partial",
   "theorems": [
    "Valori.Props.C47_incr_path_partial",
    "Valori.Props.C47_incr_path_refuted"
   ],
   "note": "Refuted after every history; partial for a single path."
  },
  {
   "property": "C48",
   "status": "proved",
   "theorems": [
    "Valori.Props.C48_scalar_codes_in_range"
   ],
   "note": "Any ordered field with floor; any earlier state of the quantiser; 1 to 31 bits."
  },
  {
   "property": "C49",
   "status": "proved",
   "theorems": [
    "Valori.Props.C49_scalar_error_bound",
    "Valori.Props.C49_scalar_training_set"
   ],
   "note": "1 to 63 bits (above, the divisor is capped at the int64 maximum and the bound is false; an example shows it)."
  },
  {
   "property": "C50",
   "status": "proved",
   "theorems": [
    "Valori.Props.C50_scalar_requantize",
    "Valori.Props.C50_scalar_monotone"
   ],
   "note": "Idempotence for 1 to 63 bits, monotonicity for any positive number of bits and any inputs."
  },
  {
   "property": "C51",
   "status": "proved",
   "theorems": [
    "Valori.Props.C51_pq_train",
    "Valori.Props.C51_pq_nearest",
    "Valori.Props.C51_pq_nearest_euclid",
    "Valori.Props.C51_pq_idempotent"
   ],
   "note": "All codebooks, arbitrary KMeans; optimal over all decodable vectors; at most 65536 centroids."
  },
  {
   "property": "C52",
   "status": "proved",
   "theorems": [
    "Valori.Props.C52_pq_distance"
   ],
   "note": "All codebooks, query lengths and legal codes, over the reals."
  },
  {
   "property": "C53",
   "status": "proved",
   "theorems": [
    "Valori.Props.C53_segments_tile",
    "Valori.Props.C53_each_dimension_once"
   ],
   "note": "For any cost function without NaN, so also for rounded costs."
  },
  {
   "property": "C54",
   "status": "proved",
   "theorems": [
    "Valori.Props.C54_bits",
    "Valori.Props.C54_budget_too_small"
   ],
   "note": "For any bit shares; a budget below n - 1 makes training fail."
  },
  {
   "property": "C55",
   "status": "proved",
   "theorems": [
    "Valori.Props.C55_train_ready",
    "Valori.Props.C55_adjust",
    "Valori.Props.C55_decode"
   ],
   "note": "For any legal centroid pick and any rounding of r + (v - r); the error itself is exact."
  },
  {
   "property": "C56",
   "status": "proved",
   "theorems": [
    "Valori.Props.C56_rescoring",
    "Valori.Props.C56_more_codes"
   ],
   "note": "Any argsort; top_k and rescore_top_k not negative; the codes are at most as many as the training vectors."
  },
  {
   "property": "C57",
   "status": "proved",
   "theorems": [
    "Valori.Props.C57_terminates",
    "Valori.Props.C57_cuts",
    "Valori.Props.C57_negative_overlap"
   ],
   "note": "Termination for every configuration; correct cutting for chunk_size > 0, overlap >= 0, min_chunk_size >= 0. A negative overlap, which initialize accepts, loses text."
  },
  {
   "property": "C58",
   "status": "partial",
   "theorems": [
    "Valori.Props.C58_tail_partial",
    "Valori.Props.C58_tail_refuted"
   ],
   "note": "Refuted for every overlap >= 1 and every text of two or more characters ending in a non-white character; at most overlap chunks follow (none for overlap 0)."
  },
  {
   "property": "C59",
   "status": "proved",
   "theorems": [
    "Valori.Props.C59_paragraphs"
   ],
   "note": "Paragraphs are the trimmed non-blank parts between blank lines."
  },
  {
   "property": "C60",
   "status": "partial",
   "theorems": [
    "Valori.Props.C60_size_partial",
    "Valori.Props.C60_size_refuted",
    "Valori.Props.C60_cumulative_refuted"
   ],
   "note": "Bound for overlap > 0. For overlap 0 the claim is false: every chunk begins with the chunk before it and the last is at least as long as all paragraphs together (every text)."
  },
  {
   "property": "C61",
   "status": "proved",
   "theorems": [
    "Valori.Props.C61_windows",
    "Valori.Props.C61_covers"
   ],
   "note": "Windows shorter than min_chunk_size are left out, as in the code."
  },
  {
   "property": "C62",
   "status": "proved",
   "theorems": [
    "Valori.Props.C62_process",
    "Valori.Props.C62_config",
    "Valori.Props.C62_refuses",
    "Valori.Props.C62_unknown"
   ],
   "note": "For the three known strategies; unknown ones are refused after counting the characters."
  },
  {
   "property": "C63",
   "status": "proved",
   "theorems": [
    "Valori.Props.C63_terminates",
    "Valori.Props.C63_cuts"
   ],
   "note": "Text, PDF and office chunkers."
  },
  {
   "property": "C64",
   "status": "proved",
   "theorems": [
    "Valori.Props.C64_groups",
    "Valori.Props.C64_join"
   ],
   "note": "Groups for any elements; exact join for the stripped, non-blank elements the parser passes."
  },
  {
   "property": "C65",
   "status": "proved",
   "theorems": [
    "Valori.Props.C65_pages"
   ],
   "note": "For every size and overlap; page extraction is a parameter."
  },
  {
   "property": "C66",
   "status": "proved",
   "theorems": [
    "Valori.Props.C66_whitespace",
    "Valori.Props.C66_words",
    "Valori.Props.C66_spaces"
   ],
   "note": "Words specified by an inductive relation proved total and functional."
  },
  {
   "property": "C67",
   "status": "proved",
   "theorems": [
    "Valori.Props.C67_cache",
    "Valori.Props.C67_value",
    "Valori.Props.C67_key"
   ],
   "note": "Model deterministic and digest injective (MD5 assumed without collisions); arrays on a heap; histories without writes by the caller (C115)."
  },
  {
   "property": "C68",
   "status": "proved",
   "theorems": [
    "Valori.Props.C68_batch",
    "Valori.Props.C68_alone"
   ],
   "note": "Any world state; the corollary assumes answers that do not depend on it."
  },
  {
   "property": "C69",
   "status": "partial",
   "theorems": [
    "Valori.Props.C69_parse_refuted",
    "Valori.Props.C69_parse_partial"
   ],
   "note": "Refuted for every documented configuration; partial for the doubly nested one."
  },
  {
   "property": "C70",
   "status": "proved",
   "theorems": [
    "Valori.Props.C70_choice"
   ],
   "note": "All registries, priorities and files."
  },
  {
   "property": "C71",
   "status": "proved",
   "theorems": [
    "Valori.Props.C71_insert"
   ],
   "note": "Client calls are a sequential relation over an arbitrary client state; every failure pattern."
  },
  {
   "property": "C72",
   "status": "proved",
   "theorems": [
    "Valori.Props.C72_parallel"
   ],
   "note": "Every completion order."
  },
  {
   "property": "C73",
   "status": "proved",
   "theorems": [
    "Valori.Props.C73_search",
    "Valori.Props.C73_plain"
   ],
   "note": "Both the manager and the plain helper."
  },
  {
   "property": "C74",
   "status": "proved",
   "theorems": [
    "Valori.Props.C74_groups"
   ],
   "note": "Any similarity function into a linear order, any threshold: exact groups."
  },
  {
   "property": "C75",
   "status": "proved",
   "theorems": [
    "Valori.Props.C75_vector",
    "Valori.Props.C75_vectors",
    "Valori.Props.C75_k",
    "Valori.Props.C75_id",
    "Valori.Props.C75_ids",
    "Valori.Props.C75_metric",
    "Valori.Props.C75_config",
    "Valori.Props.C75_metadata",
    "Valori.Props.C75_error"
   ],
   "note": "If-and-only-if for all eight validators and the error kind; json.dumps is a parameter; numeric arrays only."
  },
  {
   "property": "C76",
   "status": "proved",
   "theorems": [
    "Valori.Props.C76_cosine",
    "Valori.Props.C76_cosine_facts",
    "Valori.Props.C76_distances",
    "Valori.Props.C76_metrics",
    "Valori.Props.C76_hamming",
    "Valori.Props.C76_jaccard",
    "Valori.Props.C76_refuses"
   ],
   "note": "Against Mathlib angle, dist, hammingDist; exact real arithmetic."
  },
  {
   "property": "C77",
   "status": "proved",
   "theorems": [
    "Valori.Props.C77_normalize",
    "Valori.Props.C77_refuses"
   ],
   "note": "Exact real arithmetic."
  },
  {
   "property": "C78",
   "status": "partial",
   "theorems": [
    "Valori.Props.C78_recommended_refuted"
   ],
   "note": "Refuted for every input."
  },
  {
   "property": "C79",
   "status": "proved",
   "theorems": [
    "Valori.Props.C79_recommend"
   ],
   "note": "Every integer count and dimension, every use case; annoy installed."
  },
  {
   "property": "C80",
   "status": "proved",
   "theorems": [
    "Valori.Props.C80_client_lifecycle",
    "Valori.Props.C80_client_reinit",
    "Valori.Props.C80_disk_reinit",
    "Valori.Props.C80_hybrid_reinit",
    "Valori.Props.C80_memory_reinit"
   ],
   "note": "Any components; open after an initialize that returned and before a close that returned; reinitialisation for the flat index over any lawful storage, durable for disk and hybrid, empty for memory."
  },
  {
   "property": "C81",
   "status": "proved",
   "theorems": [
    "Valori.Props.C81_memory_usage"
   ],
   "note": "Every reachable open state."
  },
  {
   "property": "C82",
   "status": "proved",
   "theorems": [
    "Valori.Props.C82_hnsw_history"
   ],
   "note": "Every history, every random stream."
  },
  {
   "property": "C83",
   "status": "proved",
   "theorems": [
    "Valori.Props.C83_hnsw_level0_exact",
    "Valori.Props.C83_hnsw_small_exact"
   ],
   "note": "The sample contract (at most m nodes are all taken) is a visible hypothesis of the second theorem."
  },
  {
   "property": "C84",
   "status": "partial",
   "theorems": [
    "Valori.Props.C84_lsh_metadata_partial",
    "Valori.Props.C84_lsh_metadata_refuted",
    "Valori.Props.C84_shift_refuted"
   ],
   "note": "Refuted for every history by an insert that raises AttributeError (a None entry): the next insert is reported with metadata shifted by one. The partial theorem assumes there is none."
  },
  {
   "property": "C85",
   "status": "partial",
   "theorems": [
    "Valori.Props.C85_lsh_stats_partial",
    "Valori.Props.C85_lsh_stats_refuted",
    "Valori.Props.C85_lsh_buckets_refuted",
    "Valori.Props.C85_lsh_table_sizes_partial",
    "Valori.Props.C85_lsh_table_sizes_refuted"
   ],
   "note": "Vector count proved; for every history max_bucket_size is the largest live id and avg_bucket_size the mean of the live ids (refuted); hash_table_sizes bounded from below, counts emptied buckets."
  },
  {
   "property": "C86",
   "status": "partial",
   "theorems": [
    "Valori.Props.C86_annoy_save",
    "Valori.Props.C86_annoy_load_partial",
    "Valori.Props.C86_annoy_load_refuted"
   ],
   "note": "Refuted for every saved index; partial: dimension, metric and library survive."
  },
  {
   "property": "C87",
   "status": "partial",
   "theorems": [
    "Valori.Props.C87_incr_failed_refuted",
    "Valori.Props.C87_incr_failed_partial"
   ],
   "note": "Refuted after every history; partial: repaired by the next successful save in the session."
  },
  {
   "property": "C88",
   "status": "partial",
   "theorems": [
    "Valori.Props.C88_scalar_failed_train_refuted",
    "Valori.Props.C88_scalar_failed_train_partial",
    "Valori.Props.C88_pq_failed_train_refuted",
    "Valori.Props.C88_scalar_failed_train_all_refuted",
    "Valori.Props.C88_pq_failed_train_all_refuted",
    "Valori.Props.C88_pq_failed_stats_refuted",
    "Valori.Props.C88_saq_failed_train_all_refuted"
   ],
   "note": "Refuted for every trained quantiser of the three kinds (scalar: width other than 1); decoding with the scalar quantiser is unaffected. SAQ part assumes StandardScaler.fit drops earlier statistics before validating."
  },
  {
   "property": "C89",
   "status": "proved",
   "theorems": [
    "Valori.Props.C89_segments_ignore_data"
   ],
   "note": "Exact arithmetic."
  },
  {
   "property": "C90",
   "status": "partial",
   "theorems": [
    "Valori.Props.C90_segment_count_partial",
    "Valori.Props.C90_segment_count_refuted",
    "Valori.Props.C90_segment_count_iff"
   ],
   "note": "Exactly characterised (`_iff`): the number is right after a second training iff the first data was wide enough."
  },
  {
   "property": "C91",
   "status": "proved",
   "theorems": [
    "Valori.Props.C91_nearest"
   ],
   "note": "Exact arithmetic."
  },
  {
   "property": "C92",
   "status": "partial",
   "theorems": [
    "Valori.Props.C92_positions_partial",
    "Valori.Props.C92_positions_refuted"
   ],
   "note": "Only bounds on the positions hold; the location claim is refuted by a witness."
  },
  {
   "property": "C93",
   "status": "partial",
   "theorems": [
    "Valori.Props.C93_offset",
    "Valori.Props.C93_page_partial",
    "Valori.Props.C93_page_refuted"
   ],
   "note": "Lower bound and first page; the claim is refuted for every inner page."
  },
  {
   "property": "C94",
   "status": "partial",
   "theorems": [
    "Valori.Props.C94_elements_partial",
    "Valori.Props.C94_elements_refuted",
    "Valori.Props.C94_start_refuted",
    "Valori.Props.C94_beyond_refuted"
   ],
   "note": "end_element is right; start_element is chunk number times chunk size for every document, beyond the last element when chunk_size is at least the number of elements."
  },
  {
   "property": "C95",
   "status": "proved",
   "theorems": [
    "Valori.Props.C95_batch"
   ],
   "note": "Exact real arithmetic."
  },
  {
   "property": "C96",
   "status": "partial",
   "theorems": [
    "Valori.Props.C96_self_partial",
    "Valori.Props.C96_self_refuted"
   ],
   "note": "Refuted for every vector at threshold 1; partial: exact value and exact condition for a match."
  },
  {
   "property": "C97",
   "status": "proved",
   "theorems": [
    "Valori.Props.C97_jaccard_metric"
   ],
   "note": "On supports."
  },
  {
   "property": "C98",
   "status": "partial",
   "theorems": [
    "Valori.Props.C98_range_partial",
    "Valori.Props.C98_range_refuted"
   ],
   "note": "Refuted for every range; partial: numbers that are not NaN."
  },
  {
   "property": "C99",
   "status": "proved",
   "theorems": [
    "Valori.Props.C99_names",
    "Valori.Props.C99_index",
    "Valori.Props.C99_category"
   ],
   "note": "Every category and name."
  },
  {
   "property": "C100",
   "status": "partial",
   "theorems": [
    "Valori.Props.C100_defaults_refuted",
    "Valori.Props.C100_given_partial"
   ],
   "note": "Refuted for all arguments without index_type and num_vectors; partial: succeeds with either given, if the components initialise."
  },
  {
   "property": "C101",
   "status": "partial",
   "theorems": [
    "Valori.Props.C101_hnsw_refuted",
    "Valori.Props.C101_fast_refuted",
    "Valori.Props.C101_shipped_partial",
    "Valori.Props.C101_hybrid_refuted"
   ],
   "note": "Refuted for every value of the ignored keys; partial: all other keys of all shipped index configurations."
  },
  {
   "property": "C102",
   "status": "proved",
   "theorems": [
    "Valori.Props.C102_templates"
   ],
   "note": "M excepted (C101)."
  },
  {
   "property": "C103",
   "status": "partial",
   "theorems": [
    "Valori.Props.C103_override_refuted",
    "Valori.Props.C103_override_partial"
   ],
   "note": "Refuted for every other key; partial for the seven arguments."
  },
  {
   "property": "C104",
   "status": "partial",
   "theorems": [
    "Valori.Props.C104_document_refuted",
    "Valori.Props.C104_document_partial"
   ],
   "note": "Refuted for annoy and hnsw, every configuration; partial for the others."
  },
  {
   "property": "C105",
   "status": "partial",
   "theorems": [
    "Valori.Props.C105_ids_partial",
    "Valori.Props.C105_count_refuted"
   ],
   "note": "Ids and client state do not depend on the callback (partial); counters do (refuted)."
  },
  {
   "property": "C106",
   "status": "partial",
   "theorems": [
    "Valori.Props.C106_stats_partial",
    "Valori.Props.C106_stats_refuted"
   ],
   "note": "Partial from reset; refuted for every non-zero start."
  },
  {
   "property": "C107",
   "status": "partial",
   "theorems": [
    "Valori.Props.C107_tags_partial",
    "Valori.Props.C107_tags_refuted"
   ],
   "note": "Refuted for the default options; partial without Unicode normalisation, special-character removal, lower-casing, stop words."
  },
  {
   "property": "C108",
   "status": "proved",
   "theorems": [
    "Valori.Props.C108_stopwords"
   ],
   "note": "All words, all lists."
  },
  {
   "property": "C109",
   "status": "partial",
   "theorems": [
    "Valori.Props.C109_bounds_partial",
    "Valori.Props.C109_bounds_refuted"
   ],
   "note": "Refuted without stop-word removal, for all bounds; partial with it."
  },
  {
   "property": "C110",
   "status": "proved",
   "theorems": [
    "Valori.Props.C110_process"
   ],
   "note": "All documents."
  },
  {
   "property": "C111",
   "status": "partial",
   "theorems": [
    "Valori.Props.C111_dims_partial",
    "Valori.Props.C111_dims_refuted"
   ],
   "note": "Refuted for blank texts and every model length other than 384; partial otherwise."
  },
  {
   "property": "C112",
   "status": "partial",
   "theorems": [
    "Valori.Props.C112_batch_partial",
    "Valori.Props.C112_blank_refuted",
    "Valori.Props.C112_ragged_refuted"
   ],
   "note": "Refuted in two ways; partial for texts that are not blank."
  },
  {
   "property": "C113",
   "status": "partial",
   "theorems": [
    "Valori.Props.C113_stats_refuted",
    "Valori.Props.C113_stats_partial"
   ],
   "note": "Refuted for all states; partial for the embeddings."
  },
  {
   "property": "C114",
   "status": "partial",
   "theorems": [
    "Valori.Props.C114_count_partial",
    "Valori.Props.C114_rate_refuted"
   ],
   "note": "Refuted for all processors with a cache; partial gives the correct count."
  },
  {
   "property": "C115",
   "status": "partial",
   "theorems": [
    "Valori.Props.C115_alias_refuted",
    "Valori.Props.C115_alias_partial"
   ],
   "note": "Refuted with caching; partial without."
  },
  {
   "property": "C116",
   "status": "partial",
   "theorems": [
    "Valori.Props.C116_chunks_partial",
    "Valori.Props.C116_chunks_refuted"
   ],
   "note": "Refuted for a chunk without text; partial when all have one."
  },
  {
   "property": "C117",
   "status": "partial",
   "theorems": [
    "Valori.Props.C117_init_partial",
    "Valori.Props.C117_close",
    "Valori.Props.C117_again_refuted",
    "Valori.Props.C117_retry_refuted"
   ],
   "note": "Refuted for a second initialize and for a retry; partial from a pipeline without processors."
  },
  {
   "property": "C118",
   "status": "partial",
   "theorems": [
    "Valori.Props.C118_files_refuted"
   ],
   "note": "Refuted for all inputs."
  },
  {
   "property": "C119",
   "status": "proved",
   "theorems": [
    "Valori.Props.C119_registry"
   ],
   "note": "All histories."
  },
  {
   "property": "C120",
   "status": "proved",
   "theorems": [
    "Valori.Props.C120_formats"
   ],
   "note": "Assumes that parsers accept by suffix, as the built-in ones do."
  },
  {
   "property": "C121",
   "status": "partial",
   "theorems": [
    "Valori.Props.C121_round_partial",
    "Valori.Props.C121_npz_refuted",
    "Valori.Props.C121_npz_appended",
    "Valori.Props.C121_suffix_refuted",
    "Valori.Props.C121_refuses",
    "Valori.Props.C121_empty_refuted"
   ],
   "note": "Partial for matching suffixes; refuted for every other one."
  },
  {
   "property": "C122",
   "status": "proved",
   "theorems": [
    "Valori.Props.C122_measure_transparent"
   ],
   "note": "all programs, nestings and exceptions"
  },
  {
   "property": "C123",
   "status": "proved",
   "theorems": [
    "Valori.Props.C123_every_block_recorded",
    "Valori.Props.C123_own_record",
    "Valori.Props.C123_durations_nonneg"
   ],
   "note": "count, order and content of the records"
  },
  {
   "property": "C124",
   "status": "proved",
   "theorems": [
    "Valori.Props.C124_summary_exact"
   ],
   "note": "never raises, exact figures"
  },
  {
   "property": "C125",
   "status": "partial",
   "theorems": [
    "Valori.Props.C125_decorators_transparent",
    "Valori.Props.C125_memory_decorator_partial",
    "Valori.Props.C125_memory_decorator_refuted"
   ],
   "note": "false for memory_usage_decorator when the function raises ImportError"
  },
  {
   "property": "C126",
   "status": "proved",
   "theorems": [
    "Valori.Props.C126_quality_range",
    "Valori.Props.C126_quality_best",
    "Valori.Props.C126_quality_worst_cases"
   ],
   "note": "range, the exact condition for 1, and the lower bound"
  },
  {
   "property": "C127",
   "status": "partial",
   "theorems": [
    "Valori.Props.C127_pairs_refuted"
   ],
   "note": "false: counts are doubled"
  },
  {
   "property": "C128",
   "status": "partial",
   "theorems": [
    "Valori.Props.C128_analysis_total_partial",
    "Valori.Props.C128_analysis_total_refuted"
   ],
   "note": "false for a single vector"
  },
  {
   "property": "C129",
   "status": "partial",
   "theorems": [
    "Valori.Props.C129_sparsity_refuted"
   ],
   "note": "false: it is the density"
  },
  {
   "property": "C130",
   "status": "proved",
   "theorems": [
    "Valori.Props.C130_query_entry",
    "Valori.Props.C130_query_patterns"
   ],
   "note": "entries and patterns"
  },
  {
   "property": "C131",
   "status": "partial",
   "theorems": [
    "Valori.Props.C131_inspect_tables",
    "Valori.Props.C131_inspect_new",
    "Valori.Props.C131_inspect_vectors_partial",
    "Valori.Props.C131_inspect_deleted_refuted",
    "Valori.Props.C131_inspect_hnsw_refuted"
   ],
   "note": "false for HNSW and after deletions; table counts proved"
  },
  {
   "property": "C132",
   "status": "proved",
   "theorems": [
    "Valori.Props.C132_scalar_nearest"
   ],
   "note": "exact arithmetic"
  },
  {
   "property": "C133",
   "status": "proved",
   "theorems": [
    "Valori.Props.C133_scalar_only_quantization_errors",
    "Valori.Props.C133_scalar_distance_errors",
    "Valori.Props.C133_scalar_needs_training",
    "Valori.Props.C133_scalar_distance_needs_training",
    "Valori.Props.C133_scalar_train_refuses"
   ],
   "note": "every branch of every method"
  },
  {
   "property": "C134",
   "status": "proved",
   "theorems": [
    "Valori.Props.C134_scalar_distance",
    "Valori.Props.C134_scalar_distance_range"
   ],
   "note": "real arithmetic"
  },
  {
   "property": "C135",
   "status": "proved",
   "theorems": [
    "Valori.Props.C135_pq_codebook"
   ],
   "note": "KMeans a parameter that keeps shapes"
  },
  {
   "property": "C136",
   "status": "proved",
   "theorems": [
    "Valori.Props.C136_pq_only_quantization_errors",
    "Valori.Props.C136_pq_distance_errors",
    "Valori.Props.C136_pq_needs_training",
    "Valori.Props.C136_pq_train_refuses"
   ],
   "note": "every branch of every method"
  },
  {
   "property": "C137",
   "status": "proved",
   "theorems": [
    "Valori.Props.C137_saq_new",
    "Valori.Props.C137_saq_only_quantization_errors",
    "Valori.Props.C137_saq_needs_training"
   ],
   "note": "every branch of every method"
  },
  {
   "property": "C138",
   "status": "proved",
   "theorems": [
    "Valori.Props.C138_saq_distance"
   ],
   "note": "real arithmetic; inverse transform a parameter"
  },
  {
   "property": "C139",
   "status": "partial",
   "theorems": [
    "Valori.Props.C139_saq_search_partial",
    "Valori.Props.C139_saq_search_refuted"
   ],
   "note": "false for codes of other vectors than the training data; exact for codes of the training data"
  },
  {
   "property": "C140",
   "status": "proved",
   "theorems": [
    "Valori.Props.C140_lsh_new",
    "Valori.Props.C140_lsh_uninitialised",
    "Valori.Props.C140_lsh_insert_errors",
    "Valori.Props.C140_lsh_replies"
   ],
   "note": ""
  },
  {
   "property": "C141",
   "status": "proved",
   "theorems": [
    "Valori.Props.C141_annoy_new",
    "Valori.Props.C141_annoy_uninitialised",
    "Valori.Props.C141_annoy_insert_errors",
    "Valori.Props.C141_annoy_search_errors",
    "Valori.Props.C141_annoy_empty",
    "Valori.Props.C141_annoy_delete"
   ],
   "note": "the library object is a parameter"
  },
  {
   "property": "C142",
   "status": "proved",
   "theorems": [
    "Valori.Props.C142_memory_errors",
    "Valori.Props.C142_disk_errors",
    "Valori.Props.C142_hybrid_errors",
    "Valori.Props.C142_stats"
   ],
   "note": ""
  },
  {
   "property": "C143",
   "status": "proved",
   "theorems": [
    "Valori.Props.C143_flat_errors",
    "Valori.Props.C143_flat_refuses",
    "Valori.Props.C143_ivf_errors",
    "Valori.Props.C143_ivf_refuses",
    "Valori.Props.C143_ivf_init",
    "Valori.Props.C143_hnsw_errors",
    "Valori.Props.C143_hnsw_refuses"
   ],
   "note": "backend arbitrary"
  },
  {
   "property": "C144",
   "status": "partial",
   "theorems": [
    "Valori.Props.C144_saq_shares",
    "Valori.Props.C144_saq_monotone_partial",
    "Valori.Props.C144_saq_monotone_refuted"
   ],
   "note": "exact arithmetic; false for the last segment"
  },
  {
   "property": "C145",
   "status": "partial",
   "theorems": [
    "Valori.Props.C145_hnsw_links_partial",
    "Valori.Props.C145_hnsw_degree_refuted"
   ],
   "note": "random choices arbitrary; false for single nodes"
  },
  {
   "property": "C146",
   "status": "partial",
   "theorems": [
    "Valori.Props.C146_memory_isolated_partial",
    "Valori.Props.C146_memory_returned_refuted",
    "Valori.Props.C146_memory_nested_refuted"
   ],
   "note": "`_memory_usage` not part of the heap model; false for returned metadata and nested lists"
  },
  {
   "property": "C147",
   "status": "proved",
   "theorems": [
    "Valori.Props.C147_client_start",
    "Valori.Props.C147_client_stop"
   ],
   "note": "components that log and may raise anything"
  },
  {
   "property": "C148",
   "status": "partial",
   "theorems": [
    "Valori.Props.C148_frame",
    "Valori.Props.C148_text",
    "Valori.Props.C148_text_total",
    "Valori.Props.C148_language_partial",
    "Valori.Props.C148_language_refuted"
   ],
   "note": "libraries and file system are parameters; language part false"
  },
  {
   "property": "C149",
   "status": "partial",
   "theorems": [
    "Valori.Props.C149_office_choice",
    "Valori.Props.C149_docx",
    "Valori.Props.C149_docx_tables_refuted"
   ],
   "note": "python-docx is a parameter"
  },
  {
   "property": "C150",
   "status": "partial",
   "theorems": [
    "Valori.Props.C150_excel_values",
    "Valori.Props.C150_excel_partial",
    "Valori.Props.C150_excel_columns_refuted",
    "Valori.Props.C150_pptx"
   ],
   "note": "openpyxl and python-pptx are parameters; columns lost"
  },
  {
   "property": "C151",
   "status": "proved",
   "theorems": [
    "Valori.Props.C151_text",
    "Valori.Props.C151_pdf_office",
    "Valori.Props.C151_fixed"
   ],
   "note": "stated for every chunk, with the separators found by an independent definition of occurrence"
  },
  {
   "property": "C152",
   "status": "partial",
   "theorems": [
    "Valori.Props.C152_norms_partial",
    "Valori.Props.C152_norms_refuted",
    "Valori.Props.C152_minmax",
    "Valori.Props.C152_refuses",
    "Valori.Props.C152_empty"
   ],
   "note": "exact real arithmetic; norm one false, exact norm given"
  },
  {
   "property": "C153",
   "status": "proved",
   "theorems": [
    "Valori.Props.C153_matrix",
    "Valori.Props.C153_facts",
    "Valori.Props.C153_refuses",
    "Valori.Props.C153_duplicates"
   ],
   "note": "exact real arithmetic"
  },
  {
   "property": "C154",
   "status": "proved",
   "theorems": [
    "Valori.Props.C154_defaults",
    "Valori.Props.C154_empty"
   ],
   "note": "unescape and NFKD are parameters"
  },
  {
   "property": "C155",
   "status": "proved",
   "theorems": [
    "Valori.Props.C155_incr_files",
    "Valori.Props.C155_incr_closed"
   ],
   "note": "paths that look like checkpoint files excluded"
  },
  {
   "property": "C156",
   "status": "partial",
   "theorems": [
    "Valori.Props.C156_ids_refuted",
    "Valori.Props.C156_ids_partial",
    "Valori.Props.C156_torn_restart"
   ],
   "note": "false in general, holds for interval 1"
  },
  {
   "property": "C157",
   "status": "partial",
   "theorems": [
    "Valori.Props.C157_get_again",
    "Valori.Props.C157_level_refuted",
    "Valori.Props.C157_setup",
    "Valori.Props.C157_handlers",
    "Valori.Props.C157_debug_setup_refuted",
    "Valori.Props.C157_debug_setup"
   ],
   "note": "level lookup (getattr on logging) is a parameter"
  },
  {
   "property": "C158",
   "status": "partial",
   "theorems": [
    "Valori.Props.C158_unset",
    "Valori.Props.C158_once_partial",
    "Valori.Props.C158_twice_refuted",
    "Valori.Props.C158_debug_refuted"
   ],
   "note": "false in general; holds without setup_logging"
  },
  {
   "property": "C159",
   "status": "proved",
   "theorems": [
    "Valori.Props.C159_answer",
    "Valori.Props.C159_same",
    "Valori.Props.C159_refuses"
   ],
   "note": "digest of the cache is assumed injective"
  },
  {
   "property": "C160",
   "status": "partial",
   "theorems": [
    "Valori.Props.C160_chunks_refuted",
    "Valori.Props.C160_cover_partial"
   ],
   "note": "false of the shipped configuration; holds for fixed_size with overlap at least min_chunk_size"
  },
  {
   "property": "C161",
   "status": "partial",
   "theorems": [
    "Valori.Props.C161_scalar_partial",
    "Valori.Props.C161_scalar_refuted",
    "Valori.Props.C161_scalar_edges",
    "Valori.Props.C161_product_partial",
    "Valori.Props.C161_product_refuted",
    "Valori.Props.C161_saq_partial",
    "Valori.Props.C161_saq_fails",
    "Valori.Props.C161_saq_refuted"
   ],
   "note": "false; true of packed codes, and only for subvectors of one coordinate in the product quantiser"
  },
  {
   "property": "C162",
   "status": "partial",
   "theorems": [
    "Valori.Props.C162_as_new",
    "Valori.Props.C162_closed",
    "Valori.Props.C162_saq_as_new_refuted",
    "Valori.Props.C162_saq_as_new_partial",
    "Valori.Props.C162_reinit_refuted",
    "Valori.Props.C162_saq_search"
   ],
   "note": "fails for SAQ after training on vectors shorter than the number of segments"
  },
  {
   "property": "C163",
   "status": "partial",
   "theorems": [
    "Valori.Props.C163_memory_threads_partial",
    "Valori.Props.C163_alone",
    "Valori.Props.C163_no_deadlock",
    "Valori.Props.C163_memory_threads_refuted"
   ],
   "note": "proved for calls other than close and initialize, refuted with close"
  },
  {
   "property": "C164",
   "status": "partial",
   "theorems": [
    "Valori.Props.C164_flat_parallel",
    "Valori.Props.C164_flat_stats_partial",
    "Valori.Props.C164_flat_count_refuted"
   ],
   "note": "contents proved; exactness of the count refuted"
  },
  {
   "property": "C165",
   "status": "partial",
   "theorems": [
    "Valori.Props.C165_lsh_contents_refuted",
    "Valori.Props.C165_lsh_projections_refuted",
    "Valori.Props.C165_lsh_raises_refuted",
    "Valori.Props.C165_lsh_ids_partial",
    "Valori.Props.C165_lsh_serial_partial"
   ],
   "note": "false; ids are distinct and calls one after another are safe"
  },
  {
   "property": "C166",
   "status": "partial",
   "theorems": [
    "Valori.Props.C166_one_thread_partial",
    "Valori.Props.C166_kept",
    "Valori.Props.C166_stop_partial",
    "Valori.Props.C166_stopped_partial",
    "Valori.Props.C166_restart_refuted",
    "Valori.Props.C166_two_callers_refuted"
   ],
   "note": "holds for one caller as far as samples do not fail"
  },
  {
   "property": "C167",
   "status": "partial",
   "theorems": [
    "Valori.Props.C167_summary",
    "Valori.Props.C167_last_run_refuted"
   ],
   "note": "proved of the samples held; they are not those of the last run only"
  },
  {
   "property": "C168",
   "status": "partial",
   "theorems": [
    "Valori.Props.C168_tracker",
    "Valori.Props.C168_finish",
    "Valori.Props.C168_finish_refuted",
    "Valori.Props.C168_overshoot_refuted"
   ],
   "note": "proved under the stated conditions, refuted outside them"
  },
  {
   "property": "C169",
   "status": "partial",
   "theorems": [
    "Valori.Props.C169_rate_partial",
    "Valori.Props.C169_two_refuted",
    "Valori.Props.C169_during_refuted"
   ],
   "note": "holds for one operation after reset only"
  },
  {
   "property": "C170",
   "status": "partial",
   "theorems": [
    "Valori.Props.C170_annoy_client_refuted",
    "Valori.Props.C170_annoy_built_partial"
   ],
   "note": "false for every history of client calls"
  },
  {
   "property": "C171",
   "status": "partial",
   "theorems": [
    "Valori.Props.C171_hybrid_partial",
    "Valori.Props.C171_doc_id_refuted",
    "Valori.Props.C171_no_text"
   ],
   "note": "doc_id of the caller is lost"
  },
  {
   "property": "C172",
   "status": "partial",
   "theorems": [
    "Valori.Props.C172_semantic",
    "Valori.Props.C172_empty_refuted",
    "Valori.Props.C172_flat"
   ],
   "note": "proved; refuted for an empty corpus"
  },
  {
   "property": "C173",
   "status": "proved",
   "theorems": [
    "Valori.Props.C173_images"
   ],
   "note": "proved"
  },
  {
   "property": "C174",
   "status": "partial",
   "theorems": [
    "Valori.Props.C174_cut_log_refuted",
    "Valori.Props.C174_cut_log_partial"
   ],
   "note": "refuted; all lines but the first are there"
  },
  {
   "property": "C175",
   "status": "proved",
   "theorems": [
    "Valori.Props.C175_tensor_replies",
    "Valori.Props.C175_tensor_ids",
    "Valori.Props.C175_index_failed"
   ],
   "note": "proved"
  },
  {
   "property": "C176",
   "status": "proved",
   "theorems": [
    "Valori.Props.C176_tensor_stats"
   ],
   "note": "proved"
  },
  {
   "property": "C177",
   "status": "partial",
   "theorems": [
    "Valori.Props.C177_incr_counts_refuted",
    "Valori.Props.C177_incr_stats_partial"
   ],
   "note": "first session only; refuted after a restart"
  },
  {
   "property": "C178",
   "status": "partial",
   "theorems": [
    "Valori.Props.C178_restart",
    "Valori.Props.C178_added_refuted"
   ],
   "note": "restart described exactly; refuted for added parsers without entry"
  },
  {
   "property": "C179",
   "status": "proved",
   "theorems": [
    "Valori.Props.C179_errors"
   ],
   "note": "proved"
  },
  {
   "property": "C180",
   "status": "proved",
   "theorems": [
    "Valori.Props.C180_text"
   ],
   "note": "proved"
  },
  {
   "property": "C181",
   "status": "proved",
   "theorems": [
    "Valori.Props.C181_parser_info"
   ],
   "note": "proved; \"stats\" entries not modelled"
  },
  {
   "property": "C182",
   "status": "proved",
   "theorems": [
    "Valori.Props.C182_pipeline_info",
    "Valori.Props.C182_formats"
   ],
   "note": "proved"
  },
  {
   "property": "C183",
   "status": "partial",
   "theorems": [
    "Valori.Props.C183_flat_refuted",
    "Valori.Props.C183_ivf_refuted",
    "Valori.Props.C183_hnsw_refuted",
    "Valori.Props.C183_retry_partial"
   ],
   "note": "refuted for all three; retry behaves as on a new index"
  },
  {
   "property": "C184",
   "status": "partial",
   "theorems": [
    "Valori.Props.C184_refused",
    "Valori.Props.C184_last_word",
    "Valori.Props.C184_count_refuted",
    "Valori.Props.C184_count_partial",
    "Valori.Props.C184_no_refusal"
   ],
   "note": "reads proved; count refuted after a refused store, restored by the next write"
  },
  {
   "property": "C185",
   "status": "partial",
   "theorems": [
    "Valori.Props.C185_last_word",
    "Valori.Props.C185_no_refusal",
    "Valori.Props.C185_repeatable_refuted"
   ],
   "note": "known ids proved; repeatable reads of an unknown id refuted"
  },
  {
   "property": "C186",
   "status": "partial",
   "theorems": [
    "Valori.Props.C186_text",
    "Valori.Props.C186_metadata",
    "Valori.Props.C186_pages_partial",
    "Valori.Props.C186_pages_refuted",
    "Valori.Props.C186_total"
   ],
   "note": "text and entries proved; the number of pages with text is refuted for pages whose images cannot be counted"
  },
  {
   "property": "C187",
   "status": "partial",
   "theorems": [
    "Valori.Props.C187_docling",
    "Valori.Props.C187_tables_refuted",
    "Valori.Props.C187_total"
   ],
   "note": "proved except for the tables in the chunks"
  },
  {
   "property": "C188",
   "status": "partial",
   "theorems": [
    "Valori.Props.C188_chunking",
    "Valori.Props.C188_average_refuted",
    "Valori.Props.C188_no_chunk_refuted",
    "Valori.Props.C188_cleaning",
    "Valori.Props.C188_removed_refuted",
    "Valori.Props.C188_removed_partial"
   ],
   "note": "counters proved; the average and the sign of characters_removed refuted, the latter kept for library functions that do not lengthen"
  },
  {
   "property": "C189",
   "status": "partial",
   "theorems": [
    "Valori.Props.C189_parsers",
    "Valori.Props.C189_parsing_refuted",
    "Valori.Props.C189_cleaning",
    "Valori.Props.C189_cleaning_refuted"
   ],
   "note": "success and missing libraries proved; other failures refuted"
  },
  {
   "property": "C190",
   "status": "partial",
   "theorems": [
    "Valori.Props.C190_outcome",
    "Valori.Props.C190_openai_missing",
    "Valori.Props.C190_ready",
    "Valori.Props.C190_auto_refuted",
    "Valori.Props.C190_unchanged_refuted"
   ],
   "note": "outcome and state after success proved; \"auto\" and failed starts refuted"
  },
  {
   "property": "C191",
   "status": "partial",
   "theorems": [
    "Valori.Props.C191_report",
    "Valori.Props.C191_no_add_refuted",
    "Valori.Props.C191_no_queries_refuted",
    "Valori.Props.C191_left_behind"
   ],
   "note": "the report characterised; refuted for indices without add and for no queries"
  },
  {
   "property": "C192",
   "status": "partial",
   "theorems": [
    "Valori.Props.C192_exact",
    "Valori.Props.C192_top_refuted",
    "Valori.Props.C192_decode_refuted",
    "Valori.Props.C192_decode_partial"
   ],
   "note": "exact up to 24 bits; refuted beyond, with a relative bound kept"
  },
  {
   "property": "C193",
   "status": "partial",
   "theorems": [
    "Valori.Props.C193_no_effect",
    "Valori.Props.C193_nothing_reaches_them",
    "Valori.Props.C193_never_saved",
    "Valori.Props.C193_never_trained",
    "Valori.Props.C193_persistence_refuted"
   ],
   "note": "no effect, never trained, never saved: proved for all components; that they compress or keep anything is refuted"
  },
  {
   "property": "C194",
   "status": "proved",
   "theorems": [
    "Valori.Props.C194_exact_database",
    "Valori.Props.C194_exact_database_full",
    "Valori.Props.C194_memory",
    "Valori.Props.C194_disk",
    "Valori.Props.C194_hybrid"
   ],
   "note": "ids generated by insert are fresh and, on disk, are their own file name; metadata can be pickled (as in C14)"
  },
  {
   "property": "C195",
   "status": "partial",
   "theorems": [
    "Valori.Props.C195_ivf_database_partial",
    "Valori.Props.C195_hnsw_database_partial",
    "Valori.Props.C195_ivf_database_refuted",
    "Valori.Props.C195_hnsw_count_refuted",
    "Valori.Props.C195_ivf_persistent",
    "Valori.Props.C195_hnsw_persistent"
   ],
   "note": "Proved for every history on disk and hybrid storage; on memory storage if initialize is called on a closed client only, refuted otherwise."
  },
  {
   "property": "C196",
   "status": "partial",
   "theorems": [
    "Valori.Props.C196_lsh_client_partial",
    "Valori.Props.C196_storage_unused",
    "Valori.Props.C196_durable_refuted",
    "Valori.Props.C196_reopen_refuted"
   ],
   "note": "partial: within one session (initialize only on a closed client) proved; durability and harmless re-initialisation refuted"
  },
  {
   "property": "C197",
   "status": "partial",
   "theorems": [
    "Valori.Props.C197_confined_partial",
    "Valori.Props.C197_plain_names",
    "Valori.Props.C197_confined_refuted",
    "Valori.Props.C197_disk_confined",
    "Valori.Props.C197_own_files_refuted",
    "Valori.Props.C197_own_files_partial",
    "Valori.Props.C197_closed"
   ],
   "note": "partial: proved for disk storage, for paths without climbing, and for paths other than checkpoint.json; refuted for absolute paths, .. and the own files of incremental persistence"
  },
  {
   "property": "C198",
   "status": "proved",
   "theorems": [
    "Valori.Props.C198_threads_apart",
    "Valori.Props.C198_no_waiting"
   ],
   "note": "proved for store, retrieve, delete, update; list_vectors and get_stats see the files of all threads and are left out"
  },
  {
   "property": "C199",
   "status": "partial",
   "theorems": [
    "Valori.Props.C199_orderly_refuted",
    "Valori.Props.C199_delete_refuted",
    "Valori.Props.C199_read_refuted",
    "Valori.Props.C199_count_refuted",
    "Valori.Props.C199_orderly_partial"
   ],
   "note": "partial: false for threads using the same id and for the count; proved for different file names"
  },
  {
   "property": "C200",
   "status": "partial",
   "theorems": [
    "Valori.Props.C200_exact_partial",
    "Valori.Props.C200_index_partial",
    "Valori.Props.C200_room_partial",
    "Valori.Props.C200_manhattan_refuted",
    "Valori.Props.C200_order_refuted",
    "Valori.Props.C200_zero_refuted",
    "Valori.Props.C200_types_refuted"
   ],
   "note": "partial: proved when no intermediate result overflows; refuted otherwise, in every integer type of at least 4 bits"
  },
  {
   "property": "C201",
   "status": "proved",
   "theorems": [
    "Valori.Props.C201_describes",
    "Valori.Props.C201_consistent",
    "Valori.Props.C201_similarity"
   ],
   "note": "proved"
  },
  {
   "property": "C202",
   "status": "partial",
   "theorems": [
    "Valori.Props.C202_hybrid_threads_partial",
    "Valori.Props.C202_no_deadlock",
    "Valori.Props.C202_hybrid_threads_refuted"
   ],
   "note": "proved for store, retrieve, delete, update, list and close; refuted with get_stats or initialize"
  },
  {
   "property": "C203",
   "status": "partial",
   "theorems": [
    "Valori.Props.C203_flat",
    "Valori.Props.C203_hnsw",
    "Valori.Props.C203_lsh",
    "Valori.Props.C203_annoy",
    "Valori.Props.C203_ivf_partial",
    "Valori.Props.C203_ivf_refuted",
    "Valori.Props.C203_surplus_refuted"
   ],
   "note": "proved for flat, HNSW, LSH and Annoy, and for IVF when the insert does not train; refuted for the insert that trains an IVF index; more metadata than vectors may pass in batches though one insert refuses it"
  },
  {
   "property": "C204",
   "status": "partial",
   "theorems": [
    "Valori.Props.C204_ivf_kept_partial",
    "Valori.Props.C204_ivf_trained_partial",
    "Valori.Props.C204_ivf_small_partial",
    "Valori.Props.C204_ivf_lost_refuted",
    "Valori.Props.C204_ivf_twice_refuted",
    "Valori.Props.C204_ivf_raises_refuted",
    "Valori.Props.C204_ivf_newlist_refuted"
   ],
   "note": "storage and ids: every schedule; clusters: proved for an index trained before with a list for every cluster concerned, and for one that stays too small; refuted when threads train (vectors in no cluster, vectors twice, an error) and for a trained index whose cluster has no list yet"
  },
  {
   "property": "C205",
   "status": "partial",
   "theorems": [
    "Valori.Props.C205_flat_search_moments_partial",
    "Valori.Props.C205_flat_search_partial",
    "Valori.Props.C205_flat_search_refuted"
   ],
   "note": "proved for k up to the number of vectors at the start; for larger k the number of results is fixed at an earlier moment than the vectors, refuted"
  },
  {
   "property": "C206",
   "status": "proved",
   "theorems": [
    "Valori.Props.C206_searches_harmless",
    "Valori.Props.C206_hnsw_searches_harmless",
    "Valori.Props.C206_ivf_searches_harmless"
   ],
   "note": "for every call of the other threads on a flat index, and for insertions into an IVF or HNSW index"
  },
  {
   "property": "C207",
   "status": "partial",
   "theorems": [
    "Valori.Props.C207_hits_sound_partial",
    "Valori.Props.C207_skipped_refuted",
    "Valori.Props.C207_raises_refuted",
    "Valori.Props.C207_mixed_refuted"
   ],
   "note": "every hit is justified piece by piece; refuted as a whole: a stored vector skipped, an error, an old distance with new metadata"
  },
  {
   "property": "C208",
   "status": "partial",
   "theorems": [
    "Valori.Props.C208_cache_partial",
    "Valori.Props.C208_two_updates_refuted",
    "Valori.Props.C208_search_refuted",
    "Valori.Props.C208_deletion_refuted"
   ],
   "note": "without deletions, two updates of one id, and updates of vectors not in the cache; refuted for each of the three"
  },
  {
   "property": "C209",
   "status": "partial",
   "theorems": [
    "Valori.Props.C209_index",
    "Valori.Props.C209_errors",
    "Valori.Props.C209_parameters",
    "Valori.Props.C209_unchecked_refuted",
    "Valori.Props.C209_storage"
   ],
   "note": "the unchecked parameters of flat, HNSW and IVF are the refuted part"
  },
  {
   "property": "C210",
   "status": "partial",
   "theorems": [
    "Valori.Props.C210_hnsw_parallel_partial",
    "Valori.Props.C210_hnsw_entry",
    "Valori.Props.C210_hnsw_search",
    "Valori.Props.C210_hnsw_count_refuted",
    "Valori.Props.C210_hnsw_top_refuted",
    "Valori.Props.C210_hnsw_doubled_refuted"
   ],
   "note": "refuted for the count, max_level and doubled links; the rest is proved"
  },
  {
   "property": "C211",
   "status": "partial",
   "theorems": [
    "Valori.Props.C211_hnsw_beside_sound",
    "Valori.Props.C211_hnsw_beside_raises_partial",
    "Valori.Props.C211_hnsw_beside_refuted"
   ],
   "note": "soundness is proved; a search can raise in one place, refuted"
  },
  {
   "property": "C212",
   "status": "partial",
   "theorems": [
    "Valori.Props.C212_ivf_sound_partial",
    "Valori.Props.C212_ivf_numbers",
    "Valori.Props.C212_ivf_unsorted",
    "Valori.Props.C212_ivf_order_refuted",
    "Valori.Props.C212_ivf_query_refuted",
    "Valori.Props.C212_ivf_training_refuted",
    "Valori.Props.C212_hnsw_sound_partial",
    "Valori.Props.C212_hnsw_numbers",
    "Valori.Props.C212_hnsw_order_refuted",
    "Valori.Props.C212_flat_refuted",
    "Valori.Props.C212_lsh_refuses",
    "Valori.Props.C212_lsh_update",
    "Valori.Props.C212_annoy_refuses",
    "Valori.Props.C212_annoy_update_refuted"
   ],
   "note": "LSH and Annoy inserts refuse; order and training of IVF, order of HNSW, every search of flat and the update of Annoy are refuted; soundness without order is proved"
  },
  {
   "property": "C213",
   "status": "proved",
   "theorems": [
    "Valori.Props.C213_annoy_insert",
    "Valori.Props.C213_annoy_delete",
    "Valori.Props.C213_annoy_search",
    "Valori.Props.C213_flat",
    "Valori.Props.C213_hnsw",
    "Valori.Props.C213_hnsw_objects",
    "Valori.Props.C213_hnsw_links",
    "Valori.Props.C213_ivf",
    "Valori.Props.C213_ivf_objects",
    "Valori.Props.C213_ivf_search",
    "Valori.Props.C213_ivf_trained",
    "Valori.Props.C213_ivf_trained_own",
    "Valori.Props.C213_lsh_update",
    "Valori.Props.C213_lsh_delete",
    "Valori.Props.C213_lsh_insert",
    "Valori.Props.C213_lsh_search",
    "Valori.Props.C213_lsh_keys"
   ],
   "note": "for insertions into and updates on an IVF index, k-means and the distances to the centroids do not raise, as in the thread model of C204"
  },
  {
   "property": "C214",
   "status": "partial",
   "theorems": [
    "Valori.Props.C214_counts",
    "Valori.Props.C214_answers",
    "Valori.Props.C214_failed_refuted"
   ],
   "note": "exact when the embedding model answers every text; after a failed embedding chunks are counted that nobody got (C214_failed_refuted); the counters are those before get_stats embeds its own test text (C113)"
  },
  {
   "property": "C215",
   "status": "partial",
   "theorems": [
    "Valori.Props.C215_session_partial",
    "Valori.Props.C215_update_refuted",
    "Valori.Props.C215_reopen_refuted"
   ],
   "note": "one session without updates, add_item of the library assumed not to raise (TakesAll), metadata entries dictionaries, ids not negative; updates and a second session are refuted"
  },
  {
   "property": "C216",
   "status": "partial",
   "theorems": [
    "Valori.Props.C216_after_death_partial",
    "Valori.Props.C216_unsearchable_refuted",
    "Valori.Props.C216_half_batch_refuted",
    "Valori.Props.C216_mixed_refuted"
   ],
   "note": "the exact outcomes of a death: earlier calls complete, the call done up to one of its edits, at most one item half written (searches raise until it is deleted, then all is right). Death of the process only (the operating system carries out the writes in order); ids are their own file names, metadata picklable, new ids name no leftover file (uuid4); the claim of all-or-nothing is refuted"
  },
  {
   "property": "C217",
   "status": "partial",
   "theorems": [
    "Valori.Props.C217_hnsw_after_death_partial",
    "Valori.Props.C217_ivf_after_death_partial",
    "Valori.Props.C217_hnsw_locked_refuted",
    "Valori.Props.C217_ivf_locked_refuted"
   ],
   "note": "the exact outcomes of a death: earlier calls complete, the call done up to one of its edits; then all later answers are right, or one item is half written and the database is locked (IVF with fewer files than clusters: opens, searches raise until the item is deleted). Assumptions as in C195 and C216; that it can always be opened is refuted"
  },
  {
   "property": "C218",
   "status": "partial",
   "theorems": [
    "Valori.Props.C218_flat",
    "Valori.Props.C218_ivf_partial",
    "Valori.Props.C218_hnsw_partial",
    "Valori.Props.C218_memory",
    "Valori.Props.C218_disk",
    "Valori.Props.C218_hybrid",
    "Valori.Props.C218_hnsw_refuted",
    "Valori.Props.C218_ivf_persistent",
    "Valori.Props.C218_hnsw_persistent",
    "Valori.Props.C218_reinit_refuted"
   ],
   "note": "Flat: every history. IVF and HNSW: every history on disk and hybrid storage; on memory storage if initialize is called on a closed client only; refuted for HNSW otherwise."
  },
  {
   "property": "C219",
   "status": "partial",
   "theorems": [
    "Valori.Props.C219_flat_refuted",
    "Valori.Props.C219_ivf_refuted",
    "Valori.Props.C219_hnsw_refuted",
    "Valori.Props.C219_lsh_refuted",
    "Valori.Props.C219_annoy_refuted",
    "Valori.Props.C219_one_character_partial"
   ],
   "note": "refuted for every history, index by index; holds exactly for ids of one character (`C219_one_character_partial`)"
  },
  {
   "property": "C220",
   "status": "partial",
   "theorems": [
    "Valori.Props.C220_equal",
    "Valori.Props.C220_reported",
    "Valori.Props.C220_clear",
    "Valori.Props.C220_one",
    "Valori.Props.C220_batch_partial",
    "Valori.Props.C220_batch_refuted"
   ],
   "note": "the two counters agree after every history, statistics and clear_cache are true; batches count right for sentence-transformers (`C220_batch_partial`), twice for every other model (`C220_batch_refuted`)"
  },
  {
   "property": "C221",
   "status": "proved",
   "theorems": [
    "Valori.Props.C221_top_alone",
    "Valori.Props.C221_nothing_iff",
    "Valori.Props.C221_single"
   ],
   "note": "exact characterisation without deletions (`C221_nothing_iff`), sufficient condition with them (`C221_top_alone`); random.sample is assumed to give min(m, n) different nodes; refines C26"
  },
  {
   "property": "C222",
   "status": "partial",
   "theorems": [
    "Valori.Props.C222_lsh_update_partial",
    "Valori.Props.C222_lsh_update_refuted",
    "Valori.Props.C222_lsh_delete_refuted",
    "Valori.Props.C222_annoy_partial",
    "Valori.Props.C222_annoy_delete_refuted",
    "Valori.Props.C222_annoy_update_refuted"
   ],
   "note": "partial for ids that are not negative numbers; refuted for negative ones in every LSH history and Annoy state; that annoy refuses negative items is a hypothesis of `C222_annoy_update_refuted`"
  },
  {
   "property": "C223",
   "status": "partial",
   "theorems": [
    "Valori.Props.C223_ivf_untrained_iff",
    "Valori.Props.C223_ivf_untrained_refuted",
    "Valori.Props.C223_ivf_insert_partial",
    "Valori.Props.C223_ivf_update_refuted",
    "Valori.Props.C223_ivf_stuck_refuted",
    "Valori.Props.C223_ivf_reopen_refuted",
    "Valori.Props.C223_hnsw_accepts",
    "Valori.Props.C223_hnsw_partial",
    "Valori.Props.C223_hnsw_flat_iff",
    "Valori.Props.C223_hnsw_refuted"
   ],
   "note": "refused inserts into a trained IVF index change no answer (`_partial`: rows stay stored); all other parts refuted for every state meeting the stated hypotheses; assumes numpy raises on unequal lengths other than 1 and on `np.array` of unequal rows"
  },
  {
   "property": "C224",
   "status": "partial",
   "theorems": [
    "Valori.Props.C224_after_death_partial",
    "Valori.Props.C224_unsearchable_refuted",
    "Valori.Props.C224_half_batch_refuted"
   ],
   "note": "the exact outcomes of a death: earlier calls complete for every memory limit, the call done up to one of its edits, at most one item half written (searches raise until it is deleted, then all is right). Assumptions as in C216; the claim of all-or-nothing is refuted"
  },
  {
   "property": "C225",
   "status": "proved",
   "theorems": [
    "Valori.Props.C225_equal_content",
    "Valori.Props.C225_no_ties",
    "Valori.Props.C225_undo",
    "Valori.Props.C225_order",
    "Valori.Props.C225_backends",
    "Valori.Props.C225_reopened"
   ],
   "note": "Two databases with equal content agree on all later answers; equal without ties."
  },
  {
   "property": "C226",
   "status": "proved",
   "theorems": [
    "Valori.Props.C226_hnsw_backends",
    "Valori.Props.C226_ivf_backends",
    "Valori.Props.C226_hnsw_searches",
    "Valori.Props.C226_ivf_searches"
   ],
   "note": "Equal answers on any two lawful backends, and searches leave no trace."
  },
  {
   "property": "C227",
   "status": "proved",
   "theorems": [
    "Valori.Props.C227_ivf_exact",
    "Valori.Props.C227_ivf_persistent",
    "Valori.Props.C227_like_flat"
   ],
   "note": "Distances and k-means are total in the hypotheses; k-means gives at most nProbes centroids."
  },
  {
   "property": "C228",
   "status": "partial",
   "theorems": [
    "Valori.Props.C228_ivf_exact_partial",
    "Valori.Props.C228_ivf_partial",
    "Valori.Props.C228_hnsw_partial",
    "Valori.Props.C228_ivf_refuted",
    "Valori.Props.C228_hnsw_refuted"
   ],
   "note": "Flat: see C225_reopened. IVF that probes all clusters: proved. IVF and HNSW in general: all answers but search results are kept, search results may change (refuted)."
  },
  {
   "property": "C229",
   "status": "proved",
   "theorems": [
    "Valori.Props.C229_flat",
    "Valori.Props.C229_ivf",
    "Valori.Props.C229_hnsw",
    "Valori.Props.C229_lsh",
    "Valori.Props.C229_saq",
    "Valori.Props.C229_annoy"
   ],
   "note": "Every state, every pair of k; the Annoy library has the property by assumption."
  },
  {
   "property": "C230",
   "status": "partial",
   "theorems": [
    "Valori.Props.C230_probes",
    "Valori.Props.C230_ef_partial",
    "Valori.Props.C230_ef_refuted",
    "Valori.Props.C230_rescore"
   ],
   "note": "n_probes and rescore_top_k: proved. ef_search: proved for graphs of at most two levels (statMaxLevel at most 1), refuted for three."
  },
  {
   "property": "C231",
   "status": "proved",
   "theorems": [
    "Valori.Props.C231_small",
    "Valori.Props.C231_copies"
   ],
   "note": "`random.sample` of all nodes returns all nodes (hypothesis on the draws). The number of copies is 1 (IsTopK) when only level 0 was drawn."
  },
  {
   "property": "C232",
   "status": "partial",
   "theorems": [
    "Valori.Props.C232_flat_partial",
    "Valori.Props.C232_ivf_partial",
    "Valori.Props.C232_hnsw_partial",
    "Valori.Props.C232_flat_refuted",
    "Valori.Props.C232_ivf_refuted",
    "Valori.Props.C232_hnsw_refuted",
    "Valori.Props.C232_disk"
   ],
   "note": "Refuted for dictionaries in results over memory storage, universally; isolation for own dictionaries proved for flat, IVF and HNSW; disk proved without condition for flat. The content of a dictionary is one value: nested values shared by the shallow copy (`metadata.copy()`) are not modelled. Hybrid storage is not covered."
  },
  {
   "property": "C233",
   "status": "partial",
   "theorems": [
    "Valori.Props.C233_ivf_beside_sound_partial",
    "Valori.Props.C233_ivf_beside_raises_partial",
    "Valori.Props.C233_ivf_beside_steady_partial",
    "Valori.Props.C233_ivf_beside_untrained_partial",
    "Valori.Props.C233_ivf_raises_refuted",
    "Valori.Props.C233_ivf_twice_refuted"
   ],
   "note": "Soundness for every schedule; the only place where a search can raise identified; no raise, different ids and nothing missed proved with one inserting thread, for a trained index with all lists, and for an index that stays untrained; refuted when two threads train at once. Deletes and updates by other threads are not modelled."
  },
  {
   "property": "C234",
   "status": "partial",
   "theorems": [
    "Valori.Props.C234_search_sound_partial",
    "Valori.Props.C234_search_raises_refuted"
   ],
   "note": "full claim false: a search may raise; soundness of what is returned is proved for every schedule"
  },
  {
   "property": "C235",
   "status": "partial",
   "theorems": [
    "Valori.Props.C235_untouched",
    "Valori.Props.C235_inserted",
    "Valori.Props.C235_deleted",
    "Valori.Props.C235_updated",
    "Valori.Props.C235_at_rest",
    "Valori.Props.C235_later_search",
    "Valori.Props.C235_broken_entry",
    "Valori.Props.C235_two_deletions_refuted",
    "Valori.Props.C235_update_beside_delete_refuted",
    "Valori.Props.C235_insert_beside_delete_refuted"
   ],
   "note": "full claim false: calls may raise and leave the graph broken; proved for calls that returned"
  },
  {
   "property": "C236",
   "status": "partial",
   "theorems": [
    "Valori.Props.C236_search",
    "Valori.Props.C236_search_exact",
    "Valori.Props.C236_search_after",
    "Valori.Props.C236_untouched",
    "Valori.Props.C236_inserted",
    "Valori.Props.C236_updated",
    "Valori.Props.C236_deleted",
    "Valori.Props.C236_at_rest",
    "Valori.Props.C236_update_beside_delete_refuted",
    "Valori.Props.C236_two_updates_refuted",
    "Valori.Props.C236_new_cluster_refuted",
    "Valori.Props.C236_count_refuted",
    "Valori.Props.C236_insert_beside_delete_refuted"
   ],
   "note": "full claim false for the count; all else proved for threads that touch different ids on an index where every cluster has a list"
  },
  {
   "property": "C237",
   "status": "partial",
   "theorems": [
    "Valori.Props.C237_raises_refuted",
    "Valori.Props.C237_misses_refuted",
    "Valori.Props.C237_twice_refuted",
    "Valori.Props.C237_sound_partial",
    "Valori.Props.C237_answers_partial",
    "Valori.Props.C237_once_partial",
    "Valori.Props.C237_reads_only"
   ],
   "note": "full claim false: a search beside updates and deletions may raise, miss a vector or return one twice; soundness of results proved in general"
  },
  {
   "property": "C238",
   "status": "partial",
   "theorems": [
    "Valori.Props.C238_annoy",
    "Valori.Props.C238_lsh",
    "Valori.Props.C238_lsh_search_partial",
    "Valori.Props.C238_flat",
    "Valori.Props.C238_flat_search_partial",
    "Valori.Props.C238_ivf",
    "Valori.Props.C238_ivf_search_partial",
    "Valori.Props.C238_flat_search_refuted",
    "Valori.Props.C238_flat_search_quiet",
    "Valori.Props.C238_ivf_search_refuted",
    "Valori.Props.C238_hnsw",
    "Valori.Props.C238_hnsw_delete_partial",
    "Valori.Props.C238_hnsw_search_partial",
    "Valori.Props.C238_hnsw_delete_refuted",
    "Valori.Props.C238_hnsw_search_refuted"
   ],
   "note": "insert and update on flat, IVF, HNSW and LSH, delete on flat, IVF and LSH, all calls on Annoy: proved with a bound; search, and delete on HNSW: no bound exists while others insert (refuted for every number of statements for flat, IVF and HNSW), proved for lists that stay below a bound"
  },
  {
   "property": "C239",
   "status": "partial",
   "theorems": [
    "Valori.Props.C239_accepts",
    "Valori.Props.C239_key_text_refuted",
    "Valori.Props.C239_plain",
    "Valori.Props.C239_keys",
    "Valori.Props.C239_file_partial",
    "Valori.Props.C239_file_refuted",
    "Valori.Props.C239_collision_refuted",
    "Valori.Props.C239_unvalidated_refuted"
   ],
   "note": "proved: what comes back equals what was saved iff all parts have a word in JSON; refuted for all other accepted metadata"
  },
  {
   "property": "C240",
   "status": "partial",
   "theorems": [
    "Valori.Props.C240_raises_refuted",
    "Valori.Props.C240_metadata_refuted",
    "Valori.Props.C240_mixed_refuted",
    "Valori.Props.C240_missed_refuted",
    "Valori.Props.C240_sound_partial",
    "Valori.Props.C240_finds",
    "Valori.Props.C240_calm"
   ],
   "note": "soundness and finding of untouched vectors proved in general; the full claim is false: a search may raise, return no metadata or newer ones, or miss a vector being updated"
  },
  {
   "property": "C241",
   "status": "partial",
   "theorems": [
    "Valori.Props.C241_untouched",
    "Valori.Props.C241_inserted",
    "Valori.Props.C241_updated",
    "Valori.Props.C241_deleted",
    "Valori.Props.C241_at_rest",
    "Valori.Props.C241_updates_refuted",
    "Valori.Props.C241_revived_refuted",
    "Valori.Props.C241_search",
    "Valori.Props.C241_search_after"
   ],
   "note": "proved for calls that name different ids and one inserting thread; false when two threads name the same id"
  },
  {
   "property": "C242",
   "status": "partial",
   "theorems": [
    "Valori.Props.C242_annoy",
    "Valori.Props.C242_flat_partial",
    "Valori.Props.C242_flat_search_refuted",
    "Valori.Props.C242_ivf_partial",
    "Valori.Props.C242_ivf_search_refuted",
    "Valori.Props.C242_hnsw_partial",
    "Valori.Props.C242_hnsw_search_refuted",
    "Valori.Props.C242_hnsw_delete_refuted",
    "Valori.Props.C242_lsh"
   ],
   "note": "LSH and Annoy: proved for all calls; flat and IVF: insert, update, delete; HNSW: insert and update; the others refuted by an execution without end"
  },
  {
   "property": "C243",
   "status": "partial",
   "theorems": [
    "Valori.Props.C243_annoy",
    "Valori.Props.C243_flat",
    "Valori.Props.C243_flat_replies",
    "Valori.Props.C243_hnsw_partial",
    "Valori.Props.C243_hnsw_refuted",
    "Valori.Props.C243_ivf",
    "Valori.Props.C243_ivf_replies",
    "Valori.Props.C243_index",
    "Valori.Props.C243_replies"
   ],
   "note": "Flat, LSH, trained IVF, Annoy: proved; HNSW: vectors and metadata (_partial), the graph refuted by a witness"
  },
  {
   "property": "C244",
   "status": "proved",
   "theorems": [
    "Valori.Props.C244_untouched",
    "Valori.Props.C244_inserted",
    "Valori.Props.C244_updated",
    "Valori.Props.C244_deleted",
    "Valori.Props.C244_at_rest",
    "Valori.Props.C244_search"
   ],
   "note": "Every interleaving; start state with all stored vectors listed and cached"
  },
  {
   "property": "C245",
   "status": "partial",
   "theorems": [
    "Valori.Props.C245_untouched",
    "Valori.Props.C245_inserted",
    "Valori.Props.C245_deleted",
    "Valori.Props.C245_search",
    "Valori.Props.C245_at_rest",
    "Valori.Props.C245_two_inserts_refuted",
    "Valori.Props.C245_early_delete_refuted",
    "Valori.Props.C245_same_id_refuted",
    "Valori.Props.C245_half_deleted_refuted"
   ],
   "note": "Every interleaving; proved for one inserting thread and deletions of ids given before, refuted (for every index) for two inserting threads and for deleting an id just being inserted"
  },
  {
   "property": "C246",
   "status": "partial",
   "theorems": [
    "Valori.Props.C246_tidy_partial",
    "Valori.Props.C246_one_file_partial",
    "Valori.Props.C246_twice_refuted",
    "Valori.Props.C246_build",
    "Valori.Props.C246_answers",
    "Valori.Props.C246_after_clear_refuted",
    "Valori.Props.C246_in_memory",
    "Valori.Props.C246_clear_type_refuted",
    "Valori.Props.C246_opens",
    "Valori.Props.C246_in_memory_index"
   ],
   "note": "Every history in which initialize is called on new or closed indices (_partial); a second initialize leaks a file and build after clear raises: refuted for every index and every later history"
  },
  {
   "property": "C247",
   "status": "partial",
   "theorems": [
    "Valori.Props.C247_other_names_partial",
    "Valori.Props.C247_bad_name_refuted",
    "Valori.Props.C247_taken_for_state_refuted",
    "Valori.Props.C247_overwritten_refuted"
   ],
   "note": "Names that are not of the form checkpoint_*.pkl: proved (_partial); for the others refuted in three ways, for all managers and all later histories"
  },
  {
   "property": "C248",
   "status": "partial",
   "theorems": [
    "Valori.Props.C248_like_new_partial",
    "Valori.Props.C248_dimension_refuted"
   ],
   "note": "Vectors of the length the index had: proved for all histories (_partial); other lengths refuted for every index that has a length"
  },
  {
   "property": "C249",
   "status": "partial",
   "theorems": [
    "Valori.Props.C249_replies",
    "Valori.Props.C249_load_state",
    "Valori.Props.C249_failed_save_partial",
    "Valori.Props.C249_raised_but_saved_refuted"
   ],
   "note": "Replies and load_state exactly (proved); other files, counters and log (_partial); the own file of save_vectors refuted for all managers"
  },
  {
   "property": "C250",
   "status": "partial",
   "theorems": [
    "Valori.Props.C250_right_width",
    "Valori.Props.C250_long_partial",
    "Valori.Props.C250_short_refuted",
    "Valori.Props.C250_long_refuted",
    "Valori.Props.C250_only_quantization_errors"
   ],
   "note": "Right width (proved); too long with more dimensions than segments refused (_partial); too short, and too long with as many segments as dimensions: refuted for all trained quantisers"
  },
  {
   "property": "C251",
   "status": "partial",
   "theorems": [
    "Valori.Props.C251_scalar_partial",
    "Valori.Props.C251_scalar_refuted",
    "Valori.Props.C251_product_long_refuted",
    "Valori.Props.C251_product_short_refuted",
    "Valori.Props.C251_product_partial",
    "Valori.Props.C251_product_one_refuted"
   ],
   "note": "Refused widths (_partial, two theorems); width 1 (scalar), longer vectors, one entry of the last part and parts of one entry (product): refuted for all trained quantisers"
  },
  {
   "property": "C252",
   "status": "partial",
   "theorems": [
    "Valori.Props.C252_scalar_partial",
    "Valori.Props.C252_scalar_single_refuted",
    "Valori.Props.C252_scalar_one_refuted",
    "Valori.Props.C252_product_partial",
    "Valori.Props.C252_product_refuted"
   ],
   "note": "Own width and refused codes (_partial, two theorems); codes of one entry, one dimension, and long product codes: refuted for all trained quantisers"
  },
  {
   "property": "C253",
   "status": "partial",
   "theorems": [
    "Valori.Props.C253_product",
    "Valori.Props.C253_scalar_partial",
    "Valori.Props.C253_scalar_refuted"
   ],
   "note": "Product quantiser (proved); scalar quantiser on more than one dimension (_partial) and on one (refuted for all codes of another length)"
  },
  {
   "property": "C254",
   "status": "partial",
   "theorems": [
    "Valori.Props.C254_report_partial",
    "Valori.Props.C254_report_refuted"
   ],
   "note": "Two rows and a column or more (_partial); arrays without entries refuted, one row and one axis raise before printing"
  },
  {
   "property": "C255",
   "status": "proved",
   "theorems": [
    "Valori.Props.C255_profile"
   ],
   "note": "Proved for all programs"
  },
  {
   "property": "C256",
   "status": "partial",
   "theorems": [
    "Valori.Props.C256_first_partial",
    "Valori.Props.C256_reuse_refuted",
    "Valori.Props.C256_counters"
   ],
   "note": "First operation or after reset_stats (_partial); refuted for every search that returns on a manager used before"
  },
  {
   "property": "C257",
   "status": "partial",
   "theorems": [
    "Valori.Props.C257_first_partial",
    "Valori.Props.C257_failed_refuted",
    "Valori.Props.C257_reuse_refuted",
    "Valori.Props.C257_counters"
   ],
   "note": "New manager (_partial); failed batches and used managers: refuted for all clients that refuse a batch and all managers used before"
  }
 ]
}