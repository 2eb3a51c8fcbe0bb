{"claims": [
 {"property": "C01", "status": "proved", "theorems": ["Verif.Thm.Codec.C01_roundtrip", "Verif.Thm.Codec.C01_refused", "Verif.Thm.Codec.C01_injective"], "note": ""},
 {"property": "C02", "status": "proved", "theorems": ["Verif.Thm.Codec.C02_accepts_iff", "Verif.Thm.Codec.C02_exact", "Verif.Thm.Codec.C02_rejects"], "note": ""},
 {"property": "C03", "status": "proved", "theorems": ["Verif.Thm.StoreProps.C03_last_write", "Verif.Thm.StoreProps.C03_kept", "Verif.Thm.StoreProps.C03_error_is_not_found", "Verif.Thm.StoreProps.C03_removed"], "note": ""},
 {"property": "C04", "status": "proved", "theorems": ["Verif.Thm.StoreProps.C04_all_or_nothing", "Verif.Thm.StoreProps.C04_rejected_anywhere"], "note": ""},
 {"property": "C05", "status": "partial", "theorems": ["Verif.Model.Store.C05_any_empty_id_violated", "Verif.Thm.Search.C05_search_stored", "Verif.Thm.Search.C05_search_deleted", "Verif.Thm.StoreProps.C05_reports_absence", "Verif.Thm.StoreProps.C05_removes_exactly", "Verif.Thm.StoreProps.C05_failed_unchanged", "Verif.Thm.StoreProps.C05_stays_deleted", "Verif.Thm.StoreProps.C05_empty_id_violated", "Verif.Thm.StoreProps.C05_never_deleted_violated"], "note": "Holds for every non-empty id; Upsert accepts the empty id and Delete refuses it (C05_empty_id_violated)."},
 {"property": "C06", "status": "partial", "theorems": ["Verif.Thm.StoreProps.C06_any_violated", "Verif.Thm.StoreProps.C06_removes_exactly", "Verif.Thm.StoreProps.C06_failed_unchanged_partial", "Verif.Thm.StoreProps.C06_violated"], "note": "Without a storage failure exact; a failure after the first 500 ids leaves the earlier chunks deleted (C06_violated)."},
 {"property": "C07", "status": "partial", "theorems": ["Verif.Thm.FilterSql.C07_any_no_metadata_violated", "Verif.Thm.FilterSql.C07_any_number_violated", "Verif.Thm.FilterSql.C07_any_dotted_violated", "Verif.Thm.FilterSql.C07_any_negation_violated", "Verif.Thm.Filter.C07_exact_partial", "Verif.Thm.Filter.C07_refused", "Verif.Thm.Filter.C07_error_atomic", "Verif.Thm.Filter.C07_not_in_violated", "Verif.Thm.Filter.C07_number_violated", "Verif.Thm.Filter.C07_no_metadata_violated", "Verif.Thm.Filter.C07_dotted_violated", "Verif.Thm.Filter.C07_text_order_violated", "Verif.Thm.FilterSql.C07_selected_partial", "Verif.Thm.FilterSql.C07_bare_refused", "Verif.Thm.FilterSql.C07_list_refused", "Verif.Thm.FilterSql.C07_panics_violated", "Verif.Thm.FilterSql.C07_not_equal_number_violated", "Verif.Thm.FilterSql.C07_word_order_violated"], "note": "C07_selected_partial says exactly which records are removed, for every filter and all metadata; it agrees with the usual reading for filters without NOT whose comparisons SQL expresses (C07_exact_partial). Violations: NOT IN inside AND is dropped and deletes the excluded records, numeric equality never matches, NotEqual with a number removes every record that has the field, order against a word (a date) removes all or none, one record without metadata makes every deletion fail, dotted names, texts in ordered fields, IN and BETWEEN without a list panic."},
 {"property": "C08", "status": "proved", "theorems": ["Verif.Thm.Search.C08_in_collection"], "note": ""},
 {"property": "C09", "status": "proved", "theorems": ["Verif.Thm.Search.C09_linear_topK", "Verif.Thm.Search.C09_score", "Verif.Thm.Search.C09_ordered", "Verif.Thm.Search.C09_index_topK"], "note": ""},
 {"property": "C10", "status": "partial", "theorems": ["Verif.Thm.Search.C10_any_doc_id_violated", "Verif.Thm.Search.C10_linear", "Verif.Thm.Search.C10_index_partial", "Verif.Thm.Search.C10_doc_id_violated"], "note": "Linear search honours the document filter; searches served by the HNSW or IVF index ignore a plain doc_id filter unless it is also stored metadata (C10_doc_id_violated)."},
 {"property": "C11", "status": "partial", "theorems": ["Verif.Thm.Search.C11_permitted", "Verif.Thm.Search.C11_topK", "Verif.Thm.Search.C11_collection_partial", "Verif.Thm.Search.C11_collection_topK_partial", "Verif.Thm.Search.C11_collection_violated", "Verif.Thm.Search.C11_any_collection_violated"], "note": "Principals are always respected; the collection restriction is lost for public rows because AND binds tighter than OR in the SQL (C11_collection_violated)."},
 {"property": "C12", "status": "partial", "theorems": ["Verif.Thm.Search.C12_fusion_partial", "Verif.Thm.Search.C12_scope_partial", "Verif.Thm.Search.C12_scope_violated", "Verif.Thm.Search.C12_any_scope_violated"], "note": "Fusion scores proved for the modelled fusion; full-text hits ignore the requested collection and filter (C12_scope_violated)."},
 {"property": "C13", "status": "partial", "theorems": ["Verif.Thm.StoreProps.C13_any_reopen_violated", "Verif.Thm.StoreProps.C13_strict_partial", "Verif.Thm.StoreProps.C13_batch_violated", "Verif.Thm.StoreProps.C13_reopen_violated", "Verif.Thm.StoreProps.C13_empty_violated", "Verif.Thm.StoreProps.C13_any_batch_violated"], "note": "Holds when batches carry the fixed dimension, reopening keeps it and no empty vector comes first; each excluded case is a violation witness."},
 {"property": "C14", "status": "proved", "theorems": ["Verif.Thm.Dimension.C14_length", "Verif.Thm.Dimension.C14_refused", "Verif.Thm.Dimension.C14_same", "Verif.Thm.Dimension.C14_total", "Verif.Thm.Dimension.C14_smart_truncate", "Verif.Thm.Dimension.C14_pad_truncate", "Verif.Thm.Dimension.C14_smart_pad"], "note": ""},
 {"property": "C15", "status": "proved", "theorems": ["Verif.Thm.StoreProps.C15_closed_refuses", "Verif.Thm.StoreProps.C15_close", "Verif.Thm.StoreProps.C15_stays", "Verif.Thm.StoreProps.C15_read_refused"], "note": ""},
 {"property": "C16", "status": "proved", "theorems": ["Verif.Thm.StoreProps.C16_unique_names", "Verif.Thm.StoreProps.C16_create", "Verif.Thm.StoreProps.C16_delete", "Verif.Thm.StoreProps.C16_count", "Verif.Thm.StoreProps.C16_shown"], "note": ""},
 {"property": "C17", "status": "partial", "theorems": ["Verif.Thm.StoreProps.C17_any_delete_violated", "Verif.Thm.StoreProps.C17_linked_partial", "Verif.Thm.StoreProps.C17_delete_partial", "Verif.Thm.StoreProps.C17_violated"], "note": "Holds when every statement runs on a connection with foreign keys on; the pragma is set on one pooled connection only (C17_violated)."},
 {"property": "C18", "status": "proved", "theorems": ["Verif.Chat.C18_history", "Verif.Chat.C18_own_session", "Verif.Chat.C18_negative_limit", "Verif.Chat.C18_in_order_added", "Verif.Chat.C18_add", "Verif.Chat.C18_ids_unique"], "note": ""},
 {"property": "C19", "status": "partial", "theorems": ["Verif.Chat.C19_any_negative_violated", "Verif.Chat.C19_session_partial", "Verif.Chat.C19_negative_violated", "Verif.Chat.C19_user", "Verif.Chat.C19_user_scope", "Verif.Chat.C19_any_negative_violated"], "note": "Exact for non-negative limits; a negative limit makes SearchChatHistory panic (C19_negative_violated)."},
 {"property": "C20", "status": "partial", "theorems": ["Verif.Thm.Filter.C20_conjunction_partial", "Verif.Thm.Filter.C20_disjunction_partial", "Verif.Thm.Filter.C20_parentheses", "Verif.Thm.Filter.C20_precedence_violated", "Verif.Thm.Filter.C20_documented_example_violated", "Verif.Thm.Filter.C20_groups_violated", "Verif.Thm.Filter.C20_assign_violated", "Verif.Thm.Filter.C20_quote_violated", "Verif.Thm.Filter.C20_between_violated", "Verif.Thm.Filter.C20_in", "Verif.Thm.Filter.C20_in_refused", "Verif.Thm.Filter.C20_quoted_partial", "Verif.Thm.Filter.C20_quoted_violated"], "note": "Conjunctions of comparisons and parenthesised disjunctions, plain disjunctions, IN lists, and quoted values. Violations: OR beside AND, two groups, BETWEEN (no filter string at all parses to a range; the documented example is rejected), ':=', operators or connectives inside quotes, a lone quote panics."},
 {"property": "C21", "status": "partial", "theorems": ["Verif.Thm.Filter.C21_agree_partial", "Verif.Thm.Filter.C21_memory_partial", "Verif.Thm.Filter.C21_not_violated", "Verif.Thm.Filter.C21_missing_violated", "Verif.Thm.Filter.C21_numeral_violated", "Verif.Thm.Filter.C21_case_violated", "Verif.Thm.Filter.C21_empty_violated", "Verif.Thm.Filter.C21_any_missing_violated", "Verif.Thm.Filter.C21_any_numeral_violated", "Verif.Thm.Filter.C21_any_not_violated", "Verif.Thm.Filter.C21_any_empty_violated", "Verif.Thm.Filter.C21_any_case_violated"], "note": "Agreement for plain comparisons; each exclusion has a witness of disagreement."},
 {"property": "C22", "status": "partial", "theorems": ["Verif.Io.C22_lines_partial", "Verif.Io.C22_array_partial", "Verif.Io.C22_filtered", "Verif.Io.C22_closed", "Verif.Io.C22_plain_partial", "Verif.Io.C22_acl_lost_violated", "Verif.Io.C22_collection_violated", "Verif.Io.C22_nan_violated"], "note": "Proved: dumping and loading into an empty store with the same collections restores every record except access lists (both formats). Violated: access lists are lost, unknown collections are not created, a non-finite component makes the JSON dump fail."},
 {"property": "C23", "status": "partial", "theorems": ["Verif.Io.C23_lines_partial", "Verif.Io.C23_broken_violated", "Verif.Io.C23_load_hangs_violated", "Verif.Io.C23_array_partial", "Verif.Io.C23_array_undecodable", "Verif.Io.C23_null_violated"], "note": "Proved: on JSON lines without unreadable text, and on JSON without null entries, load terminates and counts every value once. Violated: unreadable text makes the JSON lines loader loop forever, and a null entry makes the JSON loader panic."},
 {"property": "C24", "status": "partial", "theorems": ["Verif.Aggregate.C24_count_partial", "Verif.Aggregate.C24_numbers_partial", "Verif.Aggregate.C24_groups_partition_partial", "Verif.Aggregate.C24_groups_limited_partial", "Verif.Aggregate.C24_nil_metadata_violated", "Verif.Aggregate.C24_number_filter_violated", "Verif.Aggregate.C24_text_is_zero_violated", "Verif.Aggregate.C24_sql_word_violated", "Verif.Aggregate.C24_same_key_twice_violated", "Verif.Aggregate.C24_count_field_violated", "Verif.Aggregate.C24_refused"], "note": "Proved under the stated guards (every record in scope has metadata, plain names, text filters, numeric values, names that are not SQL words). Violated outside them: nil metadata fails the query, numeric filters never match, non-numeric text counts as 0, reserved words as group fields fail, 1 and 1.0 are two groups with one key, a field named count changes the order."},
 {"property": "C25", "status": "partial", "theorems": ["Verif.Range.C25_euclid_partial", "Verif.Range.C25_cosine_partial", "Verif.Range.C25_orthogonal_violated", "Verif.Range.C25_opposite_violated", "Verif.Range.C25_radius", "Verif.Range.C25_batch"], "note": "Range search returns exactly the records within the radius for Euclidean stores and for cosine stores under the guard given; for orthogonal and opposite vectors the cosine distance check loses records."},
 {"property": "C26", "status": "partial", "theorems": ["Verif.Stream.C26_collect_partial", "Verif.Stream.C26_exact_partial", "Verif.Stream.C26_early_return_violated", "Verif.Stream.C26_zero_panics_violated"], "note": "Exact when fewer than k distinct results exceed 0.9 (C26_exact_partial); otherwise the early return discards better results (violated) and k=0 panics (violated)."},
 {"property": "C27", "status": "partial", "theorems": ["Verif.Stream.C27_accounted", "Verif.Stream.C27_in_order_partial", "Verif.Stream.C27_search_reorders_violated", "Verif.Stream.C27_failed_flush_loses_violated", "Verif.Stream.C27_close_during_search_violated"], "note": "All accepted updates are accounted for under every schedule. In-order application and draining proved without concurrent searches and failing flushes; searches reorder updates, failed flushes lose them, closing during a search panics (violated)."},
 {"property": "C28", "status": "partial", "theorems": ["Verif.Lock.C28_no_deadlock_partial", "Verif.Lock.C28_without_writers_partial", "Verif.Lock.C28_nested_deadlocks_violated"], "note": "No deadlock and all calls return for calls that do not take the lock twice, and for any calls without exclusive ones; every nested call deadlocks with every exclusive call (violated for all pairs)."},
 {"property": "C29", "status": "partial", "theorems": ["Verif.Recover.C29_rebuild_partial", "Verif.Recover.C29_clean_history_partial", "Verif.Recover.C29_snapshot_loses_violated", "Verif.Recover.C29_never_repaired_violated", "Verif.Recover.C29_autosave_overwrites_violated", "Verif.Recover.C29_rewritten_missing_violated"], "note": "Rows, in-memory index entries, snapshot, auto-save and close as a state machine. Proved: a store that never wrote a snapshot reopens exactly; clean histories (no kill, no auto-save during Close, no HNSW id reuse) stay complete. Negated: records written after a snapshot are lost by a crash and never repaired, auto-save can overwrite the snapshot of a clean Close, a removed and rewritten id stays missing."},
 {"property": "C30", "status": "proved", "theorems": ["Verif.Hnsw.C30_default", "Verif.Hnsw.C30_search_sound"], "note": "Proved for every history of Insert, InsertBatch, InsertBatchParallel and Delete, with random levels and map order as inputs."},
 {"property": "C31", "status": "partial", "theorems": ["Verif.Hnsw.C31_links_resolve", "Verif.Hnsw.C31_neighbour_on_layer_violated", "Verif.Hnsw.C31_neighbour_on_layer_partial"], "note": "Reference integrity proved for all histories; the 'exists on that layer' part is violated by every insert whose level exceeds the entry point's (proved for all such states) and holds when no insert does."},
 {"property": "C32", "status": "partial", "theorems": ["Verif.Hnsw.C32_rewrite_ignored_violated", "Verif.Hnsw.C32_first_write_partial"], "note": "Violated for every known id: Insert returns an error and changes nothing, so updates and rewrites after delete never reach the index. Holds for the first write of an id."},
 {"property": "C33", "status": "partial", "theorems": ["Verif.Hnsw.C33_small_build_complete_partial", "Verif.Hnsw.C33_parallel_build_loses_vectors_violated"], "note": "Violated by every real parallel build (two or more workers with ten or more vectors each): the sub-graphs are merged without links between them. Holds for small sequential fall-backs."},
 {"property": "C34", "status": "partial", "theorems": ["Verif.Ivf.C34_contents_partial", "Verif.Ivf.C34_delete_loses_next_violated", "Verif.Ivf.C34_delete_then_search_panics_violated", "Verif.Ivf.C34_update_keeps_old_violated", "Verif.Ivf.C34_retrain_loses_violated"], "note": "Holds when deletions hit the last vector of a cluster and training is on an empty index; violated by other deletions, updates and retraining (universal negations)."},
 {"property": "C35", "status": "partial", "theorems": ["Verif.Flat.C35_search_exact_partial", "Verif.Flat.C35_nonpositive_k_panics_violated", "Verif.Flat.C35_range_exact", "Verif.Flat.C35_contents"], "note": "Exact for positive k; panics for k <= 0 on a non-empty index; range search and contents proved in full."},
 {"property": "C36", "status": "proved", "theorems": ["Verif.Lsh.C36_search", "Verif.Lsh.C36_self_found", "Verif.Lsh.C36_delete_and_size"], "note": "Any history, any projections with at least one table; single and multi-probe search."},
 {"property": "C37", "status": "partial", "theorems": ["Verif.MultiIndex.C37_multi_reported", "Verif.MultiIndex.C37_multi_delete_partial", "Verif.MultiIndex.C37_hybrid_delete_keeps_violated", "Verif.MultiIndex.C37_hybrid_delete_partial", "Verif.MultiIndex.C37_hybrid_failed_insert_leaves_trace_violated", "Verif.MultiIndex.C37_multi_failed_insert_leaves_trace_violated", "Verif.MultiIndex.C37_multi_delete_leaves_copy_violated"], "note": "Multi index: proved for parts that forget what they delete (the HNSW adapter does, the IVF adapter does not after a duplicate insert). Hybrid index: violated, Delete never reaches the IVF part and a failed Insert leaves the HNSW entry, which blocks every retry."},
 {"property": "C38", "status": "partial", "theorems": ["Verif.Quant.C38_packing_lossless", "Verif.Quant.C38_error_below_step_partial", "Verif.Quant.C38_in_range", "Verif.Quant.C38_half_step_violated", "Verif.Quant.C38_decode_short"], "note": "Packing is lossless for every width and dimension (C38_packing_lossless), decoding fails exactly on short data. The half-step bound is violated for every trained quantizer: the scaled value is truncated; proved bound is below one full step, from below."},
 {"property": "C39", "status": "partial", "theorems": ["Verif.Quant.C39_new", "Verif.Quant.C39_encode_signs", "Verif.Quant.C39_reencode", "Verif.Quant.C39_decode_rejects", "Verif.Quant.C39_encode_rejects", "Verif.Quant.C39_hamming_counts", "Verif.Quant.C39_hamming_metric", "Verif.Quant.C39_search_exact_partial", "Verif.Quant.C39_mismatch_ranks_first_violated"], "note": "Bits, re-encoding, Hamming count and metric proved in full. Search exact for codes of the query's length; a code of another length gets distance -1 and ranks first (violated). Re-encoding assumes adding 0.5 to a threshold is not absorbed by rounding."},
 {"property": "C40", "status": "partial", "theorems": ["Verif.PQuant.C40_any_wrap_violated", "Verif.PQuant.C40_encode_nearest", "Verif.PQuant.C40_decode", "Verif.PQuant.C40_decode_errors", "Verif.PQuant.C40_roundtrip_nearest", "Verif.PQuant.C40_serialize_roundtrip", "Verif.PQuant.C40_truncated_panics_violated", "Verif.PQuant.C40_short_header_partial", "Verif.PQuant.C40_too_many_codewords_violated"], "note": "Nearest codewords, decode dimension and errors, serialize round trip proved. Violated: every truncation after the header panics; more than 256 codewords accepted from data so codes wrap."},
 {"property": "C41", "status": "partial", "theorems": ["Verif.Graph.C41_any_dangling_violated", "Verif.Graph.C41_edges_join_stored_nodes_partial", "Verif.Graph.C41_delete_removes_incident_edges_partial", "Verif.Graph.C41_batch_delete_removes_incident_edges_partial", "Verif.Graph.C41_other_operations_keep_edges", "Verif.Graph.C41_unenforced_delete_keeps_edges_violated", "Verif.Graph.C41_dangling_edge_violated"], "note": "Nodes and edges stay consistent when every statement runs on a connection with foreign keys on; a delete on a pooled connection without the pragma leaves dangling edges (C41 violated)."},
 {"property": "C42", "status": "partial", "theorems": ["Verif.Graph.C42_any_late_violated", "Verif.Graph.C42_neighbors_exact_partial", "Verif.Graph.C42_limit_counts_partial", "Verif.Graph.C42_limit_before_types_partial", "Verif.Graph.C42_unknown_direction_is_error", "Verif.Graph.C42_limit_with_type_filter_violated"], "note": "Exact for every graph and depth without a limit; the limit is applied to the visited nodes before the type filter (C42_limit_before_types_partial), so a limited filtered search can miss matching neighbours (C42_limit_with_type_filter_violated)."},
 {"property": "C43", "status": "proved", "theorems": ["Verif.Graph.C43_shortest_path", "Verif.Graph.C43_unknown_start"], "note": ""},
 {"property": "C44", "status": "proved", "theorems": ["Verif.Graph.C44_connected_decides_reachability"], "note": ""},
 {"property": "C45", "status": "proved", "theorems": ["Verif.Graph.C45_pagerank_bounds_and_mass"], "note": ""},
 {"property": "C46", "status": "proved", "theorems": ["Verif.Graph.C46_communities_partition"], "note": ""},
 {"property": "C47", "status": "proved", "theorems": ["Verif.Graph.C47_predicted_edges", "Verif.Graph.C47_unknown_source"], "note": ""},
 {"property": "C48", "status": "proved", "theorems": ["Verif.Graph.C48_density", "Verif.Graph.C48_statistics_count_components", "Verif.Graph.C48_empty_graph"], "note": ""},
 {"property": "C49", "status": "partial", "theorems": ["Verif.Graph.C49_node_batch_accounts_partial", "Verif.Graph.C49_edge_batch_accounts_partial", "Verif.Graph.C49_delete_batch_accounts_partial", "Verif.Graph.C49_mixed_batch_accounts_partial", "Verif.Graph.C49_batch_is_one_by_one_partial", "Verif.Graph.C49_batches_skip_the_index_violated", "Verif.Graph.C49_index_out_of_step_violated", "Verif.Graph.C49_single_operations_keep_index_in_step"], "note": "Single operations keep the index in step; batches change the tables without touching the index."},
 {"property": "C50", "status": "partial", "theorems": ["Verif.Graph.C50_any_weight_violated", "Verif.Graph.C50_json_round_trip_partial", "Verif.Graph.C50_graphml_round_trip_partial", "Verif.Graph.C50_gexf_round_trip_partial", "Verif.Graph.C50_edge_fields_lost_violated", "Verif.Graph.C50_graphml_changes_values_violated", "Verif.Graph.C50_failed_import_is_reported"], "note": "JSON: proved for every history with foreign keys enforced (nil and empty property maps are identified). GraphML and GEXF: proved when texts are XML characters, edges carry no vector (GEXF: nor properties) and weights have six decimals (GraphML). Violated otherwise: edge vectors are lost in GraphML and GEXF and edge properties in GEXF for every graph; small weights and control characters change. Assumed: JSON libraries read back what they wrote (Reads)."},
 {"property": "C51", "status": "partial", "theorems": ["Verif.GHnsw.C51_search_sound", "Verif.GHnsw.C51_higher_level_isolates_violated", "Verif.GHnsw.C51_finds_every_node_violated", "Verif.GHnsw.C51_small_index_finds_every_node_partial"], "note": "Violated: a node drawn at a level above the entry's becomes the entry before it is connected and is the only node found from then on (C51_higher_level_isolates_violated, for every index). Proved: soundness for all histories; completeness for at most 17 distinct ids whose later adds are drawn at level 0 and whose names do not clash with the '_expanded' marker. Missing: completeness for larger indexes (false in general)."},
 {"property": "C52", "status": "partial", "theorems": ["Verif.Graph.C52_hybrid_search_ranks_partial", "Verif.Graph.C52_weights_sum_partial", "Verif.Graph.C52_weights_sum_violated", "Verif.Graph.C52_any_weights_violated"], "note": "Ranking, distinctness and limit are proved outright; the weights in force may be up to 0.001 off one (C52_weights_sum_violated)."},
 {"property": "C53", "status": "partial", "theorems": ["Verif.Geo.C53_units", "Verif.Geo.C53_inclusive", "Verif.Geo.C53_exact_partial", "Verif.Geo.C53_complete_partial", "Verif.Geo.C53_pole_violated", "Verif.Geo.C53_antimeridian_violated", "Verif.Geo.C53_reinsert_violated", "Verif.Geo.C53_moved_violated"], "note": "Partial: exact for the cells that are looked at, complete on the meridian of the centre and on the equator. Violated near the poles, across longitude 180, and after a known id is inserted again."},
 {"property": "C54", "status": "proved", "theorems": ["Verif.Geo.C54_size", "Verif.Geo.C54_points", "Verif.Geo.C54_knn"], "note": ""},
 {"property": "C55", "status": "partial", "theorems": ["Verif.Geo.C55_box_partial", "Verif.Geo.C55_reinsert_violated", "Verif.Geo.C55_polygon", "Verif.Geo.C55_any_reinsert_violated"], "note": "Partial: boxes are exact for every history without re-insertion, polygons for every history. Violated for boxes after a known id is inserted again."},
 {"property": "C56", "status": "partial", "theorems": ["Verif.Router.C56_best_route_partial", "Verif.Router.C56_euclidean_violated", "Verif.Router.C56_failed_once_violated", "Verif.Router.C56_store_violated", "Verif.Router.C56_negative_violated", "Verif.Router.C56_forever_violated"], "note": "Proved for every history of a router without store and with an embedder that does not fail: best similarity, a route that has it, match iff some utterance reaches a positive threshold. Violated with the Euclidean similarity (all scores at most 0, the best starts at 0), after one failed embedding with the cache on (sync.Once keeps nil vectors), and with a store (all utterances share the empty id)."},
 {"property": "C57", "status": "partial", "theorems": ["Verif.Router.C57_any_batch_violated", "Verif.Router.C57_any_persist_violated", "Verif.Router.C57_twice_violated", "Verif.Router.C57_names_partial", "Verif.Router.C57_rejected_partial", "Verif.Router.C57_batch_violated", "Verif.Router.C57_persist_violated", "Verif.Router.C57_unsaved_violated"], "note": "Names stay unique for every history whose batches have distinct names; without a store a rejected call changes nothing. Violated by a batch with a repeated name and by a persisting failure, after which the route stays registered."},
 {"property": "C58", "status": "partial", "theorems": ["Verif.Router.C58_named_partial", "Verif.Router.C58_threshold_violated", "Verif.Router.C58_nothing_violated"], "note": "Proved for positive thresholds and every state of both routers; violated for threshold 0 (match without a route)."},
 {"property": "C59", "status": "proved", "theorems": ["Verif.Router.C59_batch", "Verif.Router.C59_cached", "Verif.Router.C59_cached_batch"], "note": "Proved for all arrival orders, all cache contents and all map iteration orders."},
 {"property": "C60", "status": "partial", "theorems": ["Verif.Hindsight.C60_asked", "Verif.Hindsight.C60_isolation_partial", "Verif.Hindsight.C60_keyword_violated", "Verif.Hindsight.C60_metadata_violated", "Verif.Hindsight.C60_any_keyword_violated"], "note": "Partial: proved for all histories without the user key bank_id and with the keyword strategy off or no query vector. Violated by the keyword strategy (HybridSearch ignores the filter in its full-text part) and by user metadata that sets bank_id."},
 {"property": "C61", "status": "proved", "theorems": ["Verif.Hindsight.C61_fusion", "Verif.Hindsight.C61_single"], "note": "Proved for all arrival orders and map orders, given stores whose searches return distinct ids (C77), and no user reranker."},
 {"property": "C62", "status": "partial", "theorems": ["Verif.Hindsight.C62_config", "Verif.Hindsight.C62_trigger_partial", "Verif.Hindsight.C62_window_partial", "Verif.Hindsight.C62_order_violated", "Verif.Hindsight.C62_delay_violated", "Verif.Hindsight.C62_any_delay_violated"], "note": "Partial: the schedule and the window as a set are proved for all histories and schedules; violated: the window is passed newest first, and a delayed extraction sees later messages."},
 {"property": "C63", "status": "partial", "theorems": ["Verif.Hindsight.C63_restart_partial", "Verif.Hindsight.C63_disposition_violated", "Verif.Hindsight.C63_observe_violated", "Verif.Hindsight.C63_entity_violated", "Verif.Hindsight.C63_any_entity_violated"], "note": "Partial: id and name survive; violated: disposition and background are lost for every bank and Observe then panics; an entity named like the bank makes it disappear."},
 {"property": "C64", "status": "proved", "theorems": ["Verif.Hindsight.C64_sources", "Verif.Hindsight.C64_range", "Verif.Hindsight.C64_value", "Verif.Hindsight.C64_disposition"], "note": ""},
 {"property": "C65", "status": "proved", "theorems": ["Verif.Rag.C65_defaults", "Verif.Rag.C65_cover", "Verif.Rag.C65_no_word_lost", "Verif.Rag.C65_chunk_bounds", "Verif.Rag.C65_empty"], "note": ""},
 {"property": "C66", "status": "proved", "theorems": ["Verif.Rag.C66_defaults", "Verif.Rag.C66_pack", "Verif.Rag.C66_nonempty"], "note": ""},
 {"property": "C67", "status": "partial", "theorems": ["Verif.Memory.C67_resolve_partial", "Verif.Memory.C67_isolation_partial", "Verif.Memory.C67_colon_violated", "Verif.Memory.C67_alias_violated"], "note": "Holds for owners whose name has no colon; user a in namespace b:c shares the bucket of user a:b in namespace c (C67_colon_violated)."},
 {"property": "C68", "status": "partial", "theorems": ["Verif.Memory.C68_expired_partial", "Verif.Memory.C68_updates_partial", "Verif.Memory.C68_update_violated", "Verif.Memory.C68_revived_violated"], "note": "An update that does not mention the time to live restarts it and revives expired memories (C68_update_violated). Proved: without updates nothing is found after the time to live; with updates nothing is found later than the time to live after the last write (C68_updates_partial)."},
 {"property": "C69", "status": "partial", "theorems": ["Verif.Knowledge.C69_others_partial", "Verif.Knowledge.C69_early_partial", "Verif.Knowledge.C69_validation_partial", "Verif.Knowledge.C69_violated"], "note": "Items other than the one named are never touched, and failures before the old document is removed keep it; but the old item is removed before the new one is embedded, so any later failure loses it (C69_violated, for every stored item)."},
 {"property": "C70", "status": "partial", "theorems": ["Verif.Lexical.C70_any_negative_topk_violated", "Verif.Lexical.C70_text_only_partial", "Verif.Lexical.C70_fts_violated", "Verif.Lexical.C70_fts_threshold_violated", "Verif.Lexical.C70_memory_violated", "Verif.Lexical.C70_no_topk_violated", "Verif.Lexical.C70_negative_topk_violated", "Verif.Lexical.C70_candidates_partial"], "note": "Order and scores are right on the fused path; the direct full-text search and the lexical memory search give better matches lower scores, and the tool search without TopK returns nothing."},
 {"property": "C71", "status": "proved", "theorems": ["Verif.Knowledge.C71_groups", "Verif.Knowledge.C71_missing_document"], "note": ""},
 {"property": "C72", "status": "proved", "theorems": ["Verif.Rag.C72_chunk_ids", "Verif.Rag.C72_document_chunks", "Verif.Rag.C72_kinds"], "note": ""},
 {"property": "C73", "status": "partial", "theorems": ["Verif.Rerank.C73_overlap", "Verif.Rerank.C73_custom_none", "Verif.Rerank.C73_normalize", "Verif.Rerank.C73_normalize_reversed_violated", "Verif.Rerank.C73_keyword", "Verif.Rerank.C73_rrf", "Verif.Rerank.C73_rrf_dominance", "Verif.Rerank.C73_diversity", "Verif.Rerank.C73_diversity_euclid_violated", "Verif.Rerank.C73_custom", "Verif.Rerank.C73_hybrid_partial", "Verif.Rerank.C73_hybrid_panic_violated"], "note": "Normalization, keyword, fusion, diversity and custom rerankers are proved to rearrange; hybrid under the guard that its members rearrange. Violations: max<min reverses the order, the diversity reranker ignores similarities below -1, the hybrid panics when a member drops results."},
 {"property": "C74", "status": "partial", "theorems": ["Verif.Diversity.C74_distance_default", "Verif.Diversity.C74_mmr", "Verif.Diversity.C74_lambda_zero_violated", "Verif.Diversity.C74_distance", "Verif.Diversity.C74_random", "Verif.Diversity.C74_random_best_violated", "Verif.Diversity.C74_random_panics_violated", "Verif.Diversity.C74_nonpositive_violated", "Verif.Diversity.C74_dpp", "Verif.Diversity.C74_dpp_worth", "Verif.Diversity.C74_dpp_best_partial", "Verif.Diversity.C74_dpp_negative_violated", "Verif.Diversity.C74_search_partial", "Verif.Diversity.C74_any_best_violated"], "note": "All four strategies return different candidates, at most TopK, and MMR and distance start with the best; greedy choice proved. Violations: random can miss the best and panics for negative TopK, DPP returns nothing when no score is positive, lambda 0 is taken for 1/2, TopK <= 0 gives one result."},
 {"property": "C75", "status": "partial", "theorems": ["Verif.MultiVector.C75_aggregate", "Verif.MultiVector.C75_search_partial", "Verif.MultiVector.C75_complete_partial", "Verif.MultiVector.C75_missing_field_violated", "Verif.MultiVector.C75_errors_hidden_violated", "Verif.MultiVector.C75_number_metadata_violated", "Verif.MultiVector.C75_composite_partial", "Verif.MultiVector.C75_collision_violated", "Verif.MultiVector.C75_others_kept_partial", "Verif.MultiVector.C75_round_trip_partial", "Verif.MultiVector.C75_stale_field_violated", "Verif.MultiVector.C75_stale_read_violated", "Verif.MultiVector.C75_overwrite_violated", "Verif.MultiVector.C75_no_vectors_violated", "Verif.MultiVector.C75_plain_record_violated", "Verif.MultiVector.C75_cut_off_violated", "Verif.MultiVector.C75_any_cut_off_violated", "Verif.MultiVector.C75_any_overwrite_violated"], "note": "Search: distinct entities, aggregated over fields where the entity was in the field's TopK (missing fields are ignored, errors are hidden, rows with number metadata never found). Ids are unique only under a guard on underscores; re-upsert keeps stale fields; a record without metadata makes entities unreadable."},
 {"property": "C76", "status": "partial", "theorems": ["Verif.Fts.C76_found_partial", "Verif.Fts.C76_fresh_partial", "Verif.Fts.C76_upserts_partial", "Verif.Fts.C76_stale_violated", "Verif.Fts.C76_not_violated", "Verif.Fts.C76_ghost_violated"], "note": "Exact when ids are not rewritten, or nothing is deleted; nothing is ever missed by queries without NOT. Violated: INSERT OR REPLACE leaves entries behind and a reused row id inherits them."},
 {"property": "C77", "status": "partial", "theorems": ["Verif.Thm.Search.C77_effective_partial", "Verif.Thm.Search.C77_violated", "Verif.Thm.Search.C77_ignored_violated"], "note": "Document access lists are never consulted by SearchWithACL: for every access list the results are the same (C77_violated, C77_ignored_violated)."},
 {"property": "C78", "status": "partial", "theorems": ["Verif.Thm.Search.C78_post_filter_partial", "Verif.Thm.Search.C78_violated", "Verif.Thm.Search.C78_crowded_violated"], "note": "The filter is applied after the K best are cut (C78_violated)."},
 {"property": "C79", "status": "proved", "theorems": ["Verif.Thm.Filter.C79_builder_total", "Verif.Thm.Filter.C79_builder_meaning"], "note": ""},
 {"property": "C80", "status": "partial", "theorems": ["Verif.Thm.FilterSearch.C80_post_filter_partial", "Verif.Thm.FilterSearch.C80_violated"], "note": "Post-filter exact; a pre-filter always fails because the column name is ambiguous in the join (C80_violated)."},
 {"property": "C81", "status": "proved", "theorems": ["Verif.Rag.C81_rerank", "Verif.Rag.C81_best_first", "Verif.Rag.C81_greedy"], "note": ""},
 {"property": "C82", "status": "partial", "theorems": ["Verif.Rag.C82_any_violated", "Verif.Rag.C82_violated", "Verif.Rag.C82_plain_partial"], "note": "Names made of lower-case letters and digits; names that differ only in punctuation such as c++ and c# share a node (C82_violated)."},
 {"property": "C83", "status": "partial", "theorems": ["Verif.Memory.C83_other_ids_partial", "Verif.Memory.C83_search_partial", "Verif.Memory.C83_violated", "Verif.Memory.C83_taken_violated"], "note": "Memories under other ids are untouched; ids are global, so a save under another owner's id takes it over (C83_violated). The guarded theorem says what is found by search after any history."},
 {"property": "C84", "status": "partial", "theorems": ["Verif.Memory.C84_not_early_partial", "Verif.Memory.C84_overflow_violated", "Verif.Memory.C84_semantic_partial", "Verif.Memory.C84_live_among_best_partial", "Verif.Memory.C84_crowding_violated", "Verif.Memory.C84_too_long_violated"], "note": "Exact top K when the bucket holds no expired memory and durations fit 64 bits; in general every live memory found is among the best candidates (C84_live_among_best_partial); expired rows crowd out live ones and huge durations overflow (violation witnesses)."},
 {"property": "C85", "status": "proved", "theorems": ["Verif.Knowledge.C85_save", "Verif.Knowledge.C85_update"], "note": ""},
 {"property": "C86", "status": "partial", "theorems": ["Verif.Knowledge.C86_leftover_violated", "Verif.Knowledge.C86_reingest_partial", "Verif.Knowledge.C86_violated", "Verif.Knowledge.C86_record"], "note": "Exact when the new text has at least as many chunks; otherwise old chunks beyond the new count stay (C86_violated)."},
 {"property": "C87", "status": "proved", "theorems": ["Verif.Knowledge.C87_delete"], "note": ""},
 {"property": "C88", "status": "partial", "theorems": ["Verif.Router.C88_violated", "Verif.Router.C88_two_routes_violated", "Verif.Router.C88_removed_violated", "Verif.Router.C88_last_partial"], "note": "Violated for every history: utterances are written with the empty id, so at most one row survives and a router opened later has at most one route with one utterance (C88_violated); Remove never deletes it (C88_removed_violated). Proved for every history: the route added last is there with its last utterance."},
 {"property": "C89", "status": "partial", "theorems": ["Verif.Router.C89_complete_partial", "Verif.Router.C89_violated", "Verif.Router.C89_invalid_violated"], "note": "Proved when no registered pattern is invalid; violated by an invalid pattern on a required parameter."},
 {"property": "C90", "status": "proved", "theorems": ["Verif.Similarity.C90_cosine", "Verif.Similarity.C90_euclidean", "Verif.Similarity.C90_dot", "Verif.Similarity.C90_same_order"], "note": ""},
 {"property": "C91", "status": "proved", "theorems": ["Verif.Similarity.C91_sparse", "Verif.Similarity.C91_nonneg", "Verif.Similarity.C91_hybrid"], "note": ""},
 {"property": "C92", "status": "partial", "theorems": ["Verif.Similarity.C92_any_refit_violated", "Verif.Similarity.C92_any_tfidf_refit_violated", "Verif.Similarity.C92_match_partial", "Verif.Similarity.C92_unfitted_violated", "Verif.Similarity.C92_fit_partial", "Verif.Similarity.C92_refit_violated", "Verif.Similarity.C92_tfidf"], "note": "Violated: Fit does not clear earlier IDFs, and an unfitted encoder gives zero weights for every text. The proved parts hold for all histories of fits with a corpus that has a term."},
 {"property": "C93", "status": "proved", "theorems": ["Verif.Similarity.C93_distances", "Verif.Similarity.C93_cosine_range"], "note": ""},
 {"property": "C94", "status": "partial", "theorems": ["Verif.Hindsight.C94_delete_violated", "Verif.Hindsight.C94_gone_partial"], "note": "Partial: the bank itself is gone; violated: its memories stay and are recalled as before."},
 {"property": "C95", "status": "proved", "theorems": ["Verif.Hindsight.C95_budget"], "note": ""},
 {"property": "C96", "status": "proved", "theorems": ["Verif.Hindsight.C96_accounting"], "note": ""},
 {"property": "C97", "status": "partial", "theorems": ["Verif.Hindsight.C97_any_error_violated", "Verif.Hindsight.C97_persist_violated", "Verif.Hindsight.C97_error_violated"], "note": "Violated for all inputs: Observe stores with a nil vector, which the store rejects, so a successful call persists nothing."},
 {"property": "C98", "status": "proved", "theorems": ["Verif.Geo.C98_great_circle", "Verif.Geo.C98_metric"], "note": ""},
 {"property": "C99", "status": "proved", "theorems": ["Verif.Geo.C99_rectangle"], "note": ""},
 {"property": "C100", "status": "proved", "theorems": ["Verif.Graph.C100_subgraph_is_induced", "Verif.Graph.C100_repeated_id_repeats"], "note": ""},
 {"property": "C101", "status": "proved", "theorems": ["Verif.Graph.C101_communities_are_connected"], "note": ""},
 {"property": "C102", "status": "partial", "theorems": ["Verif.Graph.C102_any_violated", "Verif.Graph.C102_combined_score_partial", "Verif.Graph.C102_combined_score_violated"], "note": "The edge strength is added only for nodes that are not vector matches (C102_combined_score_violated); everything else about the score is proved."},
 {"property": "C103", "status": "proved", "theorems": ["Verif.Graph.C103_similarity_in_graph", "Verif.Graph.C103_unknown_node"], "note": ""},
 {"property": "C104", "status": "partial", "theorems": ["Verif.Graph.C104_any_late_violated", "Verif.Graph.C104_neighbourhood_search_partial", "Verif.Graph.C104_limited_partial", "Verif.Graph.C104_limit_violated"], "note": "Exact without a limit; with a limit the neighbourhood is cut before ranking (C104_limit_violated), and the answer is the top K of the start node and the first neighbours up to the limit (C104_limited_partial)."},
 {"property": "C105", "status": "proved", "theorems": ["Verif.GHnsw.C105_index_backed_search"], "note": ""},
 {"property": "C106", "status": "proved", "theorems": ["Verif.GHnsw.C106_index_and_closeness"], "note": ""},
 {"property": "C107", "status": "partial", "theorems": ["Verif.Graph.C107_detects_exports_partial", "Verif.Graph.C107_short_read_violated"], "note": "Proved when the first Read delivers at least 48 (GraphML), 44 (GEXF) or 1 (JSON) characters; violated for shorter reads, which io.Reader allows."},
 {"property": "C108", "status": "partial", "theorems": ["Verif.Hnsw.C108_default_partial", "Verif.Hnsw.C108_small_index_exact_partial", "Verif.Hnsw.C108_every_live_vector_found_violated"], "note": "Exact for at most 2M+1 ids; violated with one more (an outlier is pruned by all its neighbours)."},
 {"property": "C109", "status": "partial", "theorems": ["Verif.Hnsw.C109_links_bounded_partial", "Verif.Hnsw.C109_parallel_violated"], "note": "Holds for histories without a real parallel build; violated by parallel builds, which do not prune."},
 {"property": "C110", "status": "proved", "theorems": ["Verif.Hnsw.C110_errors_and_size"], "note": ""},
 {"property": "C111", "status": "partial", "theorems": ["Verif.MultiIndex.C111_size", "Verif.MultiIndex.C111_hybrid_size", "Verif.MultiIndex.C111_merge_all", "Verif.MultiIndex.C111_voting", "Verif.MultiIndex.C111_rerank_partial", "Verif.MultiIndex.C111_rerank_unconfirmed_first_violated"], "note": "Merging and voting proved; rerank is violated: an unconfirmed candidate gets distance 0 and comes first."},
 {"property": "C112", "status": "partial", "theorems": ["Verif.MultiIndex.C112_any_parameters_violated", "Verif.MultiIndex.C112_adapter_exact_partial", "Verif.MultiIndex.C112_adapter_parameters_violated", "Verif.MultiIndex.C112_adapter_links_partial"], "note": "Violated: the adapter passes the dimension as M and M as efConstruction; holds when the dimension is at most M."},
 {"property": "C113", "status": "partial", "theorems": ["Verif.Quant.C113_any_failed_train_violated", "Verif.Quant.C113_train_covers", "Verif.Quant.C113_failed_train_changes_ranges_violated", "Verif.Quant.C113_short_first_vector_panics_violated", "Verif.Quant.C113_binary_train"], "note": "Scalar training covers its data, but a failed training replaces the ranges of a trained quantizer and a short first vector panics. Binary training proved in full."},
 {"property": "C114", "status": "partial", "theorems": ["Verif.PQuant.C114_any_violated", "Verif.PQuant.C114_distance", "Verif.PQuant.C114_search", "Verif.PQuant.C114_bounds_partial", "Verif.PQuant.C114_ranking_violated"], "note": "Reported distance is the sum of subspace distances and the search is exact for it; it is not the Euclidean distance to the reconstruction: ranking violated with two subspaces, bounds proved."},
 {"property": "C115", "status": "partial", "theorems": ["Verif.PQuant.C115_any_zero_violated", "Verif.PQuant.C115_train_ready", "Verif.PQuant.C115_new", "Verif.PQuant.C115_too_few", "Verif.PQuant.C115_empty_cluster_zero_violated"], "note": "Sizes and success proved; an empty cluster leaves a zero codeword outside the data (violated)."},
 {"property": "C116", "status": "partial", "theorems": ["Verif.Stream.C116_only_candidates", "Verif.Stream.C116_delivers_all_partial", "Verif.Stream.C116_late_dropped_violated", "Verif.Stream.C116_early_stop_violated"], "note": "Soundness for every schedule; completeness for prompt consumers without early termination; slow consumers lose results and early termination stops after one good result (violated)."},
 {"property": "C117", "status": "proved", "theorems": ["Verif.Stream.C117_merge"], "note": ""},
 {"property": "C118", "status": "partial", "theorems": ["Verif.Stream.C118_pending_topk_partial", "Verif.Stream.C118_both_versions_violated"], "note": "Ranking proved; both the stored and the pending version of a record are returned (violated)."},
 {"property": "C119", "status": "proved", "theorems": ["Verif.Lock.C119_exclusive"], "note": ""},
 {"property": "C120", "status": "partial", "theorems": ["Verif.Lock.C120_no_race_partial", "Verif.Lock.C120_closed_flag_violated", "Verif.Lock.C120_ivf_delete_violated", "Verif.Lock.C120_training_violated", "Verif.Lock.C120_alpha_violated"], "note": "Race freedom for calls that access state under the locks; Search, SearchWithFilter and Upsert race with Close, IVF deletes race with searches, training races with itself, SetAlpha with Route (violated)."},
 {"property": "C121", "status": "proved", "theorems": ["Verif.Lock.C121_no_deadlock"], "note": "Store calls restricted to those that do not take the store lock twice (C28). Goroutines of Recall and MultiIndex are taken one after the other; wait groups are not modelled."},
 {"property": "C122", "status": "partial", "theorems": ["Verif.Io.C122_any_overwrites_violated", "Verif.Io.C122_skip_keeps_partial", "Verif.Io.C122_replace_ignored_violated", "Verif.Io.C122_overwrites_violated"], "note": "Proved: SkipExisting keeps the records present before. Violated: Replace and Upsert are ignored and existing records are overwritten when neither is set."},
 {"property": "C123", "status": "partial", "theorems": ["Verif.Range.C123_every_kind_violated", "Verif.Range.C123_any_facet_violated", "Verif.Range.C123_plain_partial", "Verif.Range.C123_best_missed_violated", "Verif.Range.C123_any_missed_violated"], "note": "Every facet condition or filter gives an SQL error (ambiguous column metadata) in every store; without one the candidates are cut before scoring, so the best record can be missed. The partial theorem gives what is returned."},
 {"property": "C124", "status": "partial", "theorems": ["Verif.Range.C124_any_ignored_violated", "Verif.Range.C124_counts_partial", "Verif.Range.C124_nil_metadata_violated", "Verif.Range.C124_collection_ignored_violated", "Verif.Range.C124_scope_ignored_violated"], "note": "Counts hold when every record has metadata; one record without metadata makes them fail, and the collection is ignored."},
 {"property": "C125", "status": "partial", "theorems": ["Verif.Rerank.C125_boost_partial", "Verif.Rerank.C125_negative_violated"], "note": "Holds for scores that are not negative; negative scores (Euclidean) are lowered by the boost."},
 {"property": "C126", "status": "partial", "theorems": ["Verif.Rerank.C126_reranked_partial", "Verif.Rerank.C126_none_partial", "Verif.Rerank.C126_threshold_ignored_violated", "Verif.Rerank.C126_preserve_ignored_violated"], "note": "TopK and threshold hold with a reranker; the threshold is ignored without one, PreserveOriginalScore always."},
 {"property": "C127", "status": "partial", "theorems": ["Verif.Diversity.C127_negatives_partial", "Verif.Diversity.C127_euclid_violated", "Verif.Diversity.C127_options_violated"], "note": "Holds for similarities that are not negative and weight not 0. In a Euclidean store every score is 0; weight 0 is 1/2; the threshold is ignored."},
 {"property": "C128", "status": "partial", "theorems": ["Verif.Diversity.C128_recommend_partial", "Verif.Diversity.C128_unknown_violated", "Verif.Diversity.C128_examples_violated"], "note": "The ranking holds for similarities that are not negative. Unknown examples are ignored silently and the examples are in the answer."},
 {"property": "C129", "status": "proved", "theorems": ["Verif.Diversity.C129_anomalies"], "note": "Proved for all stores; exact arithmetic."},
 {"property": "C130", "status": "partial", "theorems": ["Verif.MultiVector.C130_filter_violated", "Verif.MultiVector.C130_nil_partial"], "note": "Violated: the caller's non-nil filter keeps _vector_field of the last field searched; a nil filter stays nil."},
 {"property": "C131", "status": "partial", "theorems": ["Verif.MultiVector.C131_document_violated", "Verif.MultiVector.C131_atomic_partial", "Verif.MultiVector.C131_index_violated", "Verif.MultiVector.C131_any_index_violated"], "note": "Rows are atomic; violated: the index keeps vectors of a failed write, and with foreign keys on no entity can be stored without a document of the same id."},
 {"property": "C132", "status": "partial", "theorems": ["Verif.MultiVector.C132_delete_partial", "Verif.MultiVector.C132_plain_record_violated"], "note": "Holds when every record has metadata; violated: one record without metadata makes every delete fail."},
 {"property": "C133", "status": "partial", "theorems": ["Verif.Fts.C133_malformed_violated", "Verif.Fts.C133_rewritten_violated", "Verif.Fts.C133_fresh_partial", "Verif.Fts.C133_ghost_violated"], "note": "Exact without rewrites. Violated: a record written more than 3*TopK times is not found (for all texts and queries), and a reused row id makes ranking fail."},
 {"property": "C134", "status": "proved", "theorems": ["Verif.Fts.C134_messages"], "note": "Proved for all histories. Queries are terms with AND, OR, NOT; phrases and prefixes are not modelled."},
 {"property": "C135", "status": "proved", "theorems": ["Verif.RagSearch.C135_next", "Verif.RagSearch.C135_next_all", "Verif.RagSearch.C135_sound", "Verif.RagSearch.C135_complete", "Verif.RagSearch.C135_entities", "Verif.RagSearch.C135_answers"], "note": ""},
 {"property": "C136", "status": "partial", "theorems": ["Verif.RagSearch.C136_any_violated", "Verif.RagSearch.C136_seeds_only_partial", "Verif.RagSearch.C136_linked_partial", "Verif.RagSearch.C136_other_collection_violated"], "note": "The graph expansion is not restricted to the collection of the search: a chunk of another collection that mentions the same entity is returned (witness on a stored graph). What holds: without the graph only the hits are returned; with it, only hits and linked chunks, so the property holds when the links stay in the collection."},
 {"property": "C137", "status": "partial", "theorems": ["Verif.RagSearch.C137_always_reranks_violated", "Verif.RagSearch.C137_order_violated"], "note": "The defaults turn Rerank on whenever it is false, for all options. No partial: the code has no way to switch it off."},
 {"property": "C138", "status": "partial", "theorems": ["Verif.RagSearch.C138_text_hit_never_first_violated", "Verif.RagSearch.C138_text_scores", "Verif.RagSearch.C138_witness_violated", "Verif.RagSearch.C138_without_graph_partial"], "note": "Violated for all inputs of a class: whenever entities bring no hits and any chunk is linked to a text hit, the first chunk is a linked one. Partial: without the graph only text hits are returned."},
 {"property": "C139", "status": "proved", "theorems": ["Verif.RagSearch.C139_sound", "Verif.RagSearch.C139_scores"], "note": ""},
 {"property": "C140", "status": "proved", "theorems": ["Verif.RagSearch.C140_entities", "Verif.RagSearch.C140_search_entities", "Verif.RagSearch.C140_get_chunks", "Verif.RagSearch.C140_build_context"], "note": ""},
 {"property": "C141", "status": "partial", "theorems": ["Verif.GraphTools.C141_node", "Verif.GraphTools.C141_refused", "Verif.GraphTools.C141_refused_nodes", "Verif.GraphTools.C141_half", "Verif.GraphTools.C141_relations_partial", "Verif.GraphTools.C141_unknown_end_violated", "Verif.GraphTools.C141_entities_partial", "Verif.GraphTools.C141_unknown_chunk_violated"], "note": "Violated for relations with an end, and mentions with a chunk, that is not stored: the edge fails on its foreign key, the batch counts the failure and goes on, and the tool reports its id and count all the same. Partial: all named ends stored."},
 {"property": "C142", "status": "partial", "theorems": ["Verif.GraphTools.C142_same_request_partial", "Verif.GraphTools.C142_position_violated", "Verif.GraphTools.C142_any_position_violated"], "note": "Violated: the edge id contains the position in the request, so the same relation at another position gets a second edge. Partial: the same request repeated changes nothing."},
 {"property": "C143", "status": "partial", "theorems": ["Verif.GraphTools.C143_listed_partial", "Verif.GraphTools.C143_other_types_violated", "Verif.GraphTools.C143_person_violated"], "note": "Violated: only nodes of type entity are listed, so an entity recorded with a type (person, ...) is not. Partial: type entity and at most 32 neighbours."},
 {"property": "C144", "status": "partial", "theorems": ["Verif.GraphTools.C144_any_repeated_violated", "Verif.GraphTools.C144_by_entities_partial", "Verif.GraphTools.C144_repeated_violated"], "note": "Violated: a name given twice (in any spelling) counts twice. Partial: score is the number of names given."},
 {"property": "C145", "status": "proved", "theorems": ["Verif.GraphTools.C145_expand_exact", "Verif.GraphTools.C145_expand_limit"], "note": ""},
 {"property": "C146", "status": "partial", "theorems": ["Verif.GraphTools.C146_edge_types_violated", "Verif.GraphTools.C146_nodes_partial", "Verif.GraphTools.C146_any_edge_violated"], "note": "Violated: the subgraph step returns all edges between the nodes found. Partial: for every limit, the nodes are reached from an id asked for along edges of the wanted types only."},
 {"property": "C147", "status": "proved", "theorems": ["Verif.GraphTools.C147_counts", "Verif.GraphTools.C147_never_zero", "Verif.GraphTools.C147_bag", "Verif.GraphTools.C147_order_and_case", "Verif.GraphTools.C147_collision"], "note": ""},
 {"property": "C148", "status": "proved", "theorems": ["Verif.GraphTools.C148_keywords", "Verif.GraphTools.C148_queries", "Verif.GraphTools.C148_complete"], "note": ""},
 {"property": "C149", "status": "partial", "theorems": ["Verif.FuncRouter.C149_any_case_violated", "Verif.FuncRouter.C149_stops_partial", "Verif.FuncRouter.C149_value_from_text_partial", "Verif.FuncRouter.C149_value_found", "Verif.FuncRouter.C149_case_violated"], "note": "Violated as to case: the value is cut from the text in lower case (`C149_case_violated`)."},
 {"property": "C150", "status": "partial", "theorems": ["Verif.FuncRouter.C150_boolean", "Verif.FuncRouter.C150_integer_partial", "Verif.FuncRouter.C150_sign_violated", "Verif.FuncRouter.C150_large_violated", "Verif.FuncRouter.C150_decimal", "Verif.FuncRouter.C150_keyword_whole", "Verif.FuncRouter.C150_text_violated"], "note": "Violated: the sign is lost (for every negative number), a number of 2^63 or more becomes 0, the value after a keyword ends at the decimal point, and a word is passed where a number is declared. Proved for whole numbers below 2^63, and for decimals that come from a registered pattern or an enumeration."},
 {"property": "C151", "status": "partial", "theorems": ["Verif.FuncRouter.C151_enum_partial", "Verif.FuncRouter.C151_enum_ignored", "Verif.FuncRouter.C151_enum_violated"], "note": "Violated: the word after a keyword is taken unchecked (`C151_enum_ignored` for all enumerations). Proved when no keyword has a word after it."},
 {"property": "C152", "status": "partial", "theorems": ["Verif.FuncRouter.C152_call_partial", "Verif.FuncRouter.C152_name_violated", "Verif.FuncRouter.C152_no_match", "Verif.FuncRouter.C152_run", "Verif.FuncRouter.C152_refused"], "note": "Violated when the route and its function have different names: Add files the function under its own name, Route looks it up under the route's name (`C152_name_violated`). Proved for equal names; the rest (what is executed) holds without guard."},
 {"property": "C153", "status": "partial", "theorems": ["Verif.FuncRouter.C153_any_list_violated", "Verif.FuncRouter.C153_required_partial", "Verif.FuncRouter.C153_again_violated", "Verif.FuncRouter.C153_complete_partial", "Verif.FuncRouter.C153_list_violated"], "note": "Violated: each further Build lists all required parameters again, and the list of a schema not made by the builder is ignored. Proved for schemas built once."},
 {"property": "C154", "status": "partial", "theorems": ["Verif.FuncRouter.C154_no_panic_partial", "Verif.FuncRouter.C154_panic_violated"], "note": "Violated: a word such as `(in` in a description makes the extraction panic on every text that contains it (given that Go refuses an unclosed parenthesis, `RefusesOpen`). Proved for names and descriptions without special characters."},
 {"property": "C155", "status": "partial", "theorems": ["Verif.Ingest.C155_held_partial", "Verif.Ingest.C155_only", "Verif.Ingest.C155_again", "Verif.Ingest.C155_empty_violated"], "note": "Violated: an embedder that answers with an empty (not nil) vector for a chunk: the row is stored, the call succeeds and names the chunk, but the graph has no node and no edges for it (C155_empty_violated, for every such call). Guard of C155_held_partial: no chunk vector of this call is empty. C155_only and C155_again need no guard; C155_again assumes an embedder that gives a text the same vector each time. ':' and '|' are not letters. The document record and the chunk rows are in the model of the knowledge base."},
 {"property": "C156", "status": "partial", "theorems": ["Verif.Ingest.C156_entities_partial", "Verif.Ingest.C156_empty_violated"], "note": "Violated: an entity whose name gets an empty vector is listed in the answer but has no node and no mention (C156_empty_violated). Guard of the partial: the embedder returns no empty vector. Two names with one id share a node (C82): the node then has the name of one of them, which the theorem allows."},
 {"property": "C157", "status": "partial", "theorems": ["Verif.Ingest.C157_relations_partial", "Verif.Ingest.C157_dropped_violated"], "note": "Violated: with foreign keys enforced a relation with an end that was neither stored nor extracted as an entity is dropped although the call succeeds (C157_dropped_violated, for every such call). Guard of the partial: both ends have nodes, or foreign keys are off. Of several relations of a chunk with equal ends and type one edge is kept, with the weight of the last."},
 {"property": "C158", "status": "partial", "theorems": ["Verif.Ingest.C158_failed_partial", "Verif.Ingest.C158_extractor_violated", "Verif.Ingest.C158_embedder_violated"], "note": "Violated: an extractor error leaves the document node (C158_extractor_violated), a short embedder answer panics (C158_embedder_violated). C158_failed_partial: no edge changes and only nodes of the document, its chunks and entities can."},
 {"property": "C159", "status": "proved", "theorems": ["Verif.Ingest.C159_ingested", "Verif.Ingest.C159_dimension"], "note": ""},
 {"property": "C160", "status": "proved", "theorems": ["Verif.Ingest.C160_mean", "Verif.Ingest.C160_stored"], "note": ""},
 {"property": "C161", "status": "partial", "theorems": ["Verif.Thm.StoreIndex.C161_held_partial", "Verif.Thm.StoreIndex.C161_exact_partial", "Verif.Thm.StoreIndex.C161_delete", "Verif.Thm.StoreIndex.C161_deleteBatch", "Verif.Thm.StoreIndex.C161_deleteByFilter", "Verif.Thm.StoreIndex.C161_update_violated", "Verif.Thm.StoreIndex.C161_rewrite_violated", "Verif.Thm.StoreIndex.C161_bulk_violated", "Verif.Thm.StoreIndex.C161_document_violated"], "note": "held and exact are proved for histories that do not write under an id the index has ever held (exact) or whose entry was removed (held), with the index as in Model/Hnsw (index_laws). Violated by the code: an update keeps the old vector in the index, a record removed and written again can never be reached, Clear/DeleteByDocID/ClearByDocID/DeleteCollection leave all entries, DeleteDocument can take entries of records that stay."},
 {"property": "C162", "status": "partial", "theorems": ["Verif.Thm.StoreIvf.C162_exact_partial", "Verif.Thm.StoreIvf.C162_update_violated"], "note": "proved for writes under new ids with vectors of the index's dimension, with the index as in Model/Ivf (ivf_laws). Violated: an update lists the record twice and a later removal leaves one entry behind."},
 {"property": "C163", "status": "partial", "theorems": ["Verif.Thm.StoreColl.C163_any_violated", "Verif.Thm.StoreColl.C163_upsert", "Verif.Thm.StoreColl.C163_upsertBatch", "Verif.Thm.StoreColl.C163_shown", "Verif.Thm.StoreColl.C163_unknown_refused", "Verif.Thm.StoreColl.C163_exists_partial", "Verif.Thm.StoreColl.C163_exists_violated"], "note": "existence of the collection holds on enforcing connections only; violated on the other pooled connections."},
 {"property": "C164", "status": "proved", "theorems": ["Verif.Facade.C164_inserted", "Verif.Facade.C164_refused", "Verif.Facade.C164_reasons"], "note": ""},
 {"property": "C165", "status": "partial", "theorems": ["Verif.Facade.C165_batch", "Verif.Facade.C165_failed", "Verif.Facade.C165_panic_violated", "Verif.Facade.C165_agrees_violated"], "note": "complete insertion and atomicity are proved for every visiting order; violated: too few vectors from the embedder panic (nothing is written), an empty text is skipped silently where InsertText refuses it."},
 {"property": "C166", "status": "partial", "theorems": ["Verif.Facade.C166_returned", "Verif.Facade.C166_collection", "Verif.Facade.C166_add", "Verif.Facade.C166_addText", "Verif.Facade.C166_failed", "Verif.Facade.C166_empty_violated"], "note": "violated: an empty text is accepted by Quick and refused by InsertText."},
 {"property": "C167", "status": "partial", "theorems": ["Verif.Facade.C167_info", "Verif.Facade.C167_similarity_violated"], "note": "violated: the similarity is always reported as cosine."},
 {"property": "C168", "status": "partial", "theorems": ["Verif.Train.C168_any_zero_violated", "Verif.Train.C168_longer_violated", "Verif.Train.C168_shorter_violated", "Verif.Train.C168_first", "Verif.Train.C168_shape", "Verif.Train.C168_mean_partial", "Verif.Train.C168_quality", "Verif.Train.C168_rounds", "Verif.Train.C168_zero_violated", "Verif.Train.C168_mixed_violated"], "note": "Violated in part: a cell that loses all its vectors gets the zero vector as its centre, and vectors of different dimensions make training panic. Proved otherwise on exact rational arithmetic: shape for all inputs, every centre a mean or zero, cost never above that of the chosen vectors and monotone in the number of rounds. For all inputs: a vector longer than the first makes training to two or more centroids panic; with a shorter one no round of averaging is ever finished."},
 {"property": "C169", "status": "partial", "theorems": ["Verif.Train.C169_trained", "Verif.Train.C169_search", "Verif.Train.C169_refused", "Verif.Train.C169_rows_partial", "Verif.Train.C169_failed_violated", "Verif.Train.C169_probe_violated"], "note": "Violated: a failed retraining (fewer records than cells, or a failed query) leaves a trained, empty index, so searches over it succeed with nothing; asking for another number of cells loses the configured number of probed cells. Proved: success lists every record once from any previous index and makes full-probe search exact; refusals change nothing; records never touched."},
 {"property": "C170", "status": "partial", "theorems": ["Verif.KnowRec.C170_saved", "Verif.KnowRec.C170_entities", "Verif.KnowRec.C170_shown_partial", "Verif.KnowRec.C170_others_partial", "Verif.KnowRec.C170_others", "Verif.KnowRec.C170_acl_violated", "Verif.KnowRec.C170_shared_violated", "Verif.KnowRec.C170_lost_violated", "Verif.KnowRec.C170_typed_violated"], "note": "Proved over all histories: fields, chunks, version, that every entity shown was found or given and is shown as last written, and that everything but the entities of other items stays. Partial: a mentioned entity is shown if its last type is 'entity' and the chunk has at most 29; entities of other items stay if the request writes shared entities as they are. Violated: saving over an item drops the document's access list and creation time (for every item and request); an entity given another type is not shown; entity nodes are shared, so another item's save renames or hides the entities an item shows; an entity given for a chunk that is not stored is left out silently."},
 {"property": "C171", "status": "partial", "theorems": ["Verif.KnowRec.C171_fields", "Verif.KnowRec.C171_rest_partial", "Verif.KnowRec.C171_forgets_violated", "Verif.KnowRec.C171_others_partial", "Verif.KnowRec.C171_others", "Verif.KnowRec.C171_shared_violated", "Verif.KnowRec.C171_rename_violated", "Verif.KnowRec.C171_metadata_violated"], "note": "Proved over all histories: named fields set, unnamed title, content, source, author, collection and (as text) metadata kept, version, everything but the entities of other items. Violated: any update naming title, content, collection or metadata drops the access list, the creation time, the chunk size and all entities that are not found again (universal theorem and a witness); metadata values that are not strings become strings; an update can hide entities another item shows. The guarded theorems cover updates of source, author and entities only, and other items whose entities are written as they are."},
 {"property": "C172", "status": "partial", "theorems": ["Verif.Thm.Reflect.C172_bound", "Verif.Thm.Reflect.C172_whole", "Verif.Thm.Reflect.C172_prefix_partial", "Verif.Thm.Reflect.C172_valid_violated"], "note": "Bytes are modelled (UTF-8 encoding of every code point). Proved: bound and whole text for all inputs; the prefix form under the exact guard that byte 177 starts a character. Violated: for every longer text with a character straddling byte 177 the snippet is not valid UTF-8."},
 {"property": "C173", "status": "partial", "theorems": ["Verif.Thm.Reflect.C173_layout_partial", "Verif.Thm.Reflect.C173_unlisted_violated", "Verif.Thm.Reflect.C173_none", "Verif.Thm.Reflect.C173_cut_partial", "Verif.Thm.Reflect.C173_cut_violated"], "note": "Proved for memories of the four known types; a memory of any other type (Retain accepts any) is dropped from the text. The cut at four bytes per token is valid text exactly when it falls between two characters."},
 {"property": "C174", "status": "partial", "theorems": ["Verif.Thm.ReflectMem.C174_kept_partial", "Verif.Thm.ReflectMem.C174_metadata_violated", "Verif.Thm.ReflectMem.C174_comma_violated", "Verif.Thm.ReflectMem.C174_moved_violated"], "note": "Proved under the guard: no reserved metadata key, no comma in and no empty entity; the metadata never comes back (general negation), an entity with a comma never does, and metadata under a reserved name overwrites bank or type. Confidence is kept to four decimals, time to the second. Number formatting is represented by the number printed."},
 {"property": "C175", "status": "partial", "theorems": ["Verif.Thm.ReflectMem.C175_listed_partial", "Verif.Thm.ReflectMem.C175_sources_violated", "Verif.Thm.ReflectMem.C175_bank"], "note": "Proved: listed exactly once with content, confidence and time. Sources, kind and reasoning never come back: they are read from metadata that scoredEmbeddingToMemory leaves empty. Fewer than 100 matching records are assumed (TopK 100)."},
 {"property": "C176", "status": "partial", "theorems": ["Verif.Thm.ReflectMem.C176_default_partial", "Verif.Thm.ReflectMem.C176_custom_violated"], "note": "Built on the record store model. Proved for the default name; for every other name each Retain is refused on a database without a collection called memories, because getCollection ignores the configuration."},
 {"property": "C177", "status": "partial", "theorems": ["Verif.Thm.SearchRefuse.C177_same_dim", "Verif.Thm.SearchRefuse.C177_other_dim_partial", "Verif.Thm.SearchRefuse.C177_closed", "Verif.Thm.SearchRefuse.C177_filter", "Verif.Thm.SearchRefuse.C177_empty_violated"], "note": "Equivalences for all stores and queries. Violated for the empty query: validation comes after adaptation, so a store that pads or truncates answers it. In SmartAdapt mode the padding is random noise of level zero for such a query; that mode is covered by the general equivalence."},
 {"property": "C178", "status": "partial", "theorems": ["Verif.QuantIndex.C178_batch_rows", "Verif.QuantIndex.C178_open_partial", "Verif.QuantIndex.C178_batch_partial", "Verif.QuantIndex.C178_off", "Verif.QuantIndex.C178_trained_partial", "Verif.QuantIndex.C178_fresh_violated", "Verif.QuantIndex.C178_retrain_violated", "Verif.QuantIndex.C178_batch_panics_violated"], "note": "C178_open_partial and C178_batch_partial give closeness for the first 1000 records and closeness to the clamped vector for the rest; C178_fresh_violated holds for every sequence of records: Upsert trains an untrained quantizer on the rows already stored, which at the second record is the first record alone."},
 {"property": "C179", "status": "partial", "theorems": ["Verif.QuantIndex.C179_saved", "Verif.QuantIndex.C179_history", "Verif.QuantIndex.C179_crash_before", "Verif.QuantIndex.C179_crash_between_partial", "Verif.QuantIndex.C179_first_snapshot_violated", "Verif.QuantIndex.C179_bits_violated"], "note": "C179_history and C179_saved cover complete snapshots for every history of openIndex and upserts; C179_crash_between_partial covers the crash between the statements when the quantizer on disk is current."},
 {"property": "C180", "status": "partial", "theorems": ["Verif.Tools.C180_same_tools", "Verif.Tools.C180_names_unique", "Verif.Tools.C180_fields", "Verif.Tools.C180_decodes_partial", "Verif.Tools.C180_map_violated", "Verif.Tools.C180_integer_violated", "Verif.Tools.C180_received"], "note": "The tables are transcribed from the source; json.Unmarshal and JSON Schema are modelled for the types that occur. C180_map_violated and C180_integer_violated hold for every tool with such a field and every accepted argument object."},
 {"property": "C181", "status": "partial", "theorems": ["Verif.MetaCompare.C181_text", "Verif.MetaCompare.C181_filter", "Verif.MetaCompare.C181_number_partial", "Verif.MetaCompare.C181_large_violated", "Verif.MetaCompare.C181_type_violated"], "note": "The format %g is a parameter; GoFormat states Go's rule for whole numbers. Floats that are not whole numbers are compared through the parameter only."},
 {"property": "C182", "status": "partial", "theorems": ["Verif.Csv.C182_reads_back_partial", "Verif.Csv.C182_success_violated", "Verif.Csv.C182_lines_full", "Verif.Csv.C182_whole_full", "Verif.Csv.C182_collection_violated", "Verif.Csv.C182_vector_violated"], "note": "Proved: the CSV text is read back exactly by an independent RFC 4180 reader for all field contents; JSON and JSON lines exports that report success are complete. Violated: the error of the last Flush of the CSV writer is not looked at, so up to the last 4096 bytes may be missing although success is reported (an export of at most 4096 bytes reports success on every disk); the CSV does not name the collection; a vector with NaN or infinities is written as an empty field without an error, where the JSON formats refuse."},
 {"property": "C183", "status": "partial", "theorems": ["Verif.Csv.C183_success", "Verif.Csv.C183_never_half", "Verif.Csv.C183_kept_partial", "Verif.Csv.C183_failure_violated", "Verif.Csv.C183_closed_violated", "Verif.Csv.C183_csv_violated"], "note": "Proved: on success the path holds exactly what was written; JSON lines files are never cut off. Violated: the file is emptied before the export starts and removed when it fails, so every failure (also a closed store) destroys the previous file; CSV files may be cut off (C182)."},
 {"property": "C184", "status": "partial", "theorems": ["Verif.IndexFile.C184_graph_back", "Verif.IndexFile.C184_cells_back", "Verif.IndexFile.C184_cut_refused", "Verif.IndexFile.C184_failed_violated", "Verif.IndexFile.C184_failed_partial", "Verif.IndexFile.C184_cells_violated", "Verif.IndexFile.C184_kind_violated", "Verif.IndexFile.C184_export_violated", "Verif.IndexFile.C184_export_full"], "note": "Proved: graph index round trip, inverted file Save/Load round trip, cut graph files are refused at every point, a successful export is complete. Violated: a refused file has already emptied or overwritten the index in memory; a store that uses only the inverted file can export but every import is refused; the file of an inverted file imported into a graph index store reports success and overwrites M and EfConstruction of the graph index; an export without an index empties the file that was there."},
 {"property": "C185", "status": "partial", "theorems": ["Verif.Facade.C185_any_violated", "Verif.Facade.C185_hybrid_refused", "Verif.Facade.C185_hybrid", "Verif.Facade.C185_present", "Verif.Facade.C185_found_partial", "Verif.Facade.C185_refused", "Verif.Facade.C185_collection", "Verif.Facade.C185_dot_violated"], "note": "Proved for stores without an index and every similarity that ranks no vector above the query itself (cosine, Euclidean), given that the adapted vector has the dimension of the store and finite components. Violated with the dot product, where a longer vector outranks the text itself. With an index the record must be among the proposals (C09, C32, C108)."},
 {"property": "C186", "status": "partial", "theorems": ["Verif.Chat.C186_session", "Verif.Chat.C186_session_kept", "Verif.Chat.C186_message", "Verif.Chat.C186_owned_partial", "Verif.Chat.C186_orphan_violated", "Verif.Chat.C186_vectors", "Verif.Chat.C186_nobody"], "note": "Proved for all histories. Violated: foreign keys are switched on for one connection of the pool only, so on the others a message for a session that does not exist is accepted; the guarded theorem covers histories on enforcing connections."},
 {"property": "C187", "status": "proved", "theorems": ["Verif.Memory.C187_save", "Verif.Memory.C187_update", "Verif.Memory.C187_delete", "Verif.Memory.C187_others"], "note": ""},
 {"property": "C188", "status": "proved", "theorems": ["Verif.Memory.C188_save_refused", "Verif.Memory.C188_never_blank", "Verif.Memory.C188_scope", "Verif.Memory.C188_default"], "note": ""},
 {"property": "C189", "status": "proved", "theorems": ["Verif.Memory.C189_best"], "note": ""},
 {"property": "C190", "status": "proved", "theorems": ["Verif.MemRec.C190_save", "Verif.MemRec.C190_update", "Verif.MemRec.C190_delete", "Verif.MemRec.C190_others", "Verif.MemRec.C190_refused"], "note": ""},
 {"property": "C191", "status": "partial", "theorems": ["Verif.MemRec.C191_first_violated", "Verif.MemRec.C191_user_partial", "Verif.MemRec.C191_global_violated", "Verif.MemRec.C191_session_violated", "Verif.MemRec.C191_semantic_violated"], "note": "True in the scope of a user (ids without a colon). In the global scope and in sessions shared by users the record names the user whose save created the bucket. The session reported is the internal bucket name. A semantic search reports no user at all (memory_api.go:163 passes an empty user)."},
 {"property": "C192", "status": "proved", "theorems": ["Verif.KnowSearch.C192_hits", "Verif.KnowSearch.C192_refused", "Verif.KnowSearch.C192_passes_through"], "note": ""},
 {"property": "C193", "status": "partial", "theorems": ["Verif.KnowSearch.C193_hints_violated", "Verif.KnowSearch.C193_hints_partial", "Verif.KnowSearch.C193_limits"], "note": "With an embedder and any mode but lexical SearchKnowledge builds the semantic query from Query alone: entity names, keywords and alternate queries have no effect, although the instructions given to models ask for them (C193_hints_violated, for all requests)."},
 {"property": "C194", "status": "proved", "theorems": ["Verif.Graph.C194_nodes", "Verif.Graph.C194_edges", "Verif.Graph.C194_set", "Verif.Graph.C194_lookups"], "note": ""},
 {"property": "C195", "status": "partial", "theorems": ["Verif.Errors.C195_is", "Verif.Errors.C195_wrap", "Verif.Errors.C195_not_found_partial", "Verif.Errors.C195_collection_violated"], "note": "GetCollection, DeleteCollection, GetNode, DeleteNode and DeleteEdge build their 'not found' errors without wrapping ErrNotFound, so callers cannot recognise them (C195_collection_violated, for every name)."},
 {"property": "C196", "status": "partial", "theorems": ["Verif.DimStats.C196_analysis", "Verif.DimStats.C196_empty", "Verif.DimStats.C196_same_partial", "Verif.DimStats.C196_tie_violated", "Verif.DimStats.C196_any_tie_violated"], "note": "When two dimensions are equally frequent the primary dimension depends on the map order, so two runs can differ (C196_tie_violated)."},
 {"property": "C197", "status": "partial", "theorems": ["Verif.Thm.ObserveText.C197_layout_partial", "Verif.Thm.ObserveText.C197_observations_violated"], "note": "Recalled memories of type observation (and of unknown types) get no line in the text (C197_observations_violated, for all lists)."},
 {"property": "C198", "status": "partial", "theorems": ["Verif.Logger.C198_any_violated", "Verif.Logger.C198_lines_partial", "Verif.Logger.C198_line", "Verif.Logger.C198_mixed_violated"], "note": "A logger made with With has a mutex of its own over the same writer; lines of the two can be mixed (C198_mixed_violated). Loggers that share one mutex are covered by C198_lines_partial."},
 {"property": "C199", "status": "proved", "theorems": ["Verif.Router.C199_each", "Verif.Router.C199_fails", "Verif.Router.C199_keeps", "Verif.Router.C199_hybrid", "Verif.Router.C199_hybrid_fails"], "note": "Proved for every router state (with or without store, cache, failed caches): the batch equals routing each query alone in the initial state, because a route whose vectors could not be had contributes nothing the first time and nothing later."},
 {"property": "C200", "status": "proved", "theorems": ["Verif.Router.C200_top", "Verif.Router.C200_all", "Verif.Router.C200_own"], "note": "Proved; sort.Slice and map order are parameters."},
 {"property": "C201", "status": "partial", "theorems": ["Verif.Hnsw.C201_links", "Verif.Hnsw.C201_hnsw", "Verif.Ivf.C201_ivf_partial", "Verif.Ivf.C201_ivf_retrain_violated", "Verif.Lsh.C201_lsh_partial", "Verif.Lsh.C201_lsh_violated"], "note": "HNSW proved in full over all histories. IVF: holds under the tidy histories of C34; retraining makes Stats report vectors and only empty clusters (negation for all states). LSH: holds when no present id is inserted again; re-inserting leaves duplicate items (negation)."},
 {"property": "C202", "status": "partial", "theorems": ["Verif.AutoSave.C202_off", "Verif.AutoSave.C202_one", "Verif.AutoSave.C202_after_close", "Verif.AutoSave.C202_dies_out", "Verif.AutoSave.C202_save_on_close_violated", "Verif.AutoSave.C202_min_changes_violated", "Verif.AutoSave.C202_two_violated"], "note": "Timer goroutines as steps. Proved: nothing is saved by timers when disabled, one save at a time for a store initialised once, none begins after Close, goroutines die out (weight decreases with every step). Negated for all states: SaveOnClose and MinChanges are never read, Init twice gives two concurrent savers."},
 {"property": "C203", "status": "partial", "theorems": ["Verif.Interleave.C203_apart_partial", "Verif.Interleave.C203_written_partial", "Verif.Interleave.C203_removed_partial", "Verif.Interleave.C203_ghost_violated", "Verif.Interleave.C203_serial", "Verif.Interleave.C203_lost_violated"], "note": "Proved: goroutines on different ids get the same rows, index and outcomes in every schedule; a record only written (never removed) is in the index at the end; a record only removed is never left in the index without its row. Violated for a write and a removal of the same id at the same time (ghost entry, lost record), for every starting state with such an id."},
 {"property": "C204", "status": "partial", "theorems": ["Verif.Interleave.C204_linear_partial", "Verif.Interleave.C204_index_violated", "Verif.Interleave.C204_sound"], "note": "Proved for the table (one transaction) when other goroutines use other ids; violated for the index, which is filled one record after the other."},
 {"property": "C205", "status": "partial", "theorems": ["Verif.Interleave.C205_written_partial", "Verif.Interleave.C205_removed", "Verif.Interleave.C205_again_violated"], "note": "Other goroutines use other ids. Violated for a record written again after its removal (the index refuses an id it ever held)."},
 {"property": "C206", "status": "partial", "theorems": ["Verif.DimRace.C206_once", "Verif.DimRace.C206_rows_partial", "Verif.DimRace.C206_empty_violated", "Verif.DimRace.C206_success", "Verif.DimRace.C206_accepted", "Verif.DimRace.C206_search_partial", "Verif.DimRace.C206_search_violated"], "note": "Built on the model of AdaptVector (C14). UpsertBatch neither reads nor sets the dimension (C13) and is left out. Searches are proved for a store whose dimension is known; violated while the first record is being written."},
 {"property": "C207", "status": "partial", "theorems": ["Verif.Hindsight.C207_any_roles_violated", "Verif.Hindsight.C207_covered_partial", "Verif.Hindsight.C207_sessions_violated", "Verif.Hindsight.C207_roles_violated"], "note": "Guard: one session, all roles count, extractions run at once (a delayed extraction can miss messages: C62_delay_violated). Violated for two sessions that take turns, for every length of the chat, and with a role filter."},
 {"property": "C208", "status": "partial", "theorems": ["Verif.Alias.C208_copies_partial", "Verif.Alias.C208_once_partial", "Verif.Alias.C208_reuse_violated", "Verif.Alias.C208_reuse_copies", "Verif.Alias.C208_cache_violated", "Verif.Alias.C208_cache_partial"], "note": "Refinement to an index that is handed values, for all histories: proved for the copying kinds, and for all kinds when no buffer is filled again after it was handed over. Violated for the sharing kinds: two records inserted from one buffer both get the second vector."},
 {"property": "C209", "status": "partial", "theorems": ["Verif.Knowledge.C209_apart_partial", "Verif.Knowledge.C209_sources_partial", "Verif.Knowledge.C209_mixed_violated", "Verif.Knowledge.C209_crossed_violated", "Verif.Knowledge.C209_delete_violated", "Verif.Knowledge.C209_any_mixed_violated", "Verif.Knowledge.C209_any_delete_violated", "Verif.Knowledge.C209_any_crossed_violated"], "note": "Proved: calls on different items, at every moment of every schedule, leave each item as the call alone (cut off somewhere, or whole once returned) would, other items untouched; saves of one item leave title and content of one request and only chunks of requests. False, for all states and requests: two first saves leave chunks of the longer text beside the shorter, two saves of a stored item leave the document of one with all the chunks of the other, a save racing a delete leaves an item without chunks. Statements that look up and then create or change a document are taken as one."},
 {"property": "C210", "status": "partial", "theorems": ["Verif.Memory.C210_vector", "Verif.Memory.C210_held_partial", "Verif.Memory.C210_atomic_partial", "Verif.Memory.C210_lost_violated", "Verif.Memory.C210_first_violated", "Verif.Memory.C210_emptied_violated", "Verif.Memory.C210_orphan_violated"], "note": "Proved for every schedule: text and vector always belong together; with foreign keys no memory is outside a bucket; calls on different memories have their full effect when they report success and none when they report an error, other memories untouched. False: an update of the text is lost to an update of another field (every state), the second of two first saves into a bucket fails (every request), a save fails when the bucket is emptied at the same time, and without foreign keys leaves a memory that cannot be read."},
 {"property": "C211", "status": "partial", "theorems": ["Verif.GraphRace.C211_present_partial", "Verif.GraphRace.C211_agree_partial", "Verif.GraphRace.C211_stale_violated", "Verif.GraphRace.C211_ghost_violated", "Verif.GraphRace.C211_missing_violated", "Verif.GraphRace.C211_enable_violated"], "note": "Violated by the code (no lock spans the table and the index): two writes of one node can leave the index with the older vector, a write and a delete can leave a deleted node in the index or a stored node out of it, a write during EnableHNSWIndex can be overwritten in the index by the old vector. Proved: with calls on different nodes the index agrees and each call has its effect; without deletes no stored node is ever missing, whatever is written or enabled meanwhile."},
 {"property": "C212", "status": "proved", "theorems": ["Verif.Thm.SearchHistory.C212_last_written", "Verif.Thm.SearchHistory.C212_once", "Verif.Thm.SearchHistory.C212_found"], "note": "End-to-end composition of the store history (C03) with the search path (C08, C09); completeness is stated for the linear path, since what an approximate index proposes is a parameter."},
 {"property": "C213", "status": "partial", "theorems": ["Verif.Thm.StoreExact.C213_exact_partial", "Verif.Thm.StoreExact.C213_scope_partial", "Verif.Thm.StoreExact.C213_larger_violated"], "note": "Composition of C161_exact_partial, C108_small_index_exact_partial and C09_index_topK about the store model with the HNSW model as its index. Partial: beyond 2M+1 ids (C213_larger_violated), for ids written twice and for removals that bypass the index the claim is false (C108_every_live_vector_found_violated, C161_rewrite_violated)."},
 {"property": "C214", "status": "partial", "theorems": ["Verif.Thm.StoreIvfExact.C214_vectors_partial", "Verif.Thm.StoreIvfExact.C214_trained", "Verif.Thm.StoreIvfExact.C214_exact_partial", "Verif.Thm.StoreIvfExact.C214_scope_partial", "Verif.Thm.StoreIvfExact.C214_probe_violated"], "note": "Proved over all histories in which every write uses a new id and every removal that reaches the index takes the last entry of its cell. Violated otherwise: fewer cells probed (C214_probe_violated), ids written again (C162_update_violated), removals from the middle of a cell (C34_delete_loses_next_violated)."},
 {"property": "C215", "status": "partial", "theorems": ["Verif.FtsQuery.C215_joined", "Verif.FtsQuery.C215_column", "Verif.FtsQuery.C215_prefix", "Verif.FtsQuery.C215_any", "Verif.FtsQuery.C215_all_partial", "Verif.FtsQuery.C215_refused_violated", "Verif.FtsQuery.C215_messages_partial", "Verif.FtsQuery.C215_messages_violated", "Verif.FtsQuery.C215_hybrid_partial", "Verif.FtsQuery.C215_hybrid_violated", "Verif.FtsQuery.C215_operators", "Verif.FtsQuery.C215_not_violated", "Verif.FtsQuery.C215_operator_refused_violated", "Verif.FtsQuery.C215_quoted"], "note": "Proved for words of letters, digits and non-ASCII characters (all of them for a question, any for an OR list), for questions with one operator word (C215_operators) for any text in quotation marks (C215_quoted), for words joined by + (C215_joined), behind a column filter (C215_column) and with a star (C215_prefix). Violated: the text is handed to FTS5 as it is, so a question mark, full stop, apostrophe, hyphen, comma or colon makes every such question fail (messages: error; hybrid and text search: silently nothing), the word NOT in capitals excludes the texts that have all words (C215_not_violated), and AND, OR, NOT at the start, at the end or in a row are refused (C215_operator_refused_violated); proved for all tables and all such texts. The grammar of FTS5 is part of the model; it was compared with SQLite 3.46 on 80000 random queries."},
 {"property": "C216", "status": "partial", "theorems": ["Verif.FtsMemory.C216_found_partial", "Verif.FtsMemory.C216_error_violated"], "note": "Proved for all histories when the bucket has no expired memories or at most four per place in the list. Violated: a question the index cannot read (for example one that ends in a question mark) makes the search fail when nothing matches, for all histories."},
 {"property": "C217", "status": "partial", "theorems": ["Verif.FtsChunks.C217_found_partial", "Verif.FtsChunks.C217_silent_violated"], "note": "Proved for an index without left-over entries (C133) and a positive limit (C70). Violated: a question with punctuation and only stop words finds nothing, whatever is stored, without an error."},
 {"property": "C218", "status": "proved", "theorems": ["Verif.RagSearch.C218_off", "Verif.RagSearch.C218_on", "Verif.RagSearch.C218_on_lexical"], "note": "Proved for both searches: C218_off (the same answer for every graph), C218_on and C218_on_lexical. The names found in a question are a parameter of the model."},
 {"property": "C219", "status": "partial", "theorems": ["Verif.Titles.C219_letters", "Verif.Titles.C219_sound", "Verif.Titles.C219_complete", "Verif.Titles.C219_none", "Verif.Titles.C219_missed_violated", "Verif.Titles.C219_question_word_violated"], "note": "Proved for names of ASCII capitalised words (C219_sound, C219_complete, C219_none); acronyms, names with inner capitals and names with other letters are missed (C219_missed_violated), and the first word of a capitalised question always counts as a name, so an open mode uses the graph (C219_question_word_violated). The expression is modelled with backtracking semantics and was compared with Python's re on 3000 random texts."},
 {"property": "C220", "status": "partial", "theorems": ["Verif.Thm.FilterMemory.C220_post_filter", "Verif.Thm.FilterMemory.C220_panics_violated"], "note": "Exact for every filter whose IN and BETWEEN comparisons have their lists and whose LIKE patterns have no characters special to regular expressions. Violation: IN or BETWEEN without a list panics, for every store with a record that has the field."},
 {"property": "C221", "status": "partial", "theorems": ["Verif.Large.C221_delete", "Verif.Large.C221_knowledge_violated", "Verif.Large.C221_neighbors", "Verif.Large.C221_limited", "Verif.Large.C221_neighbors_violated", "Verif.Large.C221_path", "Verif.Large.C221_search_partial", "Verif.Large.C221_search_violated", "Verif.Large.C221_hybrid_partial", "Verif.Large.C221_hybrid_violated"], "note": "Violated: each of these calls binds one parameter per item in a single statement, and SQLite accepts at most 32766. Proved for every limit: the graph deletions and batches are refused as a whole and change nothing (C221_delete); Neighbors and ShortestPath fail for a node with more neighbours or a path with as many edges, although the answer exists (C221_neighbors, C221_neighbors_violated, C221_path); a knowledge item with that many chunks can never be deleted or replaced (C221_knowledge_violated); a search through an index fails where reading the table would answer (C221_search_violated); and a hybrid search drops all keyword hits without an error (C221_hybrid_violated). Below the limit all of them are the calls of the other models."},
 {"property": "C222", "status": "partial", "theorems": ["Verif.StreamStore.C222_updates", "Verif.StreamStore.C222_scope", "Verif.StreamStore.C222_all_partial", "Verif.StreamStore.C222_bounds_violated", "Verif.StreamStore.C222_query_violated", "Verif.StreamStore.C222_failed_violated", "Verif.StreamStore.C222_parallel", "Verif.StreamStore.C222_pending_violated", "Verif.StreamStore.C222_panics_violated"], "note": "Scope, scores and at-most-once delivery for every schedule; completeness for prompt consumers. Limit and threshold are ignored by streams, the query is not checked, a failing read ends the stream without an error; pending updates ignore collection, filter, threshold and the default limit, and a negative limit panics (violated)."},
 {"property": "C223", "status": "partial", "theorems": ["Verif.Router.C223_weight", "Verif.Router.C223_weight_made", "Verif.Router.C223_sparse_add", "Verif.Router.C223_unique", "Verif.Router.C223_sparse_route", "Verif.Router.C223_route", "Verif.Router.C223_add_partial", "Verif.Router.C223_add_violated", "Verif.Router.C223_list_violated", "Verif.Router.C223_batch_violated", "Verif.Router.C223_alone_violated"], "note": "Sparse adding and routing, and the scores of hybrid answers, proved for all histories. A refused sparse route leaves the dense one added for good, also in batches; List omits sparse-only routes; a dense match may be no hybrid match (violated)."},
 {"property": "C224", "status": "partial", "theorems": ["Verif.HindStore.C224_times", "Verif.Thm.HindStore.C224_sound", "Verif.Thm.HindStore.C224_complete_partial", "Verif.Thm.HindStore.C224_crowded_violated", "Verif.Thm.HindStore.C224_seconds_violated", "Verif.Thm.HindStore.C224_no_vector_violated"], "note": "Partial. Any store and index: only memories of the bank whose stored time lies in the range. Without an index and with at most 5k memories in the bank exactly those. Violated in general: five times k more similar memories of other times hide one (the range is tested after the search), times are stored in whole seconds so a range that starts within a second loses that second's memories, and without a query vector nothing is found."},
 {"property": "C225", "status": "partial", "theorems": ["Verif.Hindsight.C225_strategy", "Verif.Thm.HindStore.C225_sound", "Verif.Thm.HindStore.C225_complete_partial", "Verif.Thm.HindStore.C225_crowded_violated", "Verif.Thm.HindStore.C225_named", "Verif.Thm.HindStore.C225_inside_violated", "Verif.Thm.HindStore.C225_no_vector_violated"], "note": "Partial. Any store and index: each memory once, only of the bank, its stored names containing a text asked for; small banks without an index exactly those, and a memory mentions every entity it was stored with. Violated in general: k more similar memories hide one, a name inside a longer name counts (Ann finds Anna), and without a query vector nothing is found."},
 {"property": "C226", "status": "partial", "theorems": ["Verif.Thm.HindStore.C226_sound", "Verif.Thm.HindStore.C226_complete_partial", "Verif.Thm.HindStore.C226_hundred_violated", "Verif.Thm.HindStore.C226_index_violated", "Verif.Thm.HindStore.C226_refused_violated"], "note": "Partial. Any store and index: only observations of the bank; without an index and with at most a hundred, exactly those, once each. Violated in general: the hundred and first is dropped, an index that proposes other ids hides observations, and a store that does not adapt vectors refuses the one-component query."},
 {"property": "C227", "status": "partial", "theorems": ["Verif.Patterns.C227_entities", "Verif.Patterns.C227_sources", "Verif.Patterns.C227_theme", "Verif.Patterns.C227_dislikes_violated", "Verif.Patterns.C227_one_memory_violated", "Verif.Patterns.C227_tie_violated", "Verif.Patterns.C227_theme_of_one_violated"], "note": "Proved as stated for the rule the code follows (detect_agrees shows the model refines the earlier one). What a user would take an observation to mean fails: 'dislikes' counts as a preference (C227_dislikes_violated), one memory naming an entity twice is enough (C227_one_memory_violated), a word repeated in one memory is a theme of all (C227_theme_of_one_violated), and the theme named depends on map order on ties (C227_tie_violated)."},
 {"property": "C228", "status": "partial", "theorems": ["Verif.Graph.C228_maps", "Verif.Graph.C228_answers", "Verif.Graph.C228_resurrected_violated"], "note": "C228_maps is a refinement to two maps for all histories; C228_answers says which calls succeed. The cascade happens only on connections that enforce foreign keys, one of the pool: on another, an edge survives its node and reappears when the id is used again (C228_resurrected_violated)."},
 {"property": "C229", "status": "partial", "theorems": ["Verif.Documents.C229_read", "Verif.Documents.C229_accepted", "Verif.Documents.C229_list", "Verif.Documents.C229_integer_violated", "Verif.Documents.C229_newest_violated", "Verif.Documents.C229_closed_violated"], "note": "C229_read, C229_accepted and C229_list hold for every history. C229_integer_violated: every accepted document with an integer in its metadata reads back different. C229_newest_violated: two documents created within the same second may be listed older first. C229_closed_violated: ListDocumentsWithFilter has no test for a closed store."},
 {"property": "C230", "status": "partial", "theorems": ["Verif.IncStore.C230_stored_partial", "Verif.IncStore.C230_refused", "Verif.IncStore.C230_only_accepted", "Verif.IncStore.C230_one_bad_violated", "Verif.IncStore.C230_closed_violated", "Verif.IncStore.C230_nil_violated", "Verif.IncStore.C230_deleted_violated"], "note": "Proved under every schedule: each record of the store is the original one or exactly an accepted update, and nothing else changes; without searches, refused updates, failures and other calls, closing stores the last accepted update of every id. Violated: one update without vector or with an unknown collection or document makes up to 99 accepted updates vanish without an error; a nil update is accepted and later ends the process; a closed store accepts updates and stores none; a record deleted after the update was accepted comes back."},
 {"property": "C231", "status": "partial", "theorems": ["Verif.HindClose.C231_paced", "Verif.HindClose.C231_refused", "Verif.HindClose.C231_waits_partial", "Verif.HindClose.C231_counted", "Verif.HindClose.C231_returns", "Verif.HindClose.C231_overlap_violated"], "note": "Proved for extractions whose AddMessage had returned when Close was called (C231_waits_partial), for the count of the wait group and the open database (C231_counted) and for Close returning (C231_returns). Violated for calls that overlap with Close (C231_overlap_violated, for all states): Close waits only for extractions already registered, so a call between its write and the registration returns without error while its extraction finds the database closed and loses the facts."},
 {"property": "C232", "status": "partial", "theorems": ["Verif.MemRec.C232_apart_partial", "Verif.MemRec.C232_chat_keeps", "Verif.MemRec.C232_save_violated", "Verif.MemRec.C232_delete_violated", "Verif.MemRec.C232_refused_violated", "Verif.MemRec.C232_listed_violated", "Verif.MemRec.C232_once", "Verif.MemRec.C232_taken", "Verif.MemRec.C232_message", "Verif.MemRec.C232_added", "Verif.MemRec.C232_candidates"], "note": "C232_apart_partial: for every mixed history in which no session is named memory:... and no chat message shares its id with a memory, both halves are exactly what they are alone. C232_chat_keeps needs no proviso: chat calls never change a stored memory, nor the history of a session they do not name. Violated otherwise: both interfaces write the tables sessions and messages, so for every state SaveMemory with the id of a chat message succeeds and takes the message out of its session (C232_save_violated), DeleteMemory with such an id deletes it and, when it was the last, its session (C232_delete_violated), AddMessage with the id of a memory is refused (C232_refused_violated), and the searches over the messages of a user choose from the memories too (C232_listed_violated)."},
 {"property": "C233", "status": "partial", "theorems": ["Verif.BankGraph.C233_apart_partial", "Verif.BankGraph.C233_retain_violated", "Verif.BankGraph.C233_create_violated", "Verif.BankGraph.C233_delete_violated", "Verif.BankGraph.C233_invented_violated", "Verif.BankGraph.C233_forgotten_violated", "Verif.BankGraph.C233_entity_node", "Verif.BankGraph.C233_bank_node", "Verif.BankGraph.C233_bank_back", "Verif.BankGraph.C233_found", "Verif.BankGraph.C233_gone"], "note": "C233_apart_partial: for every mixed history in which entity names and bank ids are not ids of the graph's own nodes or ends of its edges, and no caller of the graph writes a node of type bank, nodes, edges and banks (also after a restart) are what each interface alone makes them. Violated otherwise, for every state: retaining a memory about an entity replaces the node of that id by an entity node with a zero vector and no properties (C233_retain_violated), creating a bank replaces the node of its id (C233_create_violated), deleting it removes the node and its edges (C233_delete_violated), a graph node of type bank becomes a bank at the next start (C233_invented_violated), and deleting the node of a bank makes the bank vanish at the next start but not before (C233_forgotten_violated)."},
 {"property": "C234", "status": "partial", "theorems": ["Verif.Thm.StoreColl.C234_separate_partial", "Verif.Thm.StoreColl.C234_moved_violated"], "note": "C234_separate_partial: over every history of calls that name other ids and other collections, a collection holds under an id exactly what it held. Violated (C234_moved_violated, every state): ids are the primary key of the whole store, so a successful Upsert under the same id into another collection takes the record out of the first. Calls that select by metadata or document, and Clear, act on all collections by design and are not in the claim."},
 {"property": "C235", "status": "partial", "theorems": ["Verif.Thm.StoreColl.C235_ignored_violated", "Verif.Thm.StoreColl.C235_any_violated", "Verif.Thm.StoreColl.C235_store_partial"], "note": "Violated for every state: the declared dimension takes no part in writing at all (C235_ignored_violated: with any other declared dimensions the same calls give the same outcome and store the same), and any vector of the store's dimension, or any vector while none is fixed, is stored unchanged in a collection of any other dimension (C235_any_violated). C235_store_partial: when the store's own dimension is the declared one, Upsert stores vectors of that dimension; batches are not covered (C13)."},
 {"property": "C236", "status": "partial", "theorems": ["Verif.Handles.C236_read", "Verif.Handles.C236_last_write", "Verif.Handles.C236_dimension_violated", "Verif.Handles.C236_dimension_partial"], "note": "Reading and soundness hold for every history over any number of handles. The dimension claim is violated by handles that detect the dimension themselves: each keeps its own. It is proved for handles opened with one fixed dimension and batches of that dimension. Calls are atomic steps."},
 {"property": "C237", "status": "partial", "theorems": ["Verif.Handles.Ix.C237_unseen_violated", "Verif.Handles.Ix.C237_lost_violated", "Verif.Handles.Ix.C237_writer_partial", "Verif.Handles.Ix.C237_reader_partial"], "note": "Violated: an open handle never learns what others write, and the index of the handle that closes last replaces the saved one, so that a committed record is not found by any later opening. Proved when one handle writes and the others only read: the writer is as if alone, and a handle opened later finds every record as long as no index was saved."},
 {"property": "C238", "status": "partial", "theorems": ["Verif.Knowledge.C238_apart_partial", "Verif.Knowledge.C238_save_partial", "Verif.Knowledge.C238_replaced_violated", "Verif.Knowledge.C238_orphans_violated"], "note": "Proved: an item keeps document and chunks through every history of calls none of which names it, writes a record of it or uses an id of one of its chunks (C238_apart_partial); a successful save leaves exactly what was saved when the item had a document or no chunks (C238_save_partial). Violated: a record stored under a chunk's id takes the chunk while the document stays (C238_replaced_violated); DeleteDocument of the store leaves every graph node of the item, which can then be neither deleted nor updated, and a new save removes none of them (C238_orphans_violated)."},
 {"property": "C239", "status": "partial", "theorems": ["Verif.Quant.C239_scalar_partial", "Verif.Quant.C239_binary_partial", "Verif.Quant.C239_new_partial", "Verif.Quant.C239_untrained_violated"], "note": "Proved: trained quantizers with components come back whatever the receiver held (C239_scalar_partial, C239_binary_partial); any quantizer comes back in a new one of the same kind (C239_new_partial). Violated: gob does not send zero fields, so an untrained quantizer loaded into a trained one counts as trained and codes with empty ranges (C239_untrained_violated)."},
 {"property": "C240", "status": "partial", "theorems": ["Verif.Quant.C240_project", "Verif.Quant.C240_linear", "Verif.Quant.C240_code_partial", "Verif.Quant.C240_encode_violated", "Verif.Quant.C240_length_violated", "Verif.Quant.C240_saved_violated", "Verif.Quant.C240_trained_partial", "Verif.Quant.C240_refused"], "note": "Proved: projection gives the scalar products with the rows and is linear (C240_project, C240_linear); projecting first and coding then gives the signs against the thresholds (C240_code_partial). Violated: Encode and Train do not project and refuse vectors of the input dimension (C240_encode_violated); longer vectors panic and shorter ones are padded silently (C240_length_violated); the projections are not saved (C240_saved_violated)."},
 {"property": "C241", "status": "partial", "theorems": ["Verif.BinaryIndex.C241_seen", "Verif.BinaryIndex.C241_absent", "Verif.BinaryIndex.C241_raw_partial", "Verif.BinaryIndex.C241_same_partial", "Verif.BinaryIndex.C241_off_violated", "Verif.BinaryIndex.C241_replaced_violated"], "note": "For every history of insertions and quantizer changes the vector the index works with is stated outright (C241_seen, C241_absent). Records inserted without a quantizer keep their vectors (C241_raw_partial); a coded record keeps its meaning exactly if the new quantizer reads its code alike (C241_same_partial). Violated: switching quantization off puts every coded record at the largest distance (C241_off_violated), and another quantizer reads old codes with its own thresholds (C241_replaced_violated)."},
 {"property": "C242", "status": "partial", "theorems": ["Verif.BinaryIndex.C242_open_partial", "Verif.BinaryIndex.C242_same_violated", "Verif.BinaryIndex.C242_fresh_violated"], "note": "Stated outright which vector the index sees for a record: the sides of the means on which its components lie (C242_open_partial). Violated: two records are the same to the index exactly when no component lies on different sides (C242_same_violated); in a new store the sides are those of the first record alone (C242_fresh_violated)."},
 {"property": "C243", "status": "partial", "theorems": ["Verif.BinaryIndex.C243_raw_partial", "Verif.BinaryIndex.C243_to_binary_violated", "Verif.BinaryIndex.C243_to_scalar_violated"], "note": "Records kept uncoded are unaffected (C243_raw_partial). Violated in both directions for eight components or more and two bits or more: gob fills only the fields of the same name, the quantizer counts as trained, and every coded record is at the largest distance (C243_to_binary_violated, C243_to_scalar_violated)."},
 {"property": "C244", "status": "partial", "theorems": ["Verif.Thm.Retry.C244_tables", "Verif.Thm.Retry.C244_upsert", "Verif.Thm.Retry.C244_batch", "Verif.Thm.Retry.C244_answers", "Verif.Graph.C244_graph", "Verif.Memory.C244_memory", "Verif.Chat.C244_chat", "Verif.Thm.StoreIvf.C244_ivf_violated"], "note": "All calls of the store model, of the graph API (batches included), saving a memory, creating a session and adding a message. Violated for the trained inverted file: each repetition adds an entry."},
 {"property": "C245", "status": "partial", "theorems": ["Verif.Thm.Retry.C245_store_partial", "Verif.Thm.Retry.C245_first_violated", "Verif.Graph.C245_graph", "Verif.Graph.C245_edge_first_violated"], "note": "Proved for any permutation of single writes and deletions with different ids when the dimension is fixed; violated for the first write of a store without dimension and for an edge sent before its nodes."},
 {"property": "C246", "status": "partial", "theorems": ["Verif.Ratio.C246_scalar_partial", "Verif.Ratio.C246_scalar_violated", "Verif.Ratio.C246_binary_partial", "Verif.Ratio.C246_binary_violated", "Verif.Ratio.C246_product", "Verif.Ratio.C246_index", "Verif.Ratio.C246_untrained_violated"], "note": "Proved exactly for the product quantizer, and for scalar and binary quantizers whose codes fill whole bytes; every other scalar or binary quantizer reports more than any code saves (violated, for all of them). In an index with a trained quantizer a record takes its code and no more; a record inserted before training takes four bytes for each coordinate, also after training (violated, for all states)."},
 {"property": "C247", "status": "partial", "theorems": ["Verif.Flat.C247_flat_partial", "Verif.Flat.C247_flat_violated", "Verif.Lsh.C247_lsh_partial", "Verif.Lsh.C247_lsh_violated", "Verif.MultiIndex.C247_merge_partial", "Verif.MultiIndex.C247_voting_partial", "Verif.MultiIndex.C247_merge_violated", "Verif.Graph.C247_graph_partial", "Verif.Graph.C247_graph_violated", "Verif.Hindsight.C247_recall_partial", "Verif.Hindsight.C247_recall_violated", "Verif.Memory.C247_memory", "Verif.Router.C247_terms_partial", "Verif.Router.C247_terms_violated", "Verif.Thm.Search.C247_hybrid_partial", "Verif.Thm.Search.C247_hybrid_violated"], "note": "Keyword search of memories breaks ties by id and is proved to repeat itself outright. The exact index, the hashing index, merged and voting indexes, hybrid search over the graph and over the store, recall and the strongest terms repeat themselves when no two scores are equal; each may answer differently on a tie, for every tied state in the exact index, the graph and the terms, by a witness elsewhere. Recall is compared by ids and scores."},
 {"property": "C248", "status": "partial", "theorems": ["Verif.Flat.C248_flat_partial", "Verif.Flat.C248_flat_violated", "Verif.Lsh.C248_lsh", "Verif.Graph.C248_graph_partial", "Verif.Router.C248_terms", "Verif.Chat.C248_chat", "Verif.Chat.C248_keyword", "Verif.Chat.C248_user", "Verif.Chat.C248_history", "Verif.Thm.Search.C248_linear_partial", "Verif.Thm.Search.C248_acl", "Verif.Thm.Search.C248_hybrid_violated", "Verif.Diversity.C248_diverse_partial", "Verif.Rerank.C248_rerank_partial"], "note": "Outright for the hashing index, the terms of a sparse vector, search with access control, and the four searches and histories over messages. Exact index: when no two distances from the query are equal; violated otherwise even when the map is visited in the same order, because of two equally near records one is kept by a heap of size one and the other comes first in a heap of size two. Fused search of the store violated: its vector half fetches as many records as are asked for, so a larger limit can bring a record to the top. Vector search: the scan of the table; an approximate index is not covered. Graph search: without a vector index. Diversified search: when three times the limit finds no more. Reranked search: up to ten results, for which the candidates are always fifty."},
 {"property": "C249", "status": "proved", "theorems": ["Verif.Flat.C249_radius", "Verif.Thm.Search.C249_search", "Verif.Thm.Search.C249_principals", "Verif.Range.C249_range", "Verif.Graph.C249_depth"], "note": "Exact index: radius. Store: radius, filter and collection of range search; threshold, filter and collection of the search that scans the table, with a limit at least the number of records; principals of the search with access control. Graph: depth, edge types and node types of the neighbourhood, without a limit."},
 {"property": "C250", "status": "partial", "theorems": ["Verif.Thm.Search.C250_search", "Verif.Thm.Search.C250_acl_partial", "Verif.Thm.Search.C250_acl_violated", "Verif.Range.C250_range", "Verif.Graph.C250_types"], "note": "Outright for the search that scans the table, range search and the neighbourhood in the graph. Search with access control: for callers without principals or when every record has readers; violated by every store with a record without readers outside the collection, which every caller with a principal gets."},
 {"property": "C251", "status": "partial", "theorems": ["Verif.Flat.C251_flat", "Verif.Thm.Search.C251_search_partial", "Verif.Thm.Search.C251_acl_partial", "Verif.Thm.Search.C251_first_violated", "Verif.Graph.C251_neighbors"], "note": "Outright for the exact index and the neighbourhood of a node. Search of the table and search with access control: for stores that have a dimension. Violated by every store without one, as a batch into a new store leaves it: the first single write sets the dimension, queries are then adapted to it, and all records of another length score 0."},
 {"property": "C252", "status": "partial", "theorems": ["Verif.Thm.Search.C252_search", "Verif.Thm.Search.C252_acl_violated", "Verif.Range.C252_range_violated", "Verif.Chat.C252_user", "Verif.Chat.C252_history_violated", "Verif.Chat.C252_chat_violated", "Verif.Memory.C252_memory", "Verif.GraphTools.C252_entities", "Verif.Router.C252_terms_violated", "Verif.Diversity.C252_diverse_violated", "Verif.Flat.C252_flat_violated"], "note": "Holds for vector search by every index (ten), the two searches over a user's messages (ten), memories (five) and chunks by entities (ten, and one hop). Violated for every store or session by search with access control and range search (everything), session history (zero: nothing, negative: everything), search of a session (zero: nothing, negative: panic), diversified search (marginal relevance and distance: one result; random choice with a negative limit: panic), and the strongest terms (all terms; this one is documented)."},
 {"property": "C253", "status": "partial", "theorems": ["Verif.Thm.Search.C253_store", "Verif.Range.C253_range", "Verif.Diversity.C253_diverse_partial", "Verif.Diversity.C253_random_violated", "Verif.Diversity.C253_rerank", "Verif.Flat.C253_flat", "Verif.Chat.C253_chat", "Verif.Graph.C253_graph"], "note": "Holds for vector search by every index, fused search, search with access control, range search, reranked search, the exact index, sessions without messages (limits that are not negative) and hybrid search over a graph without nodes. Diversified search: for limits that are not negative; violated by the random choice, which panics on every empty store when the limit is negative."},
 {"property": "C254", "status": "partial", "theorems": ["Verif.Ivf.C254_ivf_partial", "Verif.Ivf.C254_tie_violated"], "note": "Partial: a vector half way between two centroids is put into the list of the first, while a search for it may probe only the second (sort.Slice promises no order for equal distances): C254_tie_violated. Deletions of a vector that is not the last of its cluster and retraining of a filled index are excluded as in C34."},
 {"property": "C255", "status": "partial", "theorems": ["Verif.MockEmbed.C255_length", "Verif.MockEmbed.C255_batch", "Verif.MockEmbed.C255_prefix", "Verif.MockEmbed.C255_range", "Verif.MockEmbed.C255_range_violated", "Verif.MockEmbed.C255_distinct_violated", "Verif.MockEmbed.C255_distinct_partial", "Verif.MockEmbed.C255_letters", "Verif.MockEmbed.C255_negative_violated"], "note": "Partial: components are between -2 and 2, not -1 and 1 as the source says (C255_range, C255_range_violated); any two texts that differ only in Aa and BB share their vector (C255_distinct_violated), and C255_distinct_partial says exactly which texts do; a negative dimension panics (C255_negative_violated)."},
 {"property": "C256", "status": "partial", "theorems": ["Verif.Normalize.C256_unit", "Verif.Normalize.C256_scale", "Verif.Normalize.C256_again", "Verif.Normalize.C256_distance", "Verif.Normalize.C256_back_violated", "Verif.Normalize.C256_back_partial"], "note": "Over the reals. Partial: GetVector returns the scaled vector, not the one inserted (C256_back_violated for every vector whose length is neither zero nor one)."},
 {"property": "C257", "status": "partial", "theorems": ["Verif.Router.C257_router", "Verif.Router.C257_hybrid", "Verif.Router.C257_topk_violated", "Verif.Router.C257_threshold", "Verif.Router.C257_nil_violated"], "note": "Partial: WithTopK changes no answer (C257_topk_violated, for all option lists and queries); WithSimilarityFunc(nil) is accepted and makes every query panic once a route has vectors (C257_nil_violated)."}
]}
