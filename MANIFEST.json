{
 "claims": [
  {
   "property": "C01",
   "status": "proved",
   "theorems": [
    "Verif.HopCache.C01_hopcache_last_write"
   ],
   "note": ""
  },
  {
   "property": "C02",
   "status": "proved",
   "theorems": [
    "Verif.OsmIdSet.C02_no_false_negative"
   ],
   "note": "Any hash functions, block and sort buffer sizes; full reads and writes assumed."
  },
  {
   "property": "C03",
   "status": "proved",
   "theorems": [
    "Verif.OsmIdSet.C03_exact_answer",
    "Verif.OsmIdSet.C03_false_positive_exists"
   ],
   "note": "Includes a witness that the proviso is needed."
  },
  {
   "property": "C04",
   "status": "proved",
   "theorems": [
    "Verif.OsmIdSet.C04_external_sort",
    "Verif.OsmIdSet.C04_extSort"
   ],
   "note": ""
  },
  {
   "property": "C05",
   "status": "proved",
   "theorems": [
    "Verif.OsmIdSet.C05_query_stable",
    "Verif.OsmIdSet.C05_frozen_after_query",
    "Verif.OsmIdSet.C05_rejected_after_query",
    "Verif.OsmIdSet.C05_no_fault"
   ],
   "note": ""
  },
  {
   "property": "C06",
   "status": "proved",
   "theorems": [
    "Verif.Shapes.C06_read_back",
    "Verif.Shapes.C06_removed_absent",
    "Verif.Shapes.C06_distinct_ids_all_back",
    "Verif.Shapes.C06_limit_no_points",
    "Verif.Shapes.C06_limit_whitespace",
    "Verif.Shapes.C06_limit_readded"
   ],
   "note": "Exact content of the read-back for every history; three theorems show that the provisos (at least one point, no white space, no re-adding) are needed."
  },
  {
   "property": "C07",
   "status": "partial",
   "theorems": [
    "Verif.Shapes.C07_shapes_file",
    "Verif.Shapes.C07_dropped_absent",
    "Verif.Shapes.C07_no_mixture_partial",
    "Verif.Shapes.Workers.C07_program_no_mixture_partial",
    "Verif.Shapes.Workers.C07_negation"
   ],
   "note": "Content and absence of dropped shapes proved for every history. \"No id carries points of two shapes\" is false of the program when an old id of the form shp_<type>_<n> is dropped and handed out again (C07_negation); proved for the code as it is (without atomic counters) when no matched trip has an old shape with an id of this form, so always without --drop-shapes; see also C85."
  },
  {
   "property": "C08",
   "status": "proved",
   "theorems": [
    "Verif.Shapes.Workers.C08_ids_distinct",
    "Verif.Shapes.Workers.C08_id_free_when_handed",
    "Verif.Shapes.Workers.C08_search_ends"
   ],
   "note": "All schedules of atomic critical sections, any number of threads, one builder."
  },
  {
   "property": "C09",
   "status": "proved",
   "theorems": [
    "Verif.Trie.C09_alike_share",
    "Verif.Trie.C09_spells"
   ],
   "note": "Every history of normal and degenerate calls; position test reflexive; C09_alike_share: equal trips always share a node."
  },
  {
   "property": "C10",
   "status": "proved",
   "theorems": [
    "Verif.Trie.C10_stats"
   ],
   "note": "Trips, accumulated time and merged attributes of every node; times as unbounded integers."
  },
  {
   "property": "C11",
   "status": "proved",
   "theorems": [
    "Verif.Trie.C11_add_effect",
    "Verif.Trie.C11_filed",
    "Verif.Trie.C11_new_accepts"
   ],
   "note": ""
  },
  {
   "property": "C12",
   "status": "proved",
   "theorems": [
    "Verif.Trie.C12_alike_share",
    "Verif.Trie.C12_each_trip_once",
    "Verif.Trie.C12_schedule_independent",
    "Verif.Trie.C12_limit_no_threads"
   ],
   "note": "All schedules of the cluster workers, any number of threads; C12_limit_no_threads shows that a reported hardware concurrency of zero is undefined behaviour; C12_alike_share: equal trips of a group always share a node (without the trie and with times this needs first departures)."
  },
  {
   "property": "C13",
   "status": "proved",
   "theorems": [
    "Verif.Router.C13_one_hop_per_pair"
   ],
   "note": "For the candidate table built by getECM, finite penalties and cost sums; the hop calculation, weights and shortest path search are arbitrary."
  },
  {
   "property": "C14",
   "status": "proved",
   "theorems": [
    "Verif.Router.C14_optimal",
    "Verif.Router.C14_cheapest",
    "Verif.Router.C14_limit_fallback_wraps"
   ],
   "note": "With respect to the transitions the hop calculation returned and the documented fallbacks. C14_limit_fallback_wraps: the fallback costs wrap around in 32 bits."
  },
  {
   "property": "C15",
   "status": "proved",
   "theorems": [
    "Verif.Weights.C15_cost_history",
    "Verif.Weights.C15_heur_history"
   ],
   "note": "Every history of calls, cost function and heuristic."
  },
  {
   "property": "C16",
   "status": "proved",
   "theorems": [
    "Verif.Weights.C16_best_line",
    "Verif.Weights.C16_best_unique",
    "Verif.Weights.C16_exact",
    "Verif.Weights.C16_not_cheaper",
    "Verif.Weights.C16_no_wrap",
    "Verif.Weights.C16_limit_name_factor_one"
   ],
   "note": "Exact value without bounds, cut off at the maximum. Finding C16_limit_name_factor_one: with a line name factor of 1 the origin and destination factors are ignored."
  },
  {
   "property": "C17",
   "status": "proved",
   "theorems": [
    "Verif.HopCache.C17_addNonOverflow_spec",
    "Verif.HopCache.C17_addNonOverflow_comm",
    "Verif.HopCache.C17_addNonOverflow_assoc",
    "Verif.HopCache.C17_addNonOverflow_mono"
   ],
   "note": ""
  },
  {
   "property": "C18",
   "status": "partial",
   "theorems": [
    "Verif.Restrictor.C18_resolved",
    "Verif.Restrictor.C18_interleaving",
    "Verif.Restrictor.C18_set_partial",
    "Verif.Restrictor.C18_negation",
    "Verif.Restrictor.C18_limit_two_edges"
   ],
   "note": "Every interleaving with one edge per node and way. \"Only on the set\" is false if two mandatory rules of one edge name different targets: the one read first wins (C18_negation); independence of the order proved otherwise (C18_set_partial). C18_limit_two_edges: the proviso is needed."
  },
  {
   "property": "C19",
   "status": "proved",
   "theorems": [
    "Verif.Restrictor.C19_meaning",
    "Verif.Restrictor.C19_u_turns_ignored"
   ],
   "note": "For every rule set. Finding C19_u_turns_ignored: restrictions from a way to itself are never resolved."
  },
  {
   "property": "C20",
   "status": "proved",
   "theorems": [
    "Verif.Restrictor.C20_split",
    "Verif.Restrictor.C20_split_touching",
    "Verif.Restrictor.C20_twin",
    "Verif.Restrictor.C20_limit_loop"
   ],
   "note": "For edges that are not loops and new edges without rules; loops are split wrongly (C20_limit_loop)."
  },
  {
   "property": "C21",
   "status": "proved",
   "theorems": [
    "Verif.BBoxIdx.C21_reported",
    "Verif.BBoxIdx.C21_covers",
    "Verif.BBoxIdx.C21_full_box",
    "Verif.BBoxIdx.C21_leafs"
   ],
   "note": "For every common area function; only the root ever has several children, which makes the first-child descent complete."
  },
  {
   "property": "C22",
   "status": "proved",
   "theorems": [
    "Verif.Normalizer.C22_function",
    "Verif.Normalizer.C22_agree",
    "Verif.Normalizer.C22_equal"
   ],
   "note": "With copies and assignments. The text omits that the result is also lower-cased."
  },
  {
   "property": "C23",
   "status": "proved",
   "theorems": [
    "Verif.Payload.C23_markers",
    "Verif.Payload.C23_other_nodes",
    "Verif.Payload.C23_limit_count",
    "Verif.Payload.C23_copies_share"
   ],
   "note": "Histories without copies or without changes through the station pointer; with both, copies share the info (C23_copies_share). The bound on the number of infos is needed (C23_limit_count)."
  },
  {
   "property": "C24",
   "status": "proved",
   "theorems": [
    "Verif.Payload.C24_refcounts",
    "Verif.Payload.C24_deep_copies_independent",
    "Verif.Payload.C24_assignment_breaks"
   ],
   "note": "Every history and every allocator. The implicit assignment operator is excluded (C24_assignment_breaks); the program does not use it."
  },
  {
   "property": "C25",
   "status": "proved",
   "theorems": [
    "Verif.Names.C25_line_iff",
    "Verif.Names.C25_line_refl_symm",
    "Verif.Names.C25_stat_iff",
    "Verif.Names.C25_stat_refl_symm",
    "Verif.Names.C25_ed_classifier",
    "Verif.Names.C25_ed_empty_not_reflexive"
   ],
   "note": "Quotients computed exactly. The edit distance classifier is reflexive on non-empty names only (C25_ed_empty_not_reflexive)."
  },
  {
   "property": "C26",
   "status": "proved",
   "theorems": [
    "Verif.Names.C26_iff",
    "Verif.Names.C26_symm"
   ],
   "note": ""
  },
  {
   "property": "C27",
   "status": "partial",
   "theorems": [
    "Verif.Names.C27_merge_set",
    "Verif.Names.C27_merge_order",
    "Verif.Names.C27_grouping",
    "Verif.Names.C27_strict_weak",
    "Verif.Names.C27_simi_partial",
    "Verif.Names.C27_negation",
    "Verif.Names.C27_program_loses_destinations",
    "Verif.Trie.C27_cluster_first_attrs"
   ],
   "note": "Merged set, order independence and grouping proved. \"Similarity after a merge takes the merged destinations into account\" is false in general because merge keeps the memo (C27_negation); proved when all merges precede the queries. C27_program_loses_destinations: clustering merges only the first trip of a group."
  },
  {
   "property": "C28",
   "status": "proved",
   "theorems": [
    "Verif.Osm.C28_flags",
    "Verif.Osm.C28_decisions",
    "Verif.Osm.C28_level",
    "Verif.Osm.C28_order",
    "Verif.Osm.C28_list_items",
    "Verif.Osm.C28_limit_list_parts",
    "Verif.Osm.C28_limit_flags"
   ],
   "note": "Decisions as truth values. The flags that come along depend on the iteration order of the hash map (C28_limit_flags); rules on value lists also hit parts of items (C28_limit_list_parts)."
  },
  {
   "property": "C29",
   "status": "partial",
   "theorems": [
    "Verif.Osm.C29_kept_partial",
    "Verif.Osm.C29_negation_level",
    "Verif.Osm.C29_negation_type"
   ],
   "note": "False for the keys of level 7 rules (C29_negation_level) and for the attribute type of turn rules (C29_negation_type), proved for everything else."
  },
  {
   "property": "C30",
   "status": "partial",
   "theorems": [
    "Verif.Osm.C30_merged_keeps_partial",
    "Verif.Osm.C30_negation"
   ],
   "note": "False if two configurations have the same rule with different flags (C30_negation)."
  },
  {
   "property": "C31",
   "status": "partial",
   "theorems": [
    "Verif.Osm.C31_written_partial",
    "Verif.Osm.C31_closed",
    "Verif.Osm.C31_order",
    "Verif.Osm.C31_negation"
   ],
   "note": "The contents of the file are characterised completely. Missing: the first relation is lost if the last way is written or there is no way (C31_negation). Unchanged means: the kept attributes, positions as values (the program prints 6 decimals)."
  },
  {
   "property": "C32",
   "status": "proved",
   "theorems": [
    "Verif.Osm.C32_ways",
    "Verif.Osm.C32_nodes",
    "Verif.Osm.C32_rels"
   ],
   "note": "The XML parser is replaced by the list of its tags. Elements with id 0 do not occur."
  },
  {
   "property": "C33",
   "status": "partial",
   "theorems": [
    "Verif.Osm.C33_positions_partial",
    "Verif.Osm.C33_negation"
   ],
   "note": "False for no-turn nodes outside the area (C33_negation), proved for all others."
  },
  {
   "property": "C34",
   "status": "proved",
   "theorems": [
    "Verif.Graph.C34_components"
   ],
   "note": "Includes the end of the search, the exact count and the tightness of the stored speed."
  },
  {
   "property": "C35",
   "status": "partial",
   "theorems": [
    "Verif.Collapse.C35_step_partial",
    "Verif.Collapse.C35_reach_partial",
    "Verif.Collapse.C35_negation_loop",
    "Verif.Collapse.C35_negation_direction"
   ],
   "note": "Per visited node (C35_step_partial) and for the whole graph (C35_reach_partial, for one-way marks that agree where one-way edges meet). The unrestricted property is false: equal outer nodes give a wrong line (C35_negation_loop), opposite one-way marks are merged (C35_negation_direction)."
  },
  {
   "property": "C36",
   "status": "partial",
   "theorems": [
    "Verif.Collapse.C36_opposite",
    "Verif.Collapse.C36_limit_existing",
    "Verif.Payload.C36_reversed",
    "Verif.Payload.C36_reversed_twice",
    "Verif.Payload.C36_reversed_twice_negation"
   ],
   "note": "Graph part (C36_opposite): every edge has an opposite one, added ones are mirror images. An opposite edge that existed before is kept as it is and need not be a mirror image (C36_limit_existing). \"Reversing twice gives the original\" is false for the hop ends (C36_reversed_twice_negation)."
  },
  {
   "property": "C37",
   "status": "partial",
   "theorems": [
    "Verif.Color.C37_six",
    "Verif.Color.C37_three",
    "Verif.Color.C37_names",
    "Verif.Color.C37_invalid_partial",
    "Verif.Color.C37_negation",
    "Verif.Color.C37_negation_hash",
    "Verif.Color.C37_negation_attr"
   ],
   "note": "six and three digits and names proved; \"anything else is no colour\" is false (C37_negation: black), proved only for # with three or six characters"
  },
  {
   "property": "C38",
   "status": "proved",
   "theorems": [
    "Verif.Color.C38_text_color",
    "Verif.Color.C38_lower_bits"
   ],
   "note": "sqrt(x/3) in double is an assumption: square within 1/10, exact for integer roots"
  },
  {
   "property": "C39",
   "status": "proved",
   "theorems": [
    "Verif.Config.C39_kv",
    "Verif.Config.C39_flags",
    "Verif.Config.C39_order",
    "Verif.Config.C39_filter",
    "Verif.Config.C39_limit_first_rule",
    "Verif.Config.C39_norm_rules"
   ],
   "note": "splitting into parts and trimming are done by libraries; flags of two rules with the same key and value are not united (C39_limit_first_rule)"
  },
  {
   "property": "C40",
   "status": "partial",
   "theorems": [
    "Verif.Config.C40_own_partial",
    "Verif.Config.C40_config_partial",
    "Verif.Config.C40_single_partial",
    "Verif.Config.C40_joined_partial",
    "Verif.Config.C40_negation",
    "Verif.Config.C40_negation_platforms",
    "Verif.Config.C40_negation_drift",
    "Verif.Config.C40_negation_twice"
   ],
   "note": "proved with \"close\" instead of \"equal\" (C40_*_partial); false as stated: options not compared (C40_negation, C40_negation_platforms), tolerances (C40_negation_drift), one mode in two sections (C40_negation_twice)"
  },
  {
   "property": "C41",
   "status": "proved",
   "theorems": [
    "Verif.Out.C41_dir",
    "Verif.Out.C41_zip",
    "Verif.Out.C41_done",
    "Verif.Out.C41_finishes",
    "Verif.Out.C41_limit_mixed",
    "Verif.Out.C41_limit_write_error"
   ],
   "note": "rename is atomic, zip_close writes only the temporary archive, temporary names are different from all others; write errors are not noticed (C41_limit_write_error), and an interrupted run leaves a mix of old and new files (C41_limit_mixed)"
  },
  {
   "property": "C42",
   "status": "partial",
   "theorems": [
    "Verif.Out.C42_in_place_partial",
    "Verif.Out.C42_copied",
    "Verif.Out.C42_memory",
    "Verif.Out.C42_shapes_stop_times",
    "Verif.Out.C42_negation"
   ],
   "note": "every file that is written is the same as in a new directory; files that are not written are left over (C42_negation: frequencies.txt, feed_info.txt)"
  },
  {
   "property": "C43",
   "status": "proved",
   "theorems": [
    "Verif.Out.C43_rows",
    "Verif.Out.C43_stream",
    "Verif.Out.C43_limit_unknown_trip",
    "Verif.Out.C43_limit_empty_id"
   ],
   "note": "sequence numbers of a trip are unique; rows of trips not in the feed dereference a null pointer (C43_limit_unknown_trip)"
  },
  {
   "property": "C44",
   "status": "proved",
   "theorems": [
    "Verif.Eval.C44_hops",
    "Verif.Eval.C44_median",
    "Verif.Eval.C44_recorded",
    "Verif.Eval.C44_limit_twice",
    "Verif.Eval.C44_limit_one_stop",
    "Verif.Eval.C44_limit_stops",
    "Verif.Eval.C44_limit_exchanged",
    "Verif.Eval.C44_counts",
    "Verif.Eval.C44_report",
    "Verif.Eval.C44_stats"
   ],
   "note": "exact rationals; no trip is compared twice (as in the program; C44_limit_twice); limits: fewer than two stops or different numbers of stops are undefined (C44_limit_one_stop, C44_limit_stops), hop statistics are those of the evaluated feed (C44_limit_exchanged)"
  },
  {
   "property": "C45",
   "status": "proved",
   "theorems": [
    "Verif.Eval.Feeds.C45_feeds_no_repetition",
    "Verif.Eval.Feeds.C45_each_feed_once",
    "Verif.Eval.Feeds.C45_feeds_terminate",
    "Verif.Eval.Feeds.C45_limit_no_threads",
    "Verif.Shapes.Workers.C45_jobs_in_order",
    "Verif.Shapes.Workers.C45_each_job_once",
    "Verif.Shapes.Workers.C45_terminates",
    "Verif.Shapes.Workers.C45_progress_divisor"
   ],
   "note": "Worker loops of the shape builder and of the evaluation tool under every schedule; termination by a decreasing measure. With no thread no feed is evaluated (C45_limit_no_threads); feeds are assumed to be readable."
  },
  {
   "property": "C46",
   "status": "partial",
   "theorems": [
    "Verif.Line.C46_stop_times",
    "Verif.Line.C46_shape_partial"
   ],
   "note": "Missing: hops that lead backwards within one edge (C53_limit_backward), for which the result depends on getSegment of the utility library. Distances are exact up to an arbitrary monotone rounding."
  },
  {
   "property": "C47",
   "status": "proved",
   "theorems": [
    "Verif.Shapes.Workers.C47_kept_while_used",
    "Verif.Shapes.Workers.C47_dropped_only_if_replaced",
    "Verif.Shapes.Workers.C47_dropped_when_replaced",
    "Verif.Shapes.Workers.C47_new_shapes_present_partial",
    "Verif.Shapes.Workers.C47_new_shape_lost",
    "Verif.Shapes.Workers.C47_lost_update"
   ],
   "note": "That a shape in use is kept is proved for the code as it is: an update of the unsynchronised counter that is lost makes it too great, never too small. That unused shapes are dropped is proved for atomic counter updates; C47_lost_update shows that it is false otherwise, and C47_new_shape_lost that a reused id can be removed while in use."
  },
  {
   "property": "C48",
   "status": "proved",
   "theorems": [
    "Verif.Color.C48_split",
    "Verif.Color.C48_again",
    "Verif.Color.C48_any_order",
    "Verif.Color.C48_limit_text_color",
    "Verif.Color.C48_runs",
    "Verif.Color.C48_limit_runs",
    "Verif.Color.C48_limit_empty",
    "Verif.Color.C48_threads"
   ],
   "note": "for every order of routes and colours; containers of the feed are lists; text colour of unsplit routes is overwritten (C48_limit_text_color) C48_runs for any number of mode configurations, as long as no route has trips that are matched for different ones (C48_limit_runs)."
  },
  {
   "property": "C49",
   "status": "proved",
   "theorems": [
    "Verif.Router.C49_table",
    "Verif.Router.C49_defined",
    "Verif.Router.C49_limit_negative_times"
   ],
   "note": "Undefined for negative accumulated times (C49_limit_negative_times)."
  },
  {
   "property": "C50",
   "status": "partial",
   "theorems": [
    "Verif.Cand.C50_terminates",
    "Verif.Cand.C50_found",
    "Verif.Cand.C50_candidates_partial",
    "Verif.Cand.C50_direction",
    "Verif.Cand.C50_distance",
    "Verif.Cand.C50_negation",
    "Verif.Cand.C50_limit_order",
    "Verif.Cand.C50_limit_dead_end"
   ],
   "note": "everything but the platform: the penalty is given to the stations whose track IS the platform (C50_negation); the result depends on the order of the edges (C50_limit_order); a dead end is undefined (C50_limit_dead_end)"
  },
  {
   "property": "C51",
   "status": "partial",
   "theorems": [
    "Verif.HopCache.C51_cacheDrop_iff",
    "Verif.HopCache.C51_cacheDrop_sound_partial",
    "Verif.HopCache.C51_negation"
   ],
   "note": "The skip decision is exactly characterised; the full claim is false when a candidate lies inside its start edge (C51_negation), because the check runs before the start offset is added."
  },
  {
   "property": "C52",
   "status": "proved",
   "theorems": [
    "Verif.Intern.C52_order",
    "Verif.Intern.C52_interned",
    "Verif.Intern.C52_limit_color"
   ],
   "note": "decoding and normalisers are parameters, attribute keys of a relation are unique; the colour of a shared line is that of the relation looked up first (C52_limit_color)"
  },
  {
   "property": "C53",
   "status": "partial",
   "theorems": [
    "Verif.Line.C53_limit_backward",
    "Verif.Line.C53_lines_partial",
    "Verif.Line.C53_trip_partial"
   ],
   "note": "Missing: hops that lead backwards within one edge (C53_limit_backward). getSegment and simplify are parameters with the contract GeoOk; edges are assumed to lead from node to node."
  },
  {
   "property": "C54",
   "status": "proved",
   "theorems": [
    "Verif.Main.C54_code",
    "Verif.Main.C54_success",
    "Verif.Main.C54_output",
    "Verif.Main.C54_served",
    "Verif.Main.C54_limit_ambiguous",
    "Verif.Main.C54_limit_single_trip",
    "Verif.Main.C54_limit_osmfilter"
   ],
   "note": "options already read; success of single steps is an input; other uncaught exceptions not modelled; limits: code 1 is ambiguous, single trip without configuration writes the whole feed"
  },
  {
   "property": "C55",
   "status": "proved",
   "theorems": [
    "Verif.Weights.C55_round_up",
    "Verif.Weights.C55_monotone"
   ],
   "note": "Exact rationals instead of double; the conversion of a too large double before the check (undefined in C++) is left out."
  },
  {
   "property": "C56",
   "status": "proved",
   "theorems": [
    "Verif.Area.C56_boxes",
    "Verif.Area.C56_covers",
    "Verif.Area.C56_filtered",
    "Verif.Area.C56_ends",
    "Verif.Area.C56_clustered",
    "Verif.Area.C56_read",
    "Verif.Area.C56_hops"
   ],
   "note": "distances are a symmetric parameter, padding only enlarges boxes, the greatest speed is positive; boxes of R-tree as in C21"
  },
  {
   "property": "C57",
   "status": "proved",
   "theorems": [
    "Verif.Router.C57_hops_meet"
   ],
   "note": ""
  },
  {
   "property": "C58",
   "status": "proved",
   "theorems": [
    "Verif.Weights.C58_component",
    "Verif.Weights.C58_target",
    "Verif.Weights.C58_edge_bound",
    "Verif.Weights.C58_consistent",
    "Verif.Weights.C58_admissible",
    "Verif.Weights.C58_correction_needed"
   ],
   "note": "Exact rationals instead of double, costs that were not cut off before the last pass. C58_component uses the speed stored by the labelling (C34)."
  },
  {
   "property": "C59",
   "status": "partial",
   "theorems": [
    "Verif.Osm.C59_edges_partial",
    "Verif.Osm.C59_negation"
   ],
   "note": "Edges are characterised completely. Not only neighbours are joined: nodes outside the area are left out (C59_negation). addEdg is assumed to succeed."
  },
  {
   "property": "C60",
   "status": "partial",
   "theorems": [
    "Verif.Line.C60_color_partial",
    "Verif.Line.C60_negation"
   ],
   "note": "False for trips with a hop within one edge (C60_negation), proved for all others."
  },
  {
   "property": "C61",
   "status": "partial",
   "theorems": [
    "Verif.Config.C61_full_turn",
    "Verif.Config.C61_turn_partial",
    "Verif.Config.C61_negation",
    "Verif.Config.C61_negation_undefined"
   ],
   "note": "full turn proved; a forbidden turn costs ten times as much as configured (C61_negation) and is undefined for large values (C61_negation_undefined)"
  },
  {
   "property": "C62",
   "status": "proved",
   "theorems": [
    "Verif.Cand.C62_cache",
    "Verif.Cand.C62_transparent",
    "Verif.Cand.C62_finishes",
    "Verif.Cand.C62_limit_no_threads"
   ],
   "note": "at least one thread; with no thread the first stop is written out of bounds (C62_limit_no_threads)"
  },
  {
   "property": "C63",
   "status": "proved",
   "theorems": [
    "Verif.Eval.C63_cut",
    "Verif.Eval.C63_unique",
    "Verif.Eval.C63_exact",
    "Verif.Eval.C63_limit_empty"
   ],
   "note": "exact rationals; the piece between two points of a line is a library function; an empty shape is undefined (C63_limit_empty)"
  },
  {
   "property": "C64",
   "status": "partial",
   "theorems": [
    "Verif.Eval.C64_independent_partial",
    "Verif.Eval.C64_order_partial",
    "Verif.Eval.C64_values_partial",
    "Verif.Eval.C64_negation",
    "Verif.Eval.C64_limit_order"
   ],
   "note": "proved if different simplified shapes are further apart than the tolerance of the cache (C64_*_partial); false otherwise (C64_negation), and the order used by the caches is not transitive (C64_limit_order)"
  },
  {
   "property": "C65",
   "status": "proved",
   "theorems": [
    "Verif.Eval.Unique.C65_unique_references",
    "Verif.Eval.Unique.C65_unique_total",
    "Verif.Eval.Unique.C65_limit_one_stop",
    "Verif.Eval.Unique.C65_limit_no_stops"
   ],
   "note": "trips with a single stop are not told apart (C65_limit_one_stop), trips without stops are dropped (C65_limit_no_stops); the size of a class is only written to the report"
  },
  {
   "property": "C66",
   "status": "partial",
   "theorems": [
    "Verif.Eval.Main.C66_options",
    "Verif.Eval.Main.C66_help",
    "Verif.Eval.Main.C66_results",
    "Verif.Eval.Main.C66_reports_partial",
    "Verif.Eval.Main.C66_negation_reports",
    "Verif.Eval.Main.C66_limit_no_feeds",
    "Verif.Eval.Main.C66_negation_segment_length"
   ],
   "note": "options, results and mean proved; reports of two or more feeds use a dangling pointer (C66_negation_reports), --segment-length is not in metres (C66_negation_segment_length), the average of no feeds is undefined (C66_limit_no_feeds)"
  },
  {
   "property": "C67",
   "status": "partial",
   "theorems": [
    "Verif.Hops.C67_fast_sound_partial",
    "Verif.Hops.C67_fast_cache",
    "Verif.Hops.C67_fast_best_partial",
    "Verif.Hops.C67_negation_fast",
    "Verif.Hops.C67_negation_fast_cache",
    "Verif.Hops.C67_hops_exact",
    "Verif.Hops.C67_hops_order"
   ],
   "note": "the standard variant is proved exact for every true cache (C67_hops_exact, C67_hops_order); the fast variant is sound (C67_fast_sound_partial) and keeps the best start up to one unit if all starts can reach the target (C67_fast_best_partial); it loses targets with a start behind them on the same edge (C67_negation_fast) and with a cache (C67_negation_fast_cache). The searches are parameters with stated contracts."
  },
  {
   "property": "C68",
   "status": "proved",
   "theorems": [
    "Verif.Full.C68_cache_irrelevant",
    "Verif.Full.C68_cheapest",
    "Verif.Full.C68_found_again",
    "Verif.Full.C68_limits_unique",
    "Verif.Full.C68_limit_backwards"
   ],
   "note": "optimality (C68_cheapest), uniqueness of the limits and independence of the cache are for the standard variant; that rides are found again (C68_found_again) is for both variants; the fast variant is not optimal, see the negations of C67. The searches are parameters with stated contracts; costs are assumed small enough not to wrap (Small). C68_limit_backwards describes jumps within one edge."
  },
  {
   "property": "C69",
   "status": "partial",
   "theorems": [
    "Verif.Limit.C69_max_cost_partial",
    "Verif.Limit.C69_limit_no_network",
    "Verif.Limit.C69_in_time_partial",
    "Verif.Limit.C69_room",
    "Verif.Limit.C69_inverse",
    "Verif.Limit.C69_negation_small_factor",
    "Verif.Limit.C69_negation_platform",
    "Verif.Limit.C69_limit_untimed",
    "Verif.Limit.C69_norm",
    "Verif.Limit.C69_dist"
   ],
   "note": "proved if the previous stop has a candidate on the network, no sum of times is negative, the result fits into 32 bits, and (for rides in time) the factors are at least 1. False otherwise: C69_limit_no_network and C69_negation_platform (undefined conversion of infinity, results differ between machines), C69_negation_small_factor (factors below 1 shrink the limit), C69_limit_untimed (stops without times)."
  },
  {
   "property": "C70",
   "status": "partial",
   "theorems": [
    "Verif.Turns.C70_turns_partial",
    "Verif.Turns.C70_same_graph",
    "Verif.Turns.C70_negation_u_turn",
    "Verif.Turns.C70_negation_through"
   ],
   "note": "every penalised turn has a rule as its reason; forbidden and demanded turns are penalised if the from way differs from the to way and the to way has one edge at the node. False otherwise: C70_negation_u_turn (a rule from a way to itself is ignored), C70_negation_through (a to way that runs through the node)."
  },
  {
   "property": "C71",
   "status": "partial",
   "theorems": [
    "Verif.Gaps.C71_connected",
    "Verif.Gaps.C71_closed",
    "Verif.Gaps.C71_untouched",
    "Verif.Gaps.C71_direction_partial",
    "Verif.Gaps.C71_negation_one_way",
    "Verif.Gaps.C71_negation_chain",
    "Verif.Gaps.C71_negation_loop",
    "Verif.Gaps.C71_negation_rules"
   ],
   "note": "connections and stations are kept, only near nodes get connected, a gap between two dead ends that are near no other node is closed, a graph without near dead ends is not changed (C71_connected, C71_closed, C71_untouched). C71_direction_partial: directions are kept if the edge of the removed dead end leads to it. False otherwise: C71_negation_one_way (one-way streets that begin at the removed dead end are reversed), C71_negation_rules (turn rules of the moved edge are lost or turned into prohibitions), C71_negation_chain (three dead ends in a row), C71_negation_loop (a short isolated track becomes a loop)."
  },
  {
   "property": "C72",
   "status": "partial",
   "theorems": [
    "Verif.Search.C72_sound",
    "Verif.Search.C72_complete_partial",
    "Verif.Search.C72_order",
    "Verif.Search.C72_negation_order",
    "Verif.Search.C72_negation_complete"
   ],
   "note": "C72_sound: the search ends and is sound, with and without limits. C72_complete_partial: complete if no turn is sharp. False otherwise: C72_negation_complete (a crossing closed by a shorter walk with a sharp turn). C72_negation_order: the order of the queue is no order unless all elements have as many turns (C72_order), which is so for the limit 0 used."
  },
  {
   "property": "C73",
   "status": "partial",
   "theorems": [
    "Verif.Snap.C73_travel",
    "Verif.Snap.C73_turns",
    "Verif.Snap.C73_stations_partial",
    "Verif.Snap.C73_covers",
    "Verif.Snap.C73_negation_distance",
    "Verif.Snap.C73_negation_track",
    "Verif.Snap.C73_negation_turn_cycle"
   ],
   "note": "C73_travel, C73_turns, C73_covers: travel, turn rules, edge attributes and positions stay, every track in range is served. C73_stations_partial: stations keep their info up to a filled-in track and new ones are placed on tracks in range of their original. False: C73_negation_distance (a placed station itself may be farther than the distance), C73_negation_track (tracks spread to far nodes), C73_negation_turn_cycle (turning loops are lost)."
  },
  {
   "property": "C74",
   "status": "partial",
   "theorems": [
    "Verif.Finish.C74_travel_partial",
    "Verif.Finish.C74_graph",
    "Verif.Finish.C74_rest",
    "Verif.Finish.C74_origin",
    "Verif.Finish.C74_stations",
    "Verif.Finish.C74_lines_partial",
    "Verif.Finish.C74_turns_partial",
    "Verif.Finish.C74_negation_opposite",
    "Verif.Finish.C74_negation_travel",
    "Verif.Finish.C74_negation_meet"
   ],
   "note": "C74_graph, C74_rest, C74_origin, C74_stations, C74_travel_partial, C74_lines_partial, C74_turns_partial. Missing: one-way edges that meet but are drawn in different senses (false: C74_negation_meet), two edges between the same nodes in opposite directions (false: C74_negation_travel, C74_negation_opposite), lines of edges from a node to itself (false: C35_negation_loop)."
  },
  {
   "property": "C75",
   "status": "partial",
   "theorems": [
    "Verif.Options.C75_means",
    "Verif.Options.C75_accept",
    "Verif.Options.C75_ends",
    "Verif.Options.C75_forms",
    "Verif.Options.C75_message_partial",
    "Verif.Options.C75_documented_partial",
    "Verif.Options.C75_negation_drop",
    "Verif.Options.C75_negation_drop_last",
    "Verif.Options.C75_negation_keep",
    "Verif.Options.C75_negation_message",
    "Verif.Options.C75_config",
    "Verif.Options.C75_target"
   ],
   "note": "C75_means, C75_accept, C75_ends, C75_forms, C75_config, C75_target for all command lines; C75_documented_partial for the help text. Missing: --drop-shapes is documented as a flag but takes a value (C75_negation_drop, C75_negation_drop_last), -F is documented with an argument but takes none (C75_negation_keep), the message about an unknown option may name the wrong word (C75_negation_message; C75_message_partial)."
  },
  {
   "property": "C76",
   "status": "partial",
   "theorems": [
    "Verif.Whole.C76_map_partial",
    "Verif.Whole.C76_strict",
    "Verif.Whole.C76_negation_overlap"
   ],
   "note": "C76_map_partial for all files whose map is tidy (`Tidy`), composing C28, C33, C59, C70, C71 and C74. Missing: maps with a piece from a place to itself, one-way streets that meet and are drawn in different senses, pieces in opposite directions where ways are drawn against travel (C74_negation_*), and dead ends near each other (C71 joins them). A one-way way also decides about a two-way one between the same places (C76_negation_overlap; C76_strict says when this makes no difference). The infos of stations are in C73/C74."
  },
  {
   "property": "C77",
   "status": "partial",
   "theorems": [
    "Verif.Whole.C77_markers",
    "Verif.Whole.C77_stations_partial",
    "Verif.Whole.C77_one_track",
    "Verif.Whole.C77_negation_track"
   ],
   "note": "C77_markers (the graph that is read) holds for all files; C77_stations_partial (the routing graph) for files whose map is tidy, as in C76. Tables of fewer than 2^32 - 2 infos. If ways at a station have different tracks, which one it gets is up to a hash map (C77_negation_track; C77_one_track says when it is not)."
  },
  {
   "property": "C78",
   "status": "partial",
   "theorems": [
    "Verif.Attrs.C78_info",
    "Verif.Attrs.C78_track",
    "Verif.Attrs.C78_lines",
    "Verif.Attrs.C78_stations_partial",
    "Verif.Attrs.C78_edges_partial",
    "Verif.Attrs.C78_keys",
    "Verif.Attrs.C78_negation_hidden"
   ],
   "note": "C78_info, C78_track, C78_lines and C78_keys hold for all files; C78_stations_partial and C78_edges_partial (the routing graph) for files whose map is tidy, as in C76 and C77. That every station with a name in some relation is kept is false: C78_negation_hidden."
  },
  {
   "property": "C79",
   "status": "partial",
   "theorems": [
    "Verif.Sections.C79_defaults",
    "Verif.Sections.C79_line_rules",
    "Verif.Sections.C79_file_partial",
    "Verif.Sections.C79_negation_small",
    "Verif.Sections.C79_negation_message",
    "Verif.Sections.C79_means",
    "Verif.Sections.C79_rest",
    "Verif.Sections.C79_unknown",
    "Verif.Sections.C79_deprecated"
   ],
   "note": "C79_means, C79_rest, C79_deprecated, C79_defaults, C79_unknown, C79_line_rules for all sections that are read without a division by zero; C79_file_partial for all sections of a file, up to the tolerance of the comparison of configurations. Missing: options below the tolerance are lost (C79_negation_small), the message about one deprecated option names the wrong one (C79_negation_message), forbidden turns cost ten times as much (C61)."
  },
  {
   "property": "C80",
   "status": "partial",
   "theorems": [
    "Verif.Journey.C80_turn",
    "Verif.Journey.C80_edge",
    "Verif.Journey.C80_best",
    "Verif.Journey.C80_route_partial"
   ],
   "note": "C80_route_partial for all files, rules and penalties; C80_turn, C80_edge and C80_best give the exact costs in terms of the graph. Missing: the search (util EDijkstra, not in the repository) is assumed to be a correct shortest-path search and the caches and limits to be as in C67/C68; that the edges are drawn as in the file needs a tidy file (C76, C77 show what happens otherwise); which stretch of a way carries which turn is only followed if no two pieces run against each other."
  },
  {
   "property": "C81",
   "status": "partial",
   "theorems": [
    "Verif.Extract.C81_same_graph_partial",
    "Verif.Extract.C81_negation_digits",
    "Verif.Extract.C81_negation_first",
    "Verif.Extract.C81_negation_from",
    "Verif.Extract.C81_negation_flat"
   ],
   "note": "C81_same_graph_partial. The full claim is false: positions are written with six digits (C81_negation_digits), the first relation is lost if the last way is written (C81_negation_first), a restriction that loses one of two from members becomes effective (C81_negation_from), and configurations that disagree about the members of a relation lose ways (C81_negation_flat). The theorem assumes that the file survives writing, that restrictions are written as a whole, that the first relation is not lost and that the id sets are exact (C03)."
  },
  {
   "property": "C82",
   "status": "partial",
   "theorems": [
    "Verif.Fetch.C82_part",
    "Verif.Fetch.C82_overpass_partial",
    "Verif.Fetch.C82_osmfilter_partial",
    "Verif.Fetch.C82_negation_lists",
    "Verif.Fetch.C82_negation_digits",
    "Verif.Fetch.C82_negation_flags",
    "Verif.Fetch.C82_negation_boxes"
   ],
   "note": "C82_part says which part of a map suffices; C82_overpass_partial and C82_osmfilter_partial for the two queries. The full claim is false: values in lists are not asked for (C82_negation_lists), boxes are written with six digits (C82_negation_digits), another configuration may take the queries for ways away (C82_negation_flags), and the boxes of all trips need not cover the joined boxes of some of them (C82_negation_boxes). What a server and osmfilter deliver is taken from their documentation."
  },
  {
   "property": "C83",
   "status": "partial",
   "theorems": [
    "Verif.Net.C83_network",
    "Verif.Net.C83_pieces_partial",
    "Verif.Net.C83_count_partial",
    "Verif.Net.C83_schedule_partial",
    "Verif.Net.C83_graph",
    "Verif.Net.C83_negation_count",
    "Verif.Net.C83_negation_twin",
    "Verif.Net.C83_limit_no_threads"
   ],
   "note": "C83_network, C83_pieces_partial, C83_count_partial and C83_schedule_partial, with C83_graph for the routing graphs of C74. The full claim is false: two tracks between the same nodes drawn in opposite directions have room for one edge only, and the trips of the other one are lost (C83_negation_twin); num_trips counts rides, not trips (C83_negation_count). Without known number of processors nothing is shown (C83_limit_no_threads)."
  },
  {
   "property": "C84",
   "status": "partial",
   "theorems": [
    "Verif.Content.C84_service",
    "Verif.Content.C84_files",
    "Verif.Content.C84_fares_partial",
    "Verif.Content.C84_fares_lost",
    "Verif.Content.C84_fares_memory",
    "Verif.Content.C84_negation_fares",
    "Verif.Content.C84_negation_attributions"
   ],
   "note": "C84_service and C84_files hold for every feed without errors. The part on fares is false: fare_rules.txt is copied from the input, and trips that are moved to a new route lose every rule for their route (C84_negation_fares, and C84_fares_lost for all feeds), although the feed in memory has the right rules (C84_fares_memory); C84_fares_partial if colours are not written, all routes have colours, or no rule is for a route. The attributions of the input are always lost (C84_negation_attributions). Reading by cppgtfs (not in the repository) is an assumption; files that the program does not know (translations.txt, ...) are not in the model."
  },
  {
   "property": "C85",
   "status": "partial",
   "theorems": [
    "Verif.Result.C85_lines",
    "Verif.Result.C85_lines_no_drop",
    "Verif.Result.C85_negation_id",
    "Verif.Result.C85_negation_used",
    "Verif.Result.C85_negation_again",
    "Verif.Result.C85_service",
    "Verif.Result.C85_fares_memory"
   ],
   "note": "C85_lines_no_drop without --drop-shapes, for all feeds; C85_lines with --drop-shapes if no matched trip has an old shape with an id of the form shp_<type>_<n> and no trip is matched for two mode configurations. Both conditions are needed (C85_negation_id, C85_negation_again). That no other shapes are written holds for atomic counters only; in the code as it is, an unused shape may be written (C85_negation_used). The rest holds for the code as it is. The lines are given; which line is found is the subject of C70 to C80. C85_service: routes, trips, colours and the files that are copied, for any number of mode configurations; that each matched trip is on a route of its colour holds if no mode has several configurations (C48_limit_runs)."
  },
  {
   "property": "C86",
   "status": "partial",
   "theorems": [
    "Verif.Dists.C86_distances_partial",
    "Verif.Dists.C86_distances_no_drop_partial",
    "Verif.Dists.C86_along_partial",
    "Verif.Dists.C86_negation_seq",
    "Verif.Dists.C86_negation_collision",
    "Verif.Dists.C86_limit_short"
   ],
   "note": "C86_distances_partial and C86_distances_no_drop_partial (with the conditions of C85 on ids) for sequence numbers below 65536, and if there is one distance per stop (C46); C86_along_partial for lines made by getGtfsShape. For greater sequence numbers the property is false: stops are put in the wrong order and distances are not written (C86_negation_seq), or the feed is refused (C86_negation_collision). How cppgtfs inserts stop times is an assumption."
  },
  {
   "property": "C87",
   "status": "partial",
   "theorems": [
    "Verif.Build.C87_items",
    "Verif.Build.C87_drop_partial",
    "Verif.Build.C87_no_drop_partial"
   ],
   "note": "C87_items, C87_drop_partial, C87_no_drop_partial. They discharge the conditions of C85 and C86 on leafs, lengths, points and colours (LeafsOk, LensOk, PtsOk, ColorsOk, NoDrop) by the models of clustering, candidates, routing and geometry. Remaining conditions: average times fit into 31 bits (C49), no hop goes backwards within one edge, for the caches that occur (C53), sequence numbers below 65536 (C86), and with --drop-shapes no vehicle type in two configurations (C85_negation_again) and no old shape with an id like a new one (C85_negation_id). \"Cheapest\" is relative to the hop costs that the hop calculation returned, as in C14; C88 removes this. Paths between candidate edges and the geometry library are assumptions (Leads, GeoOk); C88 removes the first."
  },
  {
   "property": "C88",
   "status": "partial",
   "theorems": [
    "Verif.Tour.C88_attributes",
    "Verif.Tour.C88_cache_partial",
    "Verif.Tour.C88_rides_partial",
    "Verif.Tour.C88_map_partial",
    "Verif.Tour.C88_drop_partial",
    "Verif.Tour.C88_no_drop_partial"
   ],
   "note": "C88_attributes, C88_cache_partial, C88_rides_partial, C88_map_partial, C88_drop_partial, C88_no_drop_partial. They discharge the assumptions of C87 about paths between edges (Leads) and lines, and replace its \"cheapest relative to the hop costs\" by \"cheapest in the graph\", by the models of the graph (C76), the hop calculation (C67), the search (C68) and the cost function (C80). Remaining conditions: those of C87, the tidiness conditions of C76, standard hop calculation (no fast hops), costs below 2^32 (Small of C68), candidates at positions on their edges, loops of the graph start and end at their node (C35). The searches of the library (EDijkstra, not in the repository) are assumed to find cheapest ways (SearchOk, WalkOk)."
  },
  {
   "property": "C89",
   "status": "partial",
   "theorems": [
    "Verif.Single.C89_network_partial",
    "Verif.Single.C89_single_partial",
    "Verif.Single.C89_limit_stops",
    "Verif.Single.C89_others"
   ],
   "note": "C89_network_partial, C89_single_partial, C89_others (full). Conditions as for C88, but none about clustering, threads or the hop cache (there is none here). C89_limit_stops is the negation for trips with fewer than two stops: undefined behaviour. That shapeL catches std::runtime_error is not modelled: nothing that is modelled throws."
  },
  {
   "property": "C90",
   "status": "partial",
   "theorems": [
    "Verif.Visit.C90_candidates_partial",
    "Verif.Visit.C90_town_partial",
    "Verif.Visit.C90_visits_partial",
    "Verif.Visit.C90_close_partial",
    "Verif.Visit.C90_drop_partial",
    "Verif.Visit.C90_no_drop_partial",
    "Verif.Visit.C90_single_partial"
   ],
   "note": "C90_candidates_partial, C90_town_partial, C90_visits_partial, C90_close_partial, C90_drop_partial, C90_no_drop_partial, C90_single_partial. The conditions of C88 that concern candidates are now proved from the model of getEdgCands on the graph of the file; the others remain. Positions are those of a stop with the same name and platform near the stop, because a node of a trie has the candidates of the stop it was made for. Assumed of the libraries: grids return only what was put into them, projections are on the edge, and the distance to an edge is that to the projection. Gaussian noise (an option for experiments) is not added. A stop that the router jumps to has its own position, at any distance from the map."
  },
  {
   "property": "C91",
   "status": "partial",
   "theorems": [
    "Verif.Intake.C91_reads_partial",
    "Verif.Intake.C91_selected",
    "Verif.Intake.C91_stops_partial",
    "Verif.Intake.C91_attrs_partial",
    "Verif.Intake.C91_groups_partial",
    "Verif.Intake.C91_drop_partial",
    "Verif.Intake.C91_no_drop_partial"
   ],
   "note": "C91_selected, C91_reads_partial, C91_stops_partial, C91_attrs_partial, C91_groups_partial, C91_drop_partial, C91_no_drop_partial. Numbers of rows fit into 16 bits (false otherwise: C86_negation_seq); the last two theorems have the conditions of C90, but those on the stops and types of trips are now proved from the rows. The order and merging of attributes that C87 to C90 assume are proved for the attributes of the program. How cppgtfs reads rows is assumed (it is not in the repository). Normalizers are parameters (C22)."
  },
  {
   "property": "C92",
   "status": "partial",
   "theorems": [
    "Verif.Report.C92_code",
    "Verif.Report.C92_names_partial",
    "Verif.Report.C92_stats_partial",
    "Verif.Report.C92_nodes_partial",
    "Verif.Report.C92_dims_partial",
    "Verif.Report.C92_trans_partial",
    "Verif.Report.C92_trans_single",
    "Verif.Report.C92_graph",
    "Verif.Report.C92_single",
    "Verif.Report.C92_negation_names",
    "Verif.Report.C92_negation_nodes",
    "Verif.Report.C92_negation_trans",
    "Verif.Report.C92_negation_graph",
    "Verif.Report.C92_negation_stats"
   ],
   "note": "C92_code, C92_names_partial, C92_stats_partial, C92_nodes_partial, C92_dims_partial, C92_trans_partial, C92_trans_single, C92_graph, C92_single. False in general: the graph is overwritten by each configuration (C92_negation_graph), the documented name trgraph.json is never used (C92_trans_single), two configurations used for the same modes overwrite the graph of lines (C92_negation_trans) and the number of nodes, while numbers of edges are added (C92_negation_nodes), statistics are lost if the debug directory does not exist (C92_negation_stats), and names of files may be equal if names of modes are (C92_negation_names). The partial theorems tell what is written outside these cases. Names of modes come from cppgtfs and are a parameter; times are not modelled."
  },
  {
   "property": "C93",
   "status": "partial",
   "theorems": [
    "Verif.Region.C93_boxes_partial",
    "Verif.Region.C93_bounds_partial",
    "Verif.Region.C93_areas",
    "Verif.Region.C93_fails",
    "Verif.Region.C93_written",
    "Verif.Region.C93_again",
    "Verif.Region.C93_negation_more",
    "Verif.Region.C93_negation_again",
    "Verif.Region.C93_trips"
   ],
   "note": "C93_boxes_partial, C93_bounds_partial, C93_areas, C93_fails, C93_written, C93_again, C93_trips. The area that is read has to lie in the area of the filtered file: C93_areas gives three cases in which it does; C93_trips: the boxes of the trips of each feed and mode lie in the area for all feeds and modes, and the area that is read lies in it if no two boxes overlap. False in general: with the boxes of more trips the area may become smaller, so that a street is missing in the filtered file that was filtered for these trips (C93_negation_more). Further conditions as in C81. The conversion of coordinates in the bounds tag (atof, to_string) is the identity or a parameter; padding is a parameter."
  },
  {
   "property": "C94",
   "status": "partial",
   "theorems": [
    "Verif.Ids.C94_asked",
    "Verif.Ids.C94_answers",
    "Verif.Ids.C94_besides",
    "Verif.Ids.C94_graph_partial",
    "Verif.Ids.C94_filter_partial",
    "Verif.Ids.C94_filtered_partial",
    "Verif.Ids.C94_negation_missing",
    "Verif.Ids.C94_negation_filter"
   ],
   "note": "C94_asked, C94_answers, C94_besides, C94_graph_partial, C94_filter_partial, C94_filtered_partial. The ways have to refer to nodes of the map only, or all nodes have to be in the area; the set of nodes without turns is always right. In general (C94_besides, no condition) the graph is one for the nodes in the area and further ids that no node of the map has. False without the condition: C94_negation_missing, C94_negation_filter. C94_filtered_partial is C81 and C93 with the sets of the program in place of exact ones."
  },
  {
   "property": "C95",
   "status": "partial",
   "theorems": [
    "Verif.Again.C95_gentle",
    "Verif.Again.C95_negation_text",
    "Verif.Again.C95_complete_partial",
    "Verif.Again.C95_twice_partial",
    "Verif.Again.C95_drop_partial"
   ],
   "note": "C95_complete_partial (a feed in which nothing is left to be done), C95_twice_partial (first run without --drop-shapes), C95_drop_partial (first run with --drop-shapes), C95_gentle (there are configurations for the second run for every feed). Conditions as in C87 and C91. The order of the rows of routes.txt and trips.txt may differ. attributions.txt gets the OSM row again (C84_negation_attributions); feed_info.txt is a parameter. False without the condition on text colours: C95_negation_text."
  },
  {
   "property": "C96",
   "status": "partial",
   "theorems": [
    "Verif.Eval.C96_short",
    "Verif.Eval.C96_long",
    "Verif.Eval.C96_text",
    "Verif.Eval.C96_stats",
    "Verif.Eval.C96_average_partial",
    "Verif.Eval.C96_negation_average"
   ],
   "note": "C96_short, C96_long, C96_text, C96_stats, C96_average_partial. No trip may be compared twice (as in C44). Averages over several feeds are only right if at least one trip of each feed was compared: C96_negation_average. How numbers are printed and the JSON writer (util, not in the repository) are parameters or not modelled; computations are exact."
  },
  {
   "property": "C97",
   "status": "partial",
   "theorems": [
    "Verif.Share.C97_negation_empty_time",
    "Verif.Share.C97_drop_partial",
    "Verif.Share.C97_no_drop_partial"
   ],
   "note": "C97_drop_partial, C97_no_drop_partial. Hypotheses are those of C87. With times compared, a trip that runs the same way at another time shares the shape only if none of its times is empty: C97_negation_empty_time. Without tries and with times compared, the first departure must be given."
  },
  {
   "property": "C98",
   "status": "partial",
   "theorems": [
    "Verif.Counts.C98_drop_partial",
    "Verif.Counts.C98_no_drop_partial",
    "Verif.Counts.C98_negation_again"
   ],
   "note": "C98_drop_partial, C98_no_drop_partial. Hypotheses are those of C87. With --drop-shapes, no trip may be matched for two mode configurations: otherwise it is counted twice (C98_negation_again). Times, iterations and the JSON writer are not modelled here."
  },
  {
   "property": "C99",
   "status": "partial",
   "theorems": [
    "Verif.Threads.C99_negation_ids",
    "Verif.Threads.C99_drop_partial",
    "Verif.Threads.C99_no_drop_partial",
    "Verif.Threads.C99_routes_partial"
   ],
   "note": "C99_drop_partial, C99_no_drop_partial, C99_routes_partial. Hypotheses are those of C87 for the first run; for the second one, that its threads return and that its work is distributed completely. The ids of new shapes do depend on the timing (C99_negation_ids) and are not compared. For routes, the order of the addresses of routes (which orders the map of colours) is taken to be the same in both runs."
  },
  {
   "property": "C100",
   "status": "partial",
   "theorems": [
    "Verif.More.C100_drop_partial",
    "Verif.More.C100_no_drop_partial"
   ],
   "note": "C100_drop_partial, C100_no_drop_partial. Hypotheses are those of C87 for both feeds. Map and router are the same in both runs: in the program the map is cut to the bounding box of the feed, so this asks that the further trips do not enlarge it. The further trips are at the end of trips.txt. Trips with the same routing attributes as a further one are not compared."
  }
 ]
}