{
 "claims": [
  {
   "property": "C01",
   "status": "proved",
   "theorems": [
    "FA.Props.C01_isQuorumSlice_iff",
    "FA.Props.C01_threshold_zero"
   ],
   "note": ""
  },
  {
   "property": "C02",
   "status": "proved",
   "theorems": [
    "FA.Props.C02_monotone",
    "FA.Props.C02_containedNodes",
    "FA.Props.C02_local"
   ],
   "note": ""
  },
  {
   "property": "C03",
   "status": "proved",
   "theorems": [
    "FA.Props.C03_isQuorum_iff",
    "FA.Props.C03_union"
   ],
   "note": ""
  },
  {
   "property": "C04",
   "status": "proved",
   "theorems": [
    "FA.Props.C04_generates",
    "FA.Props.C04_sound",
    "FA.Props.C04_minimal",
    "FA.Props.C04_containsDuplicates"
   ],
   "note": ""
  },
  {
   "property": "C05",
   "status": "proved",
   "theorems": [
    "FA.Props.C05_findSatisfiableNodes",
    "FA.Props.C05_satisfiable",
    "FA.Props.C05_unsatisfiable"
   ],
   "note": ""
  },
  {
   "property": "C06",
   "status": "proved",
   "theorems": [
    "FA.Props.C06_containsQuorum",
    "FA.Props.C06_complementContainsQuorum"
   ],
   "note": ""
  },
  {
   "property": "C07",
   "status": "proved",
   "theorems": [
    "FA.Props.C07_partition",
    "FA.Props.C07_minQuorum"
   ],
   "note": ""
  },
  {
   "property": "C08",
   "status": "proved",
   "theorems": [
    "FA.Props.C08_contains_minQuorums",
    "FA.Props.C08_relevant_iff"
   ],
   "note": ""
  },
  {
   "property": "C09",
   "status": "proved",
   "theorems": [
    "FA.Props.C09_minimal_quorums"
   ],
   "note": ""
  },
  {
   "property": "C10",
   "status": "partial",
   "theorems": [
    "FA.Props.C10_canonical_partial",
    "FA.Props.C10_sorted",
    "FA.Props.C10_counterexample"
   ],
   "note": "False in general: a symmetric cluster whose quorum set lists a node twice yields repeated minimal quorums (C10_counterexample). Sortedness holds always (C10_sorted); no repetitions if symmetric clusters' quorum sets are free of duplicates."
  },
  {
   "property": "C11",
   "status": "proved",
   "theorems": [
    "FA.Props.C11_blocking",
    "FA.Props.C11_quorums",
    "FA.Props.C11_splitting"
   ],
   "note": ""
  },
  {
   "property": "C12",
   "status": "partial",
   "theorems": [
    "FA.Props.C12_blocking_first_iff",
    "FA.Props.C12_has_quorum_intersection",
    "FA.Props.C12_fresh",
    "FA.Props.C12_all_histories_partial",
    "FA.Props.C12_sound",
    "FA.Props.C12_counterexample"
   ],
   "note": "Proved for all FBASs on new objects and on all objects on which minimal_blocking_sets was not the first computing call. For that remaining case: proved for well-shaped FBASs; for all FBASs the verdict is that of the reported minimal quorums and \"false\" is right if any is reported (C12_sound); a wrong \"true\" is possible (C12_counterexample). C12_blocking_first_iff states for all FBASs exactly when the verdict is wrong after computing blocking sets first."
  },
  {
   "property": "C13",
   "status": "proved",
   "theorems": [
    "FA.Props.C13_allIntersect"
   ],
   "note": ""
  },
  {
   "property": "C14",
   "status": "partial",
   "theorems": [
    "FA.Props.C14_alternative_check",
    "FA.Props.C14_alternative_check_all_histories_partial",
    "FA.Props.C14_agree",
    "FA.Props.C14_sound",
    "FA.Props.C14_nonintersecting",
    "FA.Props.C14_none_iff"
   ],
   "note": "Search: all FBASs with a quorum. Analysis method: all FBASs unless blocking sets are computed first, all histories for well-shaped FBASs; for all FBASs and histories it agrees with has_quorum_intersection (C14_agree) and its witnesses are disjoint quorums (C14_sound); a wrong \"true\" is possible (C12_counterexample)."
  },
  {
   "property": "C15",
   "status": "partial",
   "theorems": [
    "FA.Props.C15_counterexample",
    "FA.Props.C15_no_panic_partial"
   ],
   "note": "False: for every FBAS without a quorum the assertion fails (C15_counterexample). Proved: a verdict is returned exactly if there is a quorum."
  },
  {
   "property": "C16",
   "status": "partial",
   "theorems": [
    "FA.Props.C16_minimal_blocking_sets_partial",
    "FA.Props.C16_no_panic",
    "FA.Props.C16_counterexample_duplicates",
    "FA.Props.C16_counterexample_unsatisfiable",
    "FA.Props.C16_sound",
    "FA.Props.C16_duplicates",
    "FA.Props.C16_exact_iff_partial"
   ],
   "note": "Exact iff there is a quorum and no symmetric cluster repeats a node or has an unsatisfiable inner quorum set (C16_exact_iff_partial; clusters with both a repeated node and a one-node quorum left open). Every reported set is blocking, for all FBASs (C16_sound). Never panics."
  },
  {
   "property": "C17",
   "status": "partial",
   "theorems": [
    "FA.Props.C17_spec",
    "FA.Props.C17_counterexample",
    "FA.Props.C17_partial"
   ],
   "note": "False for every FBAS without a quorum: the list is empty instead of containing the empty set (C17_counterexample)."
  },
  {
   "property": "C18",
   "status": "partial",
   "theorems": [
    "FA.Props.C18_duality",
    "FA.Props.C18_involved_nodes_partial",
    "FA.Props.C18_top_tier",
    "FA.Props.C18_top_tier_all_histories_partial"
   ],
   "note": "The duality of minimal quorums and minimal blocking sets is proved for all FBASs (C18_duality), top_tier() on new objects for all FBASs (C18_top_tier). If minimal_blocking_sets() is called first the result can be wrong (C28_counterexample), correct for well-shaped FBASs; agreement of the computed results needs exact blocking sets (see C16). C28_blocking_first states for all FBASs what top_tier() is then."
  },
  {
   "property": "C19",
   "status": "partial",
   "theorems": [
    "FA.Props.C19_analysis_partial",
    "FA.Props.C19_all_histories_partial",
    "FA.Props.C19_analysis_sound_partial",
    "FA.Props.C19_minimal_splitting_sets_partial",
    "FA.Props.C19_without_intersection_partial",
    "FA.Props.C19_sound_partial",
    "FA.Props.C19_no_panic",
    "FA.Props.C19_counterexample",
    "FA.Props.C19_counterexample_unsatisfiable",
    "FA.Props.C19_exact_iff_partial",
    "FA.Props.C19_analysis_exact_iff_partial"
   ],
   "note": "Exact for FBASs whose symmetric clusters repeat no node and whose inner quorum sets need a majority and offer a choice; this condition is also necessary if no node is repeated, all inner quorum sets can be satisfied and there are two minimal quorums (C19_exact_iff_partial, C19_analysis_exact_iff_partial). Sound (every reported set is the intersection of two minimal quorums) already if no node is repeated and all inner quorum sets can be satisfied (C19_sound_partial, C19_analysis_sound_partial). False otherwise (C19_counterexample, C19_counterexample_unsatisfiable). Never panics."
  },
  {
   "property": "C20",
   "status": "proved",
   "theorems": [
    "FA.Props.C20_pruning_sound",
    "FA.Props.C20_slice_intersection"
   ],
   "note": ""
  },
  {
   "property": "C21",
   "status": "partial",
   "theorems": [
    "FA.Props.C21_empty_splitting_set",
    "FA.Props.C21_fresh",
    "FA.Props.C21_all_histories_partial",
    "FA.Props.C21_consistent",
    "FA.Props.C21_counterexample"
   ],
   "note": "Proved for all FBASs on new objects and whenever minimal_blocking_sets was not the first computing call; for the remaining histories proved for well-shaped FBASs; for all FBASs and histories the result agrees with the verdict of the same object (C21_consistent), which can be wrong (C21_counterexample)."
  },
  {
   "property": "C22",
   "status": "proved",
   "theorems": [
    "FA.Props.C22_symmetric_clusters"
   ],
   "note": ""
  },
  {
   "property": "C23",
   "status": "proved",
   "theorems": [
    "FA.Props.C23_no_assertion"
   ],
   "note": ""
  },
  {
   "property": "C24",
   "status": "proved",
   "theorems": [
    "FA.Props.C24_symmetric_top_tier"
   ],
   "note": ""
  },
  {
   "property": "C25",
   "status": "proved",
   "theorems": [
    "FA.Props.C25_table",
    "FA.Props.C25_inverse",
    "FA.Props.C25_order",
    "FA.Props.C25_unshrink_shrink",
    "FA.Props.C25_shrink_unshrink",
    "FA.Props.C25_panic",
    "FA.Props.C25_reshrink",
    "FA.Props.C25_reshrink_unshrink"
   ],
   "note": ""
  },
  {
   "property": "C26",
   "status": "proved",
   "theorems": [
    "FA.Props.C26_quorums",
    "FA.Props.C26_min_quorums",
    "FA.Props.C26_analyses"
   ],
   "note": ""
  },
  {
   "property": "C27",
   "status": "partial",
   "theorems": [
    "FA.Props.C27_blocking_first_iff",
    "FA.Props.C27_minimal_quorums_as_sets_partial",
    "FA.Props.C27_minimal_quorums_partial",
    "FA.Props.C27_counterexample",
    "FA.Props.C27_sound"
   ],
   "note": "As sets proved for all FBASs unless blocking sets are computed first; list equality for all histories on well-shaped FBASs (all flat duplicate-free FBASs are); for all FBASs and histories every reported set is a minimal quorum (C27_sound). Completeness is false in general (C27_counterexample). C27_blocking_first_iff: after computing blocking sets first the minimal quorums are right iff every top tier node is in a reported blocking set."
  },
  {
   "property": "C28",
   "status": "partial",
   "theorems": [
    "FA.Props.C28_blocking_first",
    "FA.Props.C28_no_panic",
    "FA.Props.C28_no_panic_with_alternative_check",
    "FA.Props.C28_no_panic_shaped",
    "FA.Props.C28_history_independent_partial",
    "FA.Props.C28_env_independent_partial",
    "FA.Props.C28_quorums_first_partial",
    "FA.Props.C28_alternative_check_partial",
    "FA.Props.C28_counterexample"
   ],
   "note": "Absence of panics without the alternative check: all FBASs, all call sequences (C28_no_panic). History independence: all FBASs if blocking sets are not computed first, all histories for well-shaped FBASs. False in general (C28_counterexample). C28_blocking_first describes for all FBASs the results after computing blocking sets first: they are those of the network restricted to the nodes in the reported blocking sets."
  },
  {
   "property": "C29",
   "status": "partial",
   "theorems": [
    "FA.Props.C29_minimal_blocking_sets_partial",
    "FA.Props.C29_quorums_first_partial",
    "FA.Props.C29_no_quorum",
    "FA.Props.C29_counterexample",
    "FA.Props.C29_sound",
    "FA.Props.C29_exact_iff_partial"
   ],
   "note": "Exact for well-shaped FBASs with a quorum, all histories; on new objects exactly then (C29_exact_iff_partial). For all FBASs and histories every reported set is blocking (C29_sound). False otherwise (C29_counterexample, C29_no_quorum)."
  },
  {
   "property": "C30",
   "status": "proved",
   "theorems": [
    "FA.Props.C30_minimal",
    "FA.Props.C30_covers",
    "FA.Props.C30_members",
    "FA.Props.C30_idempotent",
    "FA.Props.C30_unshrink",
    "FA.Props.C30_unshrunken"
   ],
   "note": ""
  },
  {
   "property": "C31",
   "status": "proved",
   "theorems": [
    "FA.Props.C31_blocking",
    "FA.Props.C31_splitting",
    "FA.Props.C31_public_keys",
    "FA.Props.C31_grouping_names",
    "FA.Props.C31_single_set"
   ],
   "note": ""
  },
  {
   "property": "C32",
   "status": "proved",
   "theorems": [
    "FA.Props.C32_blocking",
    "FA.Props.C32_splitting",
    "FA.Props.C32_quorums",
    "FA.Props.C32_single_set"
   ],
   "note": ""
  },
  {
   "property": "C33",
   "status": "partial",
   "theorems": [
    "FA.Props.C33_new",
    "FA.Props.C33_general",
    "FA.Props.C33_missing",
    "FA.Props.C33_merge_node_partial",
    "FA.Props.C33_get_by_member",
    "FA.Props.C33_counterexample",
    "FA.Props.C33_number_of_groupings"
   ],
   "note": "False for overlapping groups (C33_counterexample); exact description for arbitrary groups in C33_general; the claim for disjoint groups in C33_merge_node_partial."
  },
  {
   "property": "C34",
   "status": "proved",
   "theorems": [
    "FA.Props.C34_statistics",
    "FA.Props.C34_histogram",
    "FA.Props.C34_describe",
    "FA.Props.C34_unshrink"
   ],
   "note": ""
  },
  {
   "property": "C35",
   "status": "partial",
   "theorems": [
    "FA.Props.C35_unwrap",
    "FA.Props.C35_unwrap_ok",
    "FA.Props.C35_without_nodes",
    "FA.Props.C35_merged_by_group",
    "FA.Props.C35_pretty",
    "FA.Props.C35_pretty_names",
    "FA.Props.C35_set_result",
    "FA.Props.C35_involved_nodes_partial",
    "FA.Props.C35_counterexample"
   ],
   "note": "All accessors correct except involved_nodes, which returns shrunken IDs (C35_counterexample)."
  },
  {
   "property": "C36",
   "status": "proved",
   "theorems": [
    "FA.Props.C36_load_save_load",
    "FA.Props.C36_save_load",
    "FA.Props.C36_same_quorums"
   ],
   "note": ""
  },
  {
   "property": "C37",
   "status": "proved",
   "theorems": [
    "FA.Props.C37_content",
    "FA.Props.C37_well_formed",
    "FA.Props.C37_quorums"
   ],
   "note": ""
  },
  {
   "property": "C38",
   "status": "partial",
   "theorems": [
    "FA.Props.C38_content",
    "FA.Props.C38_order",
    "FA.Props.C38_order_json",
    "FA.Props.C38_idempotent_iff",
    "FA.Props.C38_idempotent_partial",
    "FA.Props.C38_idempotent_counterexample"
   ],
   "note": "Content and order independence proved for all FBASs with different public keys. Idempotence is false in general (C38_idempotent_counterexample); exact criterion in C38_idempotent_iff, proved if relevant nodes list only relevant nodes."
  },
  {
   "property": "C39",
   "status": "proved",
   "theorems": [
    "FA.Props.C39_quorums",
    "FA.Props.C39_min_quorums",
    "FA.Props.C39_analysis"
   ],
   "note": ""
  },
  {
   "property": "C40",
   "status": "proved",
   "theorems": [
    "FA.Props.C40_add_node",
    "FA.Props.C40_swap_quorum_set",
    "FA.Props.C40_registry",
    "FA.Props.C40_add_generic_node",
    "FA.Props.C40_new_generic_unconfigured"
   ],
   "note": ""
  },
  {
   "property": "C41",
   "status": "proved",
   "theorems": [
    "FA.Props.C41_round",
    "FA.Props.C41_rounding",
    "FA.Props.C41_bounds",
    "FA.Props.C41_least",
    "FA.Props.C41_faults",
    "FA.Props.C41_float"
   ],
   "note": ""
  },
  {
   "property": "C42",
   "status": "proved",
   "theorems": [
    "FA.Props.C42_rounds",
    "FA.Props.C42_no_panic",
    "FA.Props.C42_ideal",
    "FA.Props.C42_superSafe"
   ],
   "note": ""
  },
  {
   "property": "C43",
   "status": "proved",
   "theorems": [
    "FA.Props.C43_quorums",
    "FA.Props.C43_safety_liveness"
   ],
   "note": ""
  },
  {
   "property": "C44",
   "status": "proved",
   "theorems": [
    "FA.Props.C44_quorums"
   ],
   "note": ""
  },
  {
   "property": "C45",
   "status": "partial",
   "theorems": [
    "FA.Props.C45_random_partial",
    "FA.Props.C45_panics_iff",
    "FA.Props.C45_counterexample"
   ],
   "note": "False for a desired size of 1 (threshold stays 0, effect NoChange; C45_counterexample). Proved for desired sizes of at least 2, also for nodes that already have some validators; panics exactly if too few other nodes have positive weight (C45_panics_iff)."
  },
  {
   "property": "C46",
   "status": "proved",
   "theorems": [
    "FA.Props.C46_growth",
    "FA.Props.C46_like_ideal",
    "FA.Props.C46_configure",
    "FA.Props.C46_no_change",
    "FA.Props.C46_idempotent"
   ],
   "note": ""
  },
  {
   "property": "C47",
   "status": "partial",
   "theorems": [
    "FA.Props.C47_full_mesh",
    "FA.Props.C47_tiered_partial",
    "FA.Props.C47_tiered_positive",
    "FA.Props.C47_counterexample",
    "FA.Props.C47_tiered_all",
    "FA.Props.C47_tiered_iff"
   ],
   "note": "False if a tier of size 0 is followed by a non-empty one after a non-empty one (C47_counterexample). C47_tiered_iff says exactly for which lists of sizes the claim holds, and C47_tiered_all how often nodes are linked for all other lists."
  },
  {
   "property": "C48",
   "status": "proved",
   "theorems": [
    "FA.Props.C48_scale_free",
    "FA.Props.C48_panics_iff"
   ],
   "note": ""
  },
  {
   "property": "C49",
   "status": "proved",
   "theorems": [
    "FA.Props.C49_small_world",
    "FA.Props.C49_min_degree",
    "FA.Props.C49_ring_lattice",
    "FA.Props.C49_panics_iff"
   ],
   "note": ""
  },
  {
   "property": "C50",
   "status": "proved",
   "theorems": [
    "FA.Props.C50_isomorphic"
   ],
   "note": ""
  },
  {
   "property": "C51",
   "status": "partial",
   "theorems": [
    "FA.Props.C51_read_back",
    "FA.Props.C51_round_trip_iff",
    "FA.Props.C51_round_trip_partial",
    "FA.Props.C51_counterexample",
    "FA.Props.C51_comment",
    "FA.Props.C51_line_ends"
   ],
   "note": "False: links in one direction are reversed, links of a node to itself and isolated nodes at the end are lost (C51_counterexample). Exact result in C51_read_back, exact criterion in C51_round_trip_iff; holds for undirected graphs without such nodes."
  },
  {
   "property": "C52",
   "status": "proved",
   "theorems": [
    "FA.Props.C52_undirected",
    "FA.Props.C52_in_degrees",
    "FA.Props.C52_out_degrees",
    "FA.Props.C52_degree_sums",
    "FA.Props.C52_degrees_undirected",
    "FA.Props.C52_connected"
   ],
   "note": ""
  },
  {
   "property": "C53",
   "status": "partial",
   "theorems": [
    "FA.Props.C53_name",
    "FA.Props.C53_groupings_partial",
    "FA.Props.C53_counterexample"
   ],
   "note": "False: empty names, names of commas only, and names not ending in an ASCII character panic (C53_counterexample); exact criterion and value proved for all names."
  },
  {
   "property": "C54",
   "status": "proved",
   "theorems": [
    "FA.Props.C54_groups",
    "FA.Props.C54_order",
    "FA.Props.C54_load",
    "FA.Props.C54_save",
    "FA.Props.C54_isps",
    "FA.Props.C54_countries"
   ],
   "note": ""
  },
  {
   "property": "C55",
   "status": "partial",
   "theorems": [
    "FA.Props.C55_mentions",
    "FA.Props.C55_trivial_groups_iff_partial",
    "FA.Props.C55_counterexample"
   ],
   "note": "Listed nodes and absence of panics: proved for all groupings. 'Unchanged by trivial groups' is false (C55_counterexample); C55_trivial_groups_iff_partial gives the exact criterion (Unmergeable): on every level no validators, a single one with threshold 1, or two different ones, and no mergeable inner set."
  },
  {
   "property": "C56",
   "status": "proved",
   "theorems": [
    "FA.Props.C56_almost_ideal",
    "FA.Props.C56_same_as_ideal",
    "FA.Props.C56_stellarlike",
    "FA.Props.C56_panics",
    "FA.Props.C56_no_shortcut",
    "FA.Props.C56_size_one"
   ],
   "note": "Quorums equal for all n >= 1 (and the stellar-like variant); the comment that no optimizations apply is false for n = 1 (C56_size_one)."
  },
  {
   "property": "C57",
   "status": "proved",
   "theorems": [
    "FA.Props.C57_tasklist",
    "FA.Props.C57_analyzer",
    "FA.Props.C57_performance",
    "FA.Props.C57_extract_error",
    "FA.Props.C57_extract",
    "FA.Props.C57_labels"
   ],
   "note": ""
  },
  {
   "property": "C58",
   "status": "partial",
   "theorems": [
    "FA.Props.C58_merged_meaning_partial",
    "FA.Props.C58_counterexample"
   ],
   "note": "False in general (C58_counterexample: the threshold is reset to 1 if all direct validators merge into one, although inner quorum sets remain); proved for quorum sets that do not mix a single organization with multi-organization inner sets."
  },
  {
   "property": "C59",
   "status": "proved",
   "theorems": [
    "FA.Props.C59_same_group",
    "FA.Props.C59_merge"
   ],
   "note": ""
  },
  {
   "property": "C60",
   "status": "proved",
   "theorems": [
    "FA.Props.C60_no_out_of_bounds",
    "FA.Props.C60_quorum_functions",
    "FA.Props.C60_out_of_bounds_iff",
    "FA.Props.C60_analysis",
    "FA.Props.C60_analysis_iff",
    "FA.Props.C60_shrunken_wf",
    "FA.Props.C60_growth_counterexample"
   ],
   "note": "Exact criterion for a panic (C60_out_of_bounds_iff, C60_analysis_iff); well-formed FBASs never panic; the simulation can produce FBASs that do (C60_growth_counterexample)."
  },
  {
   "property": "C61",
   "status": "partial",
   "theorems": [
    "FA.Props.C61_minimal_quorums",
    "FA.Props.C61_nonintersecting_quorums",
    "FA.Props.C61_remove_non_minimal_node_sets",
    "FA.Props.C61_splitting_sets",
    "FA.Props.C61_blocking_sets",
    "FA.Props.C61_blocking_sets_cause",
    "FA.Props.C61_no_assertion_partial",
    "FA.Props.C61_analysis_partial",
    "FA.Props.C61_counterexample",
    "FA.Props.C61_blocking_sets_no_result",
    "FA.Props.C61_analysis_counterexample"
   ],
   "note": "False in general (C61_counterexample, C61_analysis_counterexample: quorum sets that list a node twice). The assertions never fail in the searches for minimal splitting sets and for nonintersecting quorums and in remove_non_minimal_node_sets, for every well-formed FBAS. Exact criteria for minimal quorums and (if anything is reported) minimal blocking sets. If no quorum set lists a node twice, every sequence of calls on an Analysis object behaves the same in debug and release builds."
  },
  {
   "property": "C62",
   "status": "proved",
   "theorems": [
    "FA.Props.C62_nodes",
    "FA.Props.C62_unambiguous",
    "FA.Props.C62_organizations",
    "FA.Props.C62_entry_order",
    "FA.Props.C62_additional_entries",
    "FA.Props.C62_missing_quorum_set"
   ],
   "note": "Exact characterisation (iff) of accepted documents by an inductive description of the format."
  },
  {
   "property": "C63",
   "status": "proved",
   "theorems": [
    "FA.Props.C63_raw_round_trip",
    "FA.Props.C63_save_load",
    "FA.Props.C63_load_save_load",
    "FA.Props.C63_no_annotations",
    "FA.Props.C63_organizations"
   ],
   "note": "Round trips for all values whose thresholds fit into u64."
  },
  {
   "property": "C64",
   "status": "partial",
   "theorems": [
    "FA.Props.C64_public_keys",
    "FA.Props.C64_names",
    "FA.Props.C64_terminates",
    "FA.Props.C64_no_panic",
    "FA.Props.C64_quorum_set_keys",
    "FA.Props.C64_merge_idempotent",
    "FA.Props.C64_quorum_set_groups_partial",
    "FA.Props.C64_counterexample",
    "FA.Props.C64_ids",
    "FA.Props.C64_set",
    "FA.Props.C64_set_names",
    "FA.Props.C64_sets_names",
    "FA.Props.C64_summary",
    "FA.Props.C64_summary_shrunken",
    "FA.Props.C64_quorum_set_ids",
    "FA.Props.C64_quorum_set_shown"
   ],
   "note": "For disjoint groups where quorum sets are merged; counterexample for overlapping groups (one node is shown with two different names in one quorum set)."
  },
  {
   "property": "C65",
   "status": "partial",
   "theorems": [
    "FA.Props.C65_panics_iff",
    "FA.Props.C65_overview",
    "FA.Props.C65_clusters",
    "FA.Props.C65_minimal_quorums",
    "FA.Props.C65_intersection",
    "FA.Props.C65_nonintersecting",
    "FA.Props.C65_blocking_partial",
    "FA.Props.C65_blocking_sound",
    "FA.Props.C65_splitting_partial",
    "FA.Props.C65_splitting_without_intersection",
    "FA.Props.C65_top_tier_partial",
    "FA.Props.C65_names",
    "FA.Props.C65_comments",
    "FA.Props.C65_independent_partial",
    "FA.Props.C65_groups",
    "FA.Props.C65_counterexample",
    "FA.Props.C65_nonintersecting_same_names"
   ],
   "note": "Panics, names, quorums, intersection, witness, overview, clusters: all inputs and options (disjoint groups). Blocking sets, splitting sets and top tier under the same side conditions as C18, C19, C29, depending on the options; C65_counterexample shows what is printed otherwise. Blocking sets that are shown are blocking for all FBASs (C65_blocking_sound)."
  },
  {
   "property": "C66",
   "status": "proved",
   "theorems": [
    "FA.Props.C66_panics_iff",
    "FA.Props.C66_scores",
    "FA.Props.C66_distribution",
    "FA.Props.C66_regular",
    "FA.Props.C66_renaming",
    "FA.Props.C66_positive"
   ],
   "note": "Exact arithmetic, except C66_panics_iff and the first part of C66_regular, which hold for every rounding."
  },
  {
   "property": "C67",
   "status": "proved",
   "theorems": [
    "FA.Props.C67_top_tier",
    "FA.Props.C67_empty_iff",
    "FA.Props.C67_regular",
    "FA.Props.C67_counterexample",
    "FA.Props.C67_configure",
    "FA.Props.C67_growth",
    "FA.Props.C67_quorum_intersection"
   ],
   "note": "Top tier with exact arithmetic; growth for every list of top tier nodes. C67_counterexample: result for full meshes depends on rounding errors."
  },
  {
   "property": "C68",
   "status": "proved",
   "theorems": [
    "FA.Props.C68_tierness",
    "FA.Props.C68_mutual",
    "FA.Props.C68_configure",
    "FA.Props.C68_symmetric",
    "FA.Props.C68_growth",
    "FA.Props.C68_like_ideal",
    "FA.Props.C68_no_intersection",
    "FA.Props.C68_zero_score"
   ],
   "note": "For arbitrary given scores. C68_no_intersection and C68_zero_score record limitations of the code."
  },
  {
   "property": "C69",
   "status": "partial",
   "theorems": [
    "FA.Props.C69_panics_iff",
    "FA.Props.C69_has_quorum_intersection",
    "FA.Props.C69_columns",
    "FA.Props.C69_groups",
    "FA.Props.C69_top_tier",
    "FA.Props.C69_quorums",
    "FA.Props.C69_blocking_partial",
    "FA.Props.C69_blocking_sound",
    "FA.Props.C69_splitting_partial",
    "FA.Props.C69_splitting_without_intersection",
    "FA.Props.C69_hash",
    "FA.Props.C69_task",
    "FA.Props.C69_output",
    "FA.Props.C69_complete",
    "FA.Props.C69_lost",
    "FA.Props.C69_no_quorums",
    "FA.Props.C69_lost_counterexample"
   ],
   "note": "Panics, verdict, columns present, groups, top tier, quorums, hash, output file without panics: all inputs. Sizes of blocking and splitting sets under the side conditions of C29 and C19. C69_lost and C69_lost_counterexample: existing results are lost with --update if an analysis panics; C69_no_quorums: zeros for FBASs without quorums. Blocking sets that are shown are blocking for all FBASs (C69_blocking_sound)."
  },
  {
   "property": "C70",
   "status": "partial",
   "theorems": [
    "FA.Props.C70_almost_ideal_partial",
    "FA.Props.C70_stellarlike",
    "FA.Props.C70_one_node",
    "FA.Props.C70_one_node_counterexample",
    "FA.Props.C70_panics_iff",
    "FA.Props.C70_output"
   ],
   "note": "All sizes n >= 2 and all numbers of organizations, exact counts and mean sizes; assertions and output for all inputs. Missing: n = 1, for which the claim is false (C70_one_node_counterexample: one minimal blocking set is counted twice)."
  },
  {
   "property": "C71",
   "status": "partial",
   "theorems": [
    "FA.Props.C71_unreadable_graph",
    "FA.Props.C71_size",
    "FA.Props.C71_read_back",
    "FA.Props.C71_ideal",
    "FA.Props.C71_super_safe",
    "FA.Props.C71_random_partial",
    "FA.Props.C71_random_small",
    "FA.Props.C71_fame",
    "FA.Props.C71_fame_small",
    "FA.Props.C71_all_neighbors",
    "FA.Props.C71_higher_tier",
    "FA.Props.C71_symmetric_partial",
    "FA.Props.C71_global_rank",
    "FA.Props.C71_global_rank_panics",
    "FA.Props.C71_ideal_analysis",
    "FA.Props.C71_super_safe_analysis",
    "FA.Props.C71_default_size_counterexample",
    "FA.Props.C71_ideal_counterexample",
    "FA.Props.C71_symmetric_counterexample",
    "FA.Props.C71_fame_counterexample"
   ],
   "note": "Size, reading back, Ideal, SuperSafe, AllNeighbors, HigherTierNeighbors, GlobalRank and its panics: all inputs. Random: sizes of at least 2 (C71_random_small: otherwise unsatisfiable); FameWeightedRandom: the exact condition for a panic, which does not depend on the random choices (C71_fame; C71_fame_counterexample shows that the claim about panics is false for this policy). Symmetry enforcement: bounds on quorum sets; missing: symmetric top tier, which is false (C71_symmetric_counterexample). C71_default_size_counterexample, C71_ideal_counterexample: documentation is wrong."
  },
  {
   "property": "C72",
   "status": "partial",
   "theorems": [
    "FA.Props.C72_readable",
    "FA.Props.C72_panics_iff",
    "FA.Props.C72_scale_free_partial",
    "FA.Props.C72_small_world_partial",
    "FA.Props.C72_ring",
    "FA.Props.C72_simulator",
    "FA.Props.C72_comment",
    "FA.Props.C72_counterexample"
   ],
   "note": "Readability, panics, ring without rewiring, pipeline with all-neighbors: all inputs. C72_scale_free_partial excludes n = m0 = m = 1 and C72_small_world_partial excludes k = 0 and k = n: without links the nodes are lost (C72_counterexample). Assumption: formatting an f64 yields no line break."
  },
  {
   "property": "C73",
   "status": "proved",
   "theorems": [
    "FA.Props.C73_ieee",
    "FA.Props.C73_scores",
    "FA.Props.C73_all",
    "FA.Props.C73_sorted",
    "FA.Props.C73_order",
    "FA.Props.C73_panics_iff",
    "FA.Props.C73_environment",
    "FA.Props.C73_sum",
    "FA.Props.C73_untrusted",
    "FA.Props.C73_symmetric"
   ],
   "note": "For every rounding with an error of at most half a unit in the last place (HalfUlp); C73_ieee proves this for IEEE 754 binary64. C73_environment: the computed order is one of those quantified over as Env.rank in the other theorems. Infinite numbers and NaN are not distinguished in the model; neither occurs."
  },
  {
   "property": "C74",
   "status": "partial",
   "theorems": [
    "FA.Props.C74_do_analysis",
    "FA.Props.C74_exact_partial",
    "FA.Props.C74_runs",
    "FA.Props.C74_second_run",
    "FA.Props.C74_hashed_json",
    "FA.Props.C74_report_partial",
    "FA.Props.C74_no_quorum",
    "FA.Props.C74_bad_input",
    "FA.Props.C74_counterexample",
    "FA.Props.C74_tidy",
    "FA.Props.C74_report_tidy"
   ],
   "note": "Never panicking analysis, independence of the cache, no second analysis, hashed JSON, bad input, no quorum: all inputs. Exact report: FBASs whose standard form is well-shaped (C19, C29), distinct keys, disjoint organizations. C74_counterexample: the last line is wrong if no set is splitting. Assumption: the hash is a function of the JSON value; equal FBASs are found in the HashMap. For inputs with a tidy top tier and majorities inside, the report is right for all runs, stated in terms of the input files alone (C74_report_tidy)."
  },
  {
   "property": "C75",
   "status": "partial",
   "theorems": [
    "FA.Props.C75_slice",
    "FA.Props.C75_blocking",
    "FA.Props.C75_splitting_threshold",
    "FA.Props.C75_loading",
    "FA.Props.C75_loading_same",
    "FA.Props.C75_splitting_release_partial",
    "FA.Props.C75_analysis_partial",
    "FA.Props.C75_debug",
    "FA.Props.C75_wrong_release",
    "FA.Props.C75_panic_debug"
   ],
   "note": "Slice tests, blocking sets, loading: all representable inputs, all word sizes and builds. Analysis: exact for all histories if inner quorum sets of nodes in quorums have thresholds that can be doubled (thresholds of nodes in no quorum are arbitrary); debug builds: exact or panic, without conditions. The full claim is false: C75_wrong_release (wrong splitting set reported), C75_panic_debug. C75_splitting_threshold: doubling is exact iff it fits. Sizes of collections are assumed to be below the word size; memory exhaustion is not modelled."
  },
  {
   "property": "C76",
   "status": "partial",
   "theorems": [
    "FA.Props.C76_order_partial",
    "FA.Props.C76_without_blocking_sets",
    "FA.Props.C76_order_counterexample"
   ],
   "note": "All call sequences and rankings, inputs with different public keys in which no quorum set lists a node twice or no single node is a quorum. Without that condition: all calls except minimal_blocking_sets, if these were not computed first (C76_without_blocking_sets). The full claim is false: C76_order_counterexample."
  },
  {
   "property": "C77",
   "status": "proved",
   "theorems": [
    "FA.Props.C77_unlisted_nodes",
    "FA.Props.C77_unlisted_nodes_input",
    "FA.Props.C77_all_nodes",
    "FA.Props.C77_own_quorum"
   ],
   "note": "Proved for all methods; those about all nodes are compared on the old nodes. The condition that new nodes contain no quorum is necessary (C77_own_quorum)."
  },
  {
   "property": "C78",
   "status": "partial",
   "theorems": [
    "FA.Props.C78_intersection",
    "FA.Props.C78_satisfiable",
    "FA.Props.C78_blocking_partial",
    "FA.Props.C78_blocking_finder_partial",
    "FA.Props.C78_splitting_partial",
    "FA.Props.C78_counterexample"
   ],
   "note": "False for blocking sets in general: the search misses sets if the stricter FBAS has a symmetric cluster with repeated nodes or unsatisfiable inner quorum sets (C78_counterexample). Proved for well-shaped stricter FBASs; intersection and satisfiability without that condition. Splitting sets: every reported set of the stricter FBAS contains a reported one of the other or a whole quorum of it (C78_splitting_partial)."
  },
  {
   "property": "C79",
   "status": "proved",
   "theorems": [
    "FA.Props.C79_order",
    "FA.Props.C79_lexicographic",
    "FA.Props.C79_equal"
   ],
   "note": ""
  },
  {
   "property": "C80",
   "status": "partial",
   "theorems": [
    "FA.Props.C80_quorums",
    "FA.Props.C80_minimal_quorums",
    "FA.Props.C80_intersection",
    "FA.Props.C80_blocking_partial",
    "FA.Props.C80_counterexample"
   ],
   "note": "Quorums, minimal quorums and intersection in full. False for blocking sets in general (C80_counterexample: the new analysis misses sets when failures make inner quorum sets unsatisfiable, and reports nothing if no quorum is left). Proved if both inputs are well-shaped and a quorum is left."
  },
  {
   "property": "C81",
   "status": "partial",
   "theorems": [
    "FA.Props.C81_threshold",
    "FA.Props.C81_float_partial",
    "FA.Props.C81_fraction_partial",
    "FA.Props.C81_counterexample"
   ],
   "note": "The documented formula is false for products that are integers (C81_counterexample: 0.07 of 100 gives 8). Proved for b*n < 2^51: never below the fraction, exact unless na/b is an integer and a/b is no f64, then at most one more; for f64 inputs exact or one less when nx is within rounding of an integer."
  },
  {
   "property": "C82",
   "status": "partial",
   "theorems": [
    "FA.Props.C82_fork",
    "FA.Props.C82_endangers",
    "FA.Props.C82_intersection",
    "FA.Props.C82_same_quorum_sets_partial",
    "FA.Props.C82_reported_partial",
    "FA.Props.C82_all_reported_partial",
    "FA.Props.C82_counterexample"
   ],
   "note": "If there are different minimal quorums, minimal splitting sets are the minimal sets that can fork by taking part in two decisions (C82_fork), and each of them endangers safety (C82_endangers, C82_reported_partial). Missing: misbehaving nodes that disregard their own quorum sets can be more dangerous than reported, unless all nodes have the same quorum set (C82_same_quorum_sets_partial); with just one minimal quorum nothing is reported (C82_counterexample)."
  },
  {
   "property": "C83",
   "status": "partial",
   "theorems": [
    "FA.Props.C83_blocking",
    "FA.Props.C83_splitting",
    "FA.Props.C83_analysis_partial",
    "FA.Props.C83_bulk_blocking_partial",
    "FA.Props.C83_bulk_splitting_partial",
    "FA.Props.C83_counterexample"
   ],
   "note": "Proved about minimal sets of every FBAS (C83_blocking, C83_splitting) and about the reported ones where these are exact. Missing: for FBASs that are not well-shaped the reported numbers contradict each other, and the bound for splitting sets of nodes does not carry over to groups (C83_counterexample)."
  },
  {
   "property": "C84",
   "status": "proved",
   "theorems": [
    "FA.Props.C84_mean",
    "FA.Props.C84_whole",
    "FA.Props.C84_compare"
   ],
   "note": "Model with all three roundings (meanF64). Proved for sums and numbers of sets up to 2^53; the sum of sizes is assumed not to overflow."
  },
  {
   "property": "C85",
   "status": "partial",
   "theorems": [
    "FA.Props.C85_data_point_partial",
    "FA.Props.C85_other_columns",
    "FA.Props.C85_tool_partial",
    "FA.Props.C85_other_results",
    "FA.Props.C85_clusters",
    "FA.Props.C85_counterexample",
    "FA.Props.C85_tool_counterexample"
   ],
   "note": "For inputs in which no quorum set lists a node twice or no single node is a quorum; without that condition, everything except results about minimal blocking sets. The full claim is false: C85_counterexample, C85_tool_counterexample. Symmetric clusters: C85_clusters, for disjoint groups. For the tool, nothing is said about IDs and example nonintersecting quorums."
  },
  {
   "property": "C86",
   "status": "proved",
   "theorems": [
    "FA.Props.C86_rounding",
    "FA.Props.C86_applies",
    "FA.Props.C86_scores",
    "FA.Props.C86_top_tier",
    "FA.Props.C86_tierness",
    "FA.Props.C86_counterexample"
   ],
   "note": "The rounding of IEEE 754 (with subnormal numbers) is proved to have the assumed accuracy (C86_rounding). Sizes: C86_applies."
  },
  {
   "property": "C87",
   "status": "partial",
   "theorems": [
    "FA.Props.C87_quorums",
    "FA.Props.C87_reports",
    "FA.Props.C87_blocking_partial"
   ],
   "note": "Quorums, minimal quorums, top tier, quorum intersection and splitting sets: complete (C87_quorums, C87_reports). Minimal blocking sets: for well-shaped FBASs (no duplicate entries or unsatisfiable inner quorum sets where shortcuts are used, see C16, C29)."
  },
  {
   "property": "C88",
   "status": "partial",
   "theorems": [
    "FA.Props.C88_liveness",
    "FA.Props.C88_reported_stop",
    "FA.Props.C88_minimal_blocking_sets_partial",
    "FA.Props.C88_safety",
    "FA.Props.C88_verdict",
    "FA.Props.C88_minimal_splitting_sets_partial"
   ],
   "note": "The transition systems, termination and confluence: complete (C88_liveness, C88_safety, C88_verdict); every reported blocking set stops all nodes (C88_reported_stop). Exactness of minimal blocking sets and splitting sets for well-shaped FBASs; splitting sets only in one direction (C82_counterexample)."
  },
  {
   "property": "C89",
   "status": "proved",
   "theorems": [
    "FA.Props.C89_minimal_quorums",
    "FA.Props.C89_quorum_intersection",
    "FA.Props.C89_minimal_blocking_sets",
    "FA.Props.C89_minimal_splitting_sets",
    "FA.Props.C89_top_tier",
    "FA.Props.C89_ideal"
   ],
   "note": "Complete: no assumption on shapes or on call sequences; the number of sets (binomial coefficients) is part of the theorems. C89_ideal instantiates it for simulated networks of any size."
  },
  {
   "property": "C90",
   "status": "proved",
   "theorems": [
    "FA.Props.C90_minimal_quorums",
    "FA.Props.C90_minimal_blocking_sets",
    "FA.Props.C90_minimal_splitting_sets",
    "FA.Props.C90_nonintersecting_quorums",
    "FA.Props.C90_removal"
   ],
   "note": "Complete. Big-step semantics without fuel (SpecSearch); every execution ends with what the model functions compute with any sufficient fuel, so the fuel in the model is no restriction."
  },
  {
   "property": "C91",
   "status": "proved",
   "theorems": [
    "FA.Props.C91_well_shaped",
    "FA.Props.C91_majorities",
    "FA.Props.C91_all_exact",
    "FA.Props.C91_determined",
    "FA.Props.C91_tool",
    "FA.Props.C91_tool_independent",
    "FA.Props.C91_bulk"
   ],
   "note": "Complete. Hypotheses are about the declared quorum sets of top tier nodes only (SpecTidy), not about symmetric clusters or shrunken networks."
  },
  {
   "property": "C92",
   "status": "proved",
   "theorems": [
    "FA.Props.C92_minimal_quorums",
    "FA.Props.C92_quorum_intersection",
    "FA.Props.C92_minimal_blocking_sets",
    "FA.Props.C92_minimal_splitting_sets",
    "FA.Props.C92_top_tier",
    "FA.Props.C92_counts"
   ],
   "note": "Complete. Generalises C89 (organizations of one node) and the numbers in C70 to any disjoint organizations. Follows from the exactness in C91 and a description of minimal sets in terms of organizations."
  },
  {
   "property": "C93",
   "status": "proved",
   "theorems": [
    "FA.Props.C93_sets",
    "FA.Props.C93_splitting_sets",
    "FA.Props.C93_cluster",
    "FA.Props.C93_bulk"
   ],
   "note": "Complete. Follows from exactness for tidy top tiers (C91_tool, C91_bulk) and the description of agreeing organizations in C92."
  },
  {
   "property": "C94",
   "status": "proved",
   "theorems": [
    "FA.Props.C94_results",
    "FA.Props.C94_splitting",
    "FA.Props.C94_separate"
   ],
   "note": "Complete. The condition is stated on the input (raw FBAS); it carries over to the loaded FBAS, where C91 applies, and to unrelated networks put together."
  },
  {
   "property": "C95",
   "status": "proved",
   "theorems": [
    "FA.Props.C95_plain",
    "FA.Props.C95_tool",
    "FA.Props.C95_independent",
    "FA.Props.C95_exact",
    "FA.Props.C95_no_panics",
    "FA.Props.C95_uniform",
    "FA.Props.C95_ideal",
    "FA.Props.C95_super_safe",
    "FA.Props.C95_generated"
   ],
   "note": "Complete. Results are exact if the network has a quorum (otherwise see C65); merging is allowed by disjoint groups; closed forms are for runs without merging and fewer than 2^64 nodes."
  },
  {
   "property": "C96",
   "status": "proved",
   "theorems": [
    "FA.Props.C96_printed_stop",
    "FA.Props.C96_stop",
    "FA.Props.C96_disagree"
   ],
   "note": "Complete for disjoint groups. The executions are those of SpecExecution (C89); printed sets are exact for networks with a tidy top tier (C91), for other networks printed blocking sets still stop all nodes."
  },
  {
   "property": "C97",
   "status": "proved",
   "theorems": [
    "FA.Props.C97_plain",
    "FA.Props.C97_uniform",
    "FA.Props.C97_simulated",
    "FA.Props.C97_ideal",
    "FA.Props.C97_super_safe"
   ],
   "note": "Complete. Rows of networks without quorums: see C69_no_quorums. f64 means are modelled by rational numbers."
  },
  {
   "property": "C98",
   "status": "proved",
   "theorems": [
    "FA.Props.C98_random_only",
    "FA.Props.C98_random_possible",
    "FA.Props.C98_fame_only",
    "FA.Props.C98_fame_possible",
    "FA.Props.C98_scale_free",
    "FA.Props.C98_shuffled"
   ],
   "note": "Complete. Possible means: for some generator that meets the assumptions in the structure Rand. Small-world graphs: see C101."
  },
  {
   "property": "C99",
   "status": "proved",
   "theorems": [
    "FA.Props.C99_random",
    "FA.Props.C99_random_grown",
    "FA.Props.C99_random_verdict",
    "FA.Props.C99_fame",
    "FA.Props.C99_fame_iff",
    "FA.Props.C99_fame_threshold",
    "FA.Props.C99_fame_verdict"
   ],
   "note": "Complete. Quorum intersection is stated about the network that is read back from the printed document (thresholds below 2^64)."
  },
  {
   "property": "C100",
   "status": "proved",
   "theorems": [
    "FA.Props.C100_scale_free",
    "FA.Props.C100_random",
    "FA.Props.C100_fame",
    "FA.Props.C100_most_links"
   ],
   "note": "Complete. Probabilities: see C102. The theorems say which candidates and weights are handed to choose_weighted, for every condition that the generator guarantees about its choices."
  },
  {
   "property": "C101",
   "status": "proved",
   "theorems": [
    "FA.Props.C101_small_world",
    "FA.Props.C101_possible",
    "FA.Props.C101_all_replaced",
    "FA.Props.C101_tool"
   ],
   "note": "Complete. Probabilities of networks are not given: the theorems say with which probability coins are flipped, for every condition that the generator guarantees about such coins."
  },
  {
   "property": "C102",
   "status": "proved",
   "theorems": [
    "FA.Props.C102_fair",
    "FA.Props.C102_random",
    "FA.Props.C102_weighted",
    "FA.Props.C102_scale_free",
    "FA.Props.C102_random_all",
    "FA.Props.C102_random_uniform",
    "FA.Props.C102_weighted_network",
    "FA.Props.C102_weighted_few",
    "FA.Props.C102_fame",
    "FA.Props.C102_shuffled",
    "FA.Props.C102_small_world",
    "FA.Props.C102_small_world_possible",
    "FA.Props.C102_small_world_ring"
   ],
   "note": "Complete for ideal randomness: probabilities are taken over independent, uniformly distributed numbers below L (any L that is divisible by the totals that come up), from which the generator `lottery L` makes its choices; `C102_fair` shows that its choices have the probabilities that the documentation of rand promises. (a) is C102_random and C102_random_all (probability of each network) and C102_random_uniform (of each condition on networks), (b) C102_weighted (one node), C102_weighted_network and C102_weighted_few (whole networks) and C102_fame (the weights of the tool), (c) C102_scale_free, (d) C102_small_world, C102_small_world_possible and C102_small_world_ring, (e) C102_shuffled."
  },
  {
   "property": "C103",
   "status": "proved",
   "theorems": [
    "FA.Props.C103_probability",
    "FA.Props.C103_certain",
    "FA.Props.C103_fame",
    "FA.Props.C103_fame_threshold"
   ],
   "note": "Complete for ideal randomness, as in C102 (generator `lottery L`). Quorum intersection is stated about the network that is read back from the printed document (thresholds below 2^64)."
  }
 ]
}
