{"id": "C01", "title": "Quorum-slice test decides recursive threshold satisfaction", "statement": "QuorumSet::is_quorum_slice(S) returns true exactly when the quorum set has a positive threshold t and one can pick t of its entries (entries are list positions: a validator, or an inner quorum set) such that every picked validator is in S and every picked inner quorum set is, recursively, satisfied by S. A quorum set with threshold 0 is never satisfied.", "quantifier": "all quorum sets of any nesting depth, any thresholds, with or without repeated validators, and all finite node sets", "why_tests_cant": "Nesting depth, list lengths and thresholds are unbounded; the early-exit counting (`take`) has to be right for every combination.", "anchors": ["src/core_types/quorum_set.rs: QuorumSet::is_quorum_slice", "src/core_types/fbas.rs: Node::is_quorum_slice"]}
{"id": "C02", "title": "Slices are monotone and only depend on the listed nodes", "statement": "Adding nodes to a set never turns a quorum slice into a non-slice, and whether S is a slice for a quorum set only depends on which of the nodes listed in that quorum set (at any depth, QuorumSet::contained_nodes) are in S.", "quantifier": "all quorum sets, all pairs of node sets", "why_tests_cant": "It is a relation between infinitely many pairs of inputs; every pruning step of the search algorithms relies on it.", "anchors": ["src/core_types/quorum_set.rs: QuorumSet::is_quorum_slice, QuorumSet::contained_nodes"]}
{"id": "C03", "title": "Quorum test and closure of quorums under union", "statement": "Fbas::is_quorum(S) returns true exactly when S is non-empty and S is a quorum slice for every member; the union of two quorums is again a quorum.", "quantifier": "all FBASs and all node sets", "why_tests_cant": "Quantifies over all FBASs and pairs of quorums.", "anchors": ["src/core_types/fbas.rs: Fbas::is_quorum"]}
{"id": "C04", "title": "to_quorum_slices generates exactly the slices", "statement": "S is a quorum slice of a quorum set iff S contains at least one of the sets returned by QuorumSet::to_quorum_slices; every returned set is itself a slice. If no node is listed twice, the returned sets are exactly the minimal slices, each returned once.", "quantifier": "all quorum sets of any nesting depth (including thresholds 0 and thresholds above the number of entries) and all node sets", "why_tests_cant": "The doc comment claims it for every valid slice; the number of slices is exponential and nesting is unbounded.", "anchors": ["src/core_types/quorum_set.rs: QuorumSet::to_quorum_slices, QuorumSet::contains_duplicates"]}
{"id": "C05", "title": "Satisfiable nodes are exactly the nodes that are in some quorum", "statement": "find_satisfiable_nodes(S) splits S into two disjoint parts whose union is S; the first part is the largest quorum inside S (the union of all quorums contained in S; empty if there is none). In particular satisfiable_nodes() are the nodes that belong to at least one quorum and unsatisfiable_nodes() are all others.", "quantifier": "all FBASs and all node sets S", "why_tests_cant": "The loop removes nodes one at a time until a fixpoint; correctness and termination need an invariant over all removal orders and cascade lengths.", "anchors": ["src/analysis/preprocessing.rs: find_satisfiable_nodes, Fbas::satisfiable_nodes, Fbas::unsatisfiable_nodes"]}
{"id": "C06", "title": "Quorum containment check", "statement": "The check used everywhere for 'this node set contains a quorum' (observable through find_minimal_quorums, relevant_nodes and find_symmetric_top_tier) returns true iff some subset of the set is a quorum.", "quantifier": "all FBASs and node sets", "why_tests_cant": "2^n subsets per set; fixpoint loop.", "anchors": ["src/analysis/quorums.rs: contains_quorum, complement_contains_quorum"]}
{"id": "C07", "title": "Strongly connected components partition the nodes and localise minimal quorums", "statement": "strongly_connected_components() partitions the nodes such that two nodes share a part iff each reaches the other via quorum-set membership, and every minimal quorum lies inside a single part.", "quantifier": "all FBASs whose quorum sets only mention existing nodes, all implementations of the external SCC routine meeting its specification", "why_tests_cant": "A graph-theoretic statement over all trust graphs; relied on for soundness of the per-component search.", "anchors": ["src/analysis/preprocessing.rs: partition_into_strongly_connected_components, Fbas::strongly_connected_components", "src/analysis/sets.rs: find_sets"]}
{"id": "C08", "title": "Relevant nodes suffice for analysis", "statement": "relevant_nodes() contains every node of every minimal quorum and consists exactly of the satisfiable nodes whose strongly connected component (restricted to satisfiable nodes) contains a quorum.", "quantifier": "all FBASs whose quorum sets only mention existing nodes", "why_tests_cant": "Everything Analysis reports is computed after discarding all other nodes, so losing a node is a silent wrong answer for some FBAS.", "anchors": ["src/analysis/preprocessing.rs: Fbas::relevant_nodes"]}
{"id": "C09", "title": "find_minimal_quorums returns exactly the minimal quorums", "statement": "A node set is in the result of find_minimal_quorums(fbas) iff it is a quorum of which no proper subset is a quorum. The call never panics.", "quantifier": "all FBASs whose quorum sets only mention existing nodes, symmetric or not, any number of components, any node ranking", "why_tests_cant": "Exponential branch-and-bound search with pruning and a separate shortcut for symmetric clusters; missing one quorum for one FBAS makes a safety verdict wrong.", "anchors": ["src/analysis/quorums.rs: find_minimal_quorums, minimal_quorums_finder, minimal_quorums_finder_step, is_minimal_for_quorum, QuorumSet::to_minimal_quorums"]}
{"id": "C10", "title": "Minimal quorums are listed once, in a canonical order", "statement": "The list returned by find_minimal_quorums contains no set twice and is ordered by size and then lexicographically by node IDs.", "quantifier": "all FBASs whose quorum sets only mention existing nodes", "why_tests_cant": "Duplicates can arise from any combination of search branches or symmetric-cluster expansion.", "anchors": ["src/analysis/quorums.rs: find_minimal_quorums, QuorumSet::to_minimal_quorums", "src/analysis/sets.rs: find_minimal_sets, remove_non_minimal_x"]}
{"id": "C11", "title": "Results do not depend on node ranking or component order", "statement": "find_minimal_quorums returns the identical list no matter in which order the ranking heuristic arranges the nodes and in which order the strongly connected components are produced; likewise find_minimal_blocking_sets, find_minimal_splitting_sets where they are exact.", "quantifier": "all FBASs, all pairs of ranking permutations and SCC orders", "why_tests_cant": "The ranking is computed in floating point and could differ between platforms; tests see a single ranking.", "anchors": ["src/analysis/preprocessing.rs: sort_by_rank", "src/analysis/sets.rs: find_minimal_sets"]}
{"id": "C12", "title": "has_quorum_intersection decides quorum intersection", "statement": "Analysis::has_quorum_intersection() returns true iff the FBAS has at least one quorum and every two quorums share a node.", "quantifier": "all FBASs whose quorum sets only mention existing nodes; all pairs of quorums", "why_tests_cant": "The verdict is about all pairs among exponentially many quorums while the code only inspects minimal quorums of a shrunken FBAS.", "anchors": ["src/analysis/front_end.rs: Analysis::has_quorum_intersection", "src/analysis/sets.rs: all_intersect"]}
{"id": "C13", "title": "all_intersect decides pairwise intersection", "statement": "all_intersect(sets) returns true iff any two sets at different positions share a node; the cardinality shortcut never changes the answer.", "quantifier": "all lists of node sets", "why_tests_cant": "The shortcut is a pigeonhole argument over set sizes; a wrong boundary only shows on particular size combinations.", "anchors": ["src/analysis/sets.rs: all_intersect, involved_nodes"]}
{"id": "C14", "title": "find_nonintersecting_quorums is sound and complete", "statement": "For an FBAS with at least one quorum, find_nonintersecting_quorums returns Some list of at least two pairwise disjoint quorums if two disjoint quorums exist, and None otherwise; has_quorum_intersection_via_alternative_check then agrees with has_quorum_intersection.", "quantifier": "all FBASs whose quorum sets only mention existing nodes", "why_tests_cant": "Branch-and-bound with a depth limit of half the nodes; completeness depends on a counting argument for every pair of quorums.", "anchors": ["src/analysis/quorums.rs: find_nonintersecting_quorums, nonintersecting_quorums_finder, nonintersecting_quorums_finder_step", "src/analysis/front_end.rs: Analysis::has_quorum_intersection_via_alternative_check"]}
{"id": "C15", "title": "The alternative quorum intersection check never panics", "statement": "has_quorum_intersection_via_alternative_check / find_nonintersecting_quorums return a verdict for every FBAS.", "quantifier": "all FBASs, including those without any quorum", "why_tests_cant": "The internal assertions depend on global structure (that a sole consensus cluster is itself a quorum).", "anchors": ["src/analysis/quorums.rs: nonintersecting_quorums_finder (assert)", "src/analysis/front_end.rs: Analysis::has_quorum_intersection_via_alternative_check"]}
{"id": "C16", "title": "find_minimal_blocking_sets returns exactly the minimal blocking sets", "statement": "For an FBAS with at least one quorum, a node set is in the result of find_minimal_blocking_sets(fbas) iff it intersects every quorum and no proper subset does; no set is listed twice.", "quantifier": "all FBASs whose quorum sets only mention existing nodes", "why_tests_cant": "Minimal hitting sets of exponentially many quorums; separate code for symmetric clusters.", "anchors": ["src/analysis/blocking_sets.rs: find_minimal_blocking_sets, minimal_blocking_sets_finder, minimal_blocking_sets_finder_step, QuorumSet::to_minimal_blocking_sets, QuorumSet::to_blocking_sets, is_minimal_for_blocking_set"]}
{"id": "C17", "title": "Without quorums the empty set is the only minimal blocking set", "statement": "If the FBAS has no quorum at all (it is already blocked), find_minimal_blocking_sets returns exactly one set, the empty set.", "quantifier": "all FBASs without a quorum", "why_tests_cant": "An edge case of the definition over all unsatisfiable FBASs.", "anchors": ["src/analysis/blocking_sets.rs: minimal_blocking_sets_finder"]}
{"id": "C18", "title": "The top tier is the same whether computed from quorums or from blocking sets", "statement": "The union of all minimal quorums equals the union of all minimal blocking sets; Analysis::top_tier() returns exactly the nodes that are in at least one minimal quorum.", "quantifier": "all FBASs", "why_tests_cant": "Hypergraph duality; the code picks one or the other depending on what is cached.", "anchors": ["src/analysis/front_end.rs: Analysis::top_tier, Analysis::top_tier_shrunken"]}
{"id": "C19", "title": "find_minimal_splitting_sets returns exactly the minimal splitting sets", "statement": "For an FBAS with quorum intersection, find_minimal_splitting_sets(fbas, minimal_quorums) returns exactly the minimal sets among those containing the intersection of two different minimal quorums, each once.", "quantifier": "all FBASs with quorum intersection whose quorum sets only mention existing nodes", "why_tests_cant": "Search over intersections of exponentially many pairs of quorums with a pruning heuristic; separate code for symmetric clusters.", "anchors": ["src/analysis/splitting_sets.rs: find_minimal_splitting_sets, minimal_splitting_sets_finder, splitting_sets_finder_step, QuorumSet::to_splitting_sets"]}
{"id": "C20", "title": "The splitting-set pruning heuristic never discards a splitting set", "statement": "Whenever two quorums both contain all of a set A, every member of A passes the slice-intersection check with respect to the intersection of the two quorums, so the has_potential filter never removes a quorum intersection.", "quantifier": "all FBASs, all pairs of quorums", "why_tests_cant": "A counting argument (2t-n) over all nested quorum sets.", "anchors": ["src/analysis/splitting_sets.rs: has_potential, QuorumSet::is_slice_intersection, splitting_threshold"]}
{"id": "C21", "title": "Splitting sets of an FBAS without quorum intersection", "statement": "Analysis::minimal_splitting_sets() returns exactly one set, the empty set, iff the FBAS lacks quorum intersection (has no quorum or has two disjoint ones).", "quantifier": "all FBASs", "why_tests_cant": "Ties together two analyses for all inputs and all prior call histories.", "anchors": ["src/analysis/front_end.rs: Analysis::minimal_splitting_sets"]}
{"id": "C22", "title": "Symmetric clusters are characterised exactly", "statement": "find_symmetric_clusters(fbas) returns a quorum set q iff the nodes listed in q all have exactly q as their quorum set and contain a quorum; no cluster is returned twice and the clusters are disjoint.", "quantifier": "all FBASs whose quorum sets only mention existing nodes", "why_tests_cant": "Occurrence counting inside SCCs has to be right for every FBAS.", "anchors": ["src/analysis/symmetric_clusters.rs: find_symmetric_clusters, find_symmetric_clusters_in_node_set"]}
{"id": "C23", "title": "Symmetric-cluster assertions never fire", "statement": "The assertions in find_symmetric_cluster_in_consensus_cluster (at most one symmetric cluster per consensus cluster; it covers the whole cluster) hold for every input, so analyses do not panic there.", "quantifier": "all FBASs whose quorum sets only mention existing nodes", "why_tests_cant": "Needs closure + strong connectivity for all graphs.", "anchors": ["src/analysis/symmetric_clusters.rs: find_symmetric_cluster_in_consensus_cluster"]}
{"id": "C24", "title": "Symmetric top tier", "statement": "If find_symmetric_top_tier(fbas) returns Some(q), then all nodes listed in q have quorum set q, every top-tier node is listed in q and every quorum intersects the nodes of q. Conversely, if q is a symmetric cluster that contains the whole top tier, Some(q) is returned.", "quantifier": "all FBASs whose quorum sets only mention existing nodes", "why_tests_cant": "A statement about all quorums of the FBAS.", "anchors": ["src/analysis/symmetric_clusters.rs: find_symmetric_top_tier", "src/analysis/front_end.rs: Analysis::symmetric_top_tier"]}
{"id": "C25", "title": "ID shrinking is a lossless, order-preserving renaming", "statement": "For a ShrinkManager built from a set K: unshrinking a shrunken subset of K gives it back and vice versa; shrunken IDs are 0..|K|-1 in the order of the original IDs; shrink_set panics exactly for sets with a node outside K; reshrink_sets equals unshrinking with the old manager and shrinking with the new one.", "quantifier": "all sets K and all subsets", "why_tests_cant": "Bijection property over all sets.", "anchors": ["src/core_types/shrinking.rs: ShrinkManager"]}
{"id": "C26", "title": "Shrinking an FBAS preserves its quorums", "statement": "A set S' of shrunken IDs is a quorum of Fbas::shrunken(K) iff the corresponding set of original IDs is a quorum of the original FBAS.", "quantifier": "all FBASs, all sets K of existing nodes, all S'", "why_tests_cant": "Quorum sets are rewritten recursively (validators dropped, inner sets removed, everything re-sorted) for arbitrary nesting.", "anchors": ["src/core_types/shrinking.rs: Fbas::shrunken, QuorumSet::shrunken"]}
{"id": "C27", "title": "Analysis.minimal_quorums reports the original FBAS's minimal quorums", "statement": "After any sequence of calls on an Analysis object, minimal_quorums().unwrap() equals find_minimal_quorums of the original FBAS (same IDs, same order).", "quantifier": "all FBASs whose quorum sets only mention existing nodes, all call histories", "why_tests_cant": "The cached, twice-shrunken representation depends on the order of previous calls; histories are unbounded.", "anchors": ["src/analysis/front_end.rs: Analysis::minimal_quorums, cached_computation, shrink_id_space_to_top_tier"]}
{"id": "C28", "title": "Analysis results are independent of the call history", "statement": "The value returned by any Analysis method is the same after every sequence of previous calls on the object, and no sequence of calls panics (the alternative check excepted for FBASs without quorums).", "quantifier": "all FBASs, all finite sequences of Analysis calls", "why_tests_cant": "Interior mutability: caches, ID space and FBAS are replaced behind a shared reference; tests exercise a few orders only.", "anchors": ["src/analysis/front_end.rs: Analysis (all methods)"]}
{"id": "C29", "title": "Analysis.minimal_blocking_sets reports the original FBAS's minimal blocking sets", "statement": "After any sequence of calls, minimal_blocking_sets().unwrap() is exactly the set of minimal blocking sets of the original FBAS.", "quantifier": "all FBASs, all call histories", "why_tests_cant": "As above, plus the dependence on the symmetric-cluster shortcut applied to the shrunken FBAS.", "anchors": ["src/analysis/front_end.rs: Analysis::minimal_blocking_sets"]}
{"id": "C30", "title": "minimal_sets / remove_non_minimal_node_sets keep exactly the minimal sets", "statement": "The result contains a set iff it occurs in the input and no proper subset of it occurs in the input; each set occurs once; the result is sorted by size, then lexicographically. Applying it twice changes nothing. It commutes with unshrinking IDs.", "quantifier": "all lists of node sets", "why_tests_cant": "Property of arbitrary families of sets.", "anchors": ["src/analysis/sets.rs: remove_non_minimal_node_sets", "src/analysis/results.rs: NodeIdSetVecResult::minimal_sets"]}
{"id": "C31", "title": "What-if analysis by removing crashed nodes", "statement": "If `r` holds the minimal blocking sets, r.without_nodes(F).minimal_sets() is exactly the list of minimal sets B disjoint from F such that B together with F is blocking.", "quantifier": "all FBASs, all sets F of faulty nodes", "why_tests_cant": "Relates a set-level transformation to the semantics of the FBAS for all fault sets.", "anchors": ["src/analysis/results.rs: NodeIdSetVecResult::without_nodes, NodeIdSetVecResult::minimal_sets"]}
{"id": "C32", "title": "Merging by group answers the question at group level", "statement": "For groupings whose groups are disjoint: if `r` holds the minimal blocking sets (or minimal splitting sets or minimal quorums), r.merged_by_group(g).minimal_sets() is exactly the list of minimal sets G of group representatives such that all nodes of the groups in G together are blocking (resp. splitting, resp. contain a quorum).", "quantifier": "all FBASs, all disjoint groupings", "why_tests_cant": "Relates a set-level transformation to semantics for all groupings.", "anchors": ["src/analysis/merge_by_group.rs: Groupings::merge_node_sets, merge_minimal_node_sets", "src/analysis/results.rs: NodeIdSetVecResult::merged_by_group"]}
{"id": "C33", "title": "Nodes of the same group get the same merged ID", "statement": "merge_node(x) = merge_node(y) iff x = y or x and y belong to a common group; merging is idempotent.", "quantifier": "all groupings (lists of groups of existing nodes) and all nodes", "why_tests_cant": "Groups are arbitrary lists, possibly overlapping.", "anchors": ["src/core_types/groupings.rs: Groupings::new", "src/analysis/merge_by_group.rs: Groupings::merge_node"]}
{"id": "C34", "title": "Result statistics are consistent with the reported sets", "statement": "For every result: len() is the number of sets; histogram()[k] is the number of sets of size k, has max()+1 entries and sums to len(); min() and max() are attained sizes and bound all sizes; the values are the same before and after unshrinking.", "quantifier": "all results, shrunken or not", "why_tests_cant": "Arbitrary families of sets.", "anchors": ["src/analysis/results.rs: NodeIdSetVecResult::{len,min,max,mean,histogram,describe,contains_empty_set}"]}
{"id": "C35", "title": "Result accessors use the IDs of the analysed FBAS", "statement": "For results obtained from Analysis, unwrap(), into_vec_vec(), without_nodes(), merged_by_group() and involved_nodes() speak about node IDs of the FBAS passed to Analysis::new.", "quantifier": "all results, all shrink tables", "why_tests_cant": "Depends on the hidden ID-shrinking state; FBASs in tests are often unaffected by shrinking.", "anchors": ["src/analysis/results.rs: NodeIdSetVecResult::{unwrap,into_vec_vec,involved_nodes}", "src/io/results.rs: into_pretty_vec_vec"]}
{"id": "C36", "title": "JSON conversion round trip", "statement": "Loading a parsed JSON node list (from_raw), converting it back (to_raw) and loading it again yields an equal FBAS; converting any FBAS with distinct public keys, in-range IDs and sorted quorum sets and loading it again yields an equal FBAS.", "quantifier": "all raw FBASs (any nesting, unknown keys, duplicate keys) and all such FBASs", "why_tests_cant": "Unbounded nesting; sorting and dropping of unknown validators.", "anchors": ["src/io/core_types.rs: Fbas::from_raw, Fbas::to_raw, QuorumSet::from_raw, QuorumSet::to_raw"]}
{"id": "C37", "title": "Loading produces well-formed FBASs that mean what the JSON says", "statement": "from_raw never creates quorum sets mentioning non-existing nodes, sorts validators and inner sets at every level, keeps thresholds, drops exactly the unknown public keys and keeps multiplicities of known ones.", "quantifier": "all raw FBASs", "why_tests_cant": "Every exactness theorem about analysis relies on this for all inputs.", "anchors": ["src/io/core_types.rs: Fbas::from_raw, QuorumSet::from_raw"]}
{"id": "C38", "title": "Standard form is a canonical representation", "statement": "to_standard_form() does not depend on the order of the nodes in the input (for distinct public keys), and applying it twice changes nothing.", "quantifier": "all FBASs", "why_tests_cant": "Invariance under all n! permutations; claimed as basis for reusing results by hash.", "anchors": ["src/analysis/preprocessing.rs: Fbas::to_standard_form", "examples/results_reuse.rs"]}
{"id": "C39", "title": "Standard form preserves the analysis", "statement": "The quorums contained in the relevant part of an FBAS, and hence its minimal quorums and its quorum-intersection verdict, are the same (as sets of public keys) for to_standard_form(fbas) and fbas.", "quantifier": "all FBASs with distinct public keys", "why_tests_cant": "Composition of shrinking, renaming, sorting for all inputs.", "anchors": ["src/analysis/preprocessing.rs: Fbas::to_standard_form"]}
{"id": "C40", "title": "Node registry invariants", "statement": "For an FBAS built from new() by any sequence of add_node / add_generic_node / swap_quorum_set calls that do not panic: IDs are handed out consecutively, get_node_id(pk) = Some(i) iff node i has public key pk, swap_quorum_set returns the previously stored quorum set and changes only that node; add_node panics iff the public key is already present.", "quantifier": "all call sequences", "why_tests_cant": "Histories are unbounded.", "anchors": ["src/core_types/fbas.rs: Fbas::{new,add_node,add_generic_node,get_node_id,get_quorum_set,swap_quorum_set}"]}
{"id": "C41", "title": "67% thresholds give Byzantine fault tolerance", "statement": "calculate_67p_threshold(n) = t satisfies 1 <= t <= n for n >= 1, is the smallest t with 3t >= 2n+1, and f = n - t is the largest f with 3f+1 <= n.", "quantifier": "all n >= 1", "why_tests_cant": "All natural numbers; integer division boundary cases.", "anchors": ["src/simulation/qsc/mod.rs: calculate_67p_threshold"]}
{"id": "C42", "title": "Global reevaluation stops correctly", "statement": "simulate_global_reevaluation(max) makes at most max rounds, returns the number of rounds made, stops early only after a round in which no configuration reported a change, and for IdealQsc and SuperSafeQsc ends within two rounds with every node having the target configuration (if max >= 1), for every random visiting order.", "quantifier": "all FBASs, all configurators (any transition function), all sequences of visiting orders", "why_tests_cant": "The visiting order is random; behaviour must hold for every order and every configurator.", "anchors": ["src/simulation/mod.rs: Simulator::simulate_global_reevaluation, simulate_global_reevaluation_round, ChangeEffect"]}
{"id": "C43", "title": "Growth with IdealQsc yields an optimally safe FBAS", "statement": "Simulating growth of n nodes from an empty FBAS with IdealQsc yields, for every visiting order, an FBAS in which the quorums are exactly the node sets of size at least t = calculate_67p_threshold(n); it enjoys quorum intersection for n >= 1; its minimal blocking sets are exactly the sets of size n-t+1.", "quantifier": "all n and all visiting orders", "why_tests_cant": "n is unbounded and orders are random.", "anchors": ["src/simulation/mod.rs: Simulator::simulate_growth", "src/simulation/qsc/ideal.rs: IdealQsc"]}
{"id": "C44", "title": "Growth with SuperSafeQsc yields a single quorum", "statement": "Simulating growth of n >= 1 nodes from an empty FBAS with SuperSafeQsc yields, for every visiting order, an FBAS whose only quorum is the set of all nodes.", "quantifier": "all n and all visiting orders", "why_tests_cant": "n is unbounded and orders are random.", "anchors": ["src/simulation/qsc/super_safe.rs: SuperSafeQsc"]}
{"id": "C45", "title": "RandomQsc produces well-formed quorum sets", "statement": "For every random choice, configuring a node whose quorum set is empty yields validators that are distinct, in range, include the node itself, and number min(desired size, n) (at least one), with threshold equal to the desired one or the 67% threshold of that size.", "quantifier": "all FBAS sizes, desired sizes and random choices", "why_tests_cant": "Random; must hold for every outcome.", "anchors": ["src/simulation/qsc/random.rs: RandomQsc::configure"]}
{"id": "C46", "title": "AllNeighborsQsc trusts exactly the graph neighbourhood", "statement": "For a connected node with empty quorum set, AllNeighborsQsc produces a sorted validator list consisting of the node itself and exactly its out-neighbours with the 67% threshold; it changes nothing on later calls.", "quantifier": "all graphs and nodes", "why_tests_cant": "All graphs.", "anchors": ["src/simulation/qsc/graph_based/all_neighbors.rs: AllNeighborsQsc::configure"]}
{"id": "C47", "title": "Full mesh and tiered mesh graphs have the documented links", "statement": "new_full_mesh(n) links every node to exactly all other nodes; new_tiered_full_mesh links two nodes iff they are different members of the same tier, or the first is in the tier directly below the second's.", "quantifier": "all n and all lists of tier sizes", "why_tests_cant": "All sizes, including empty tiers.", "anchors": ["src/simulation/graph.rs: Graph::new_full_mesh, Graph::new_tiered_full_mesh"]}
{"id": "C48", "title": "Scale-free graphs are simple, undirected and have the expected number of edges", "statement": "For every sequence of random choices, new_random_scale_free(n, m0, m) yields an undirected graph without self loops or duplicate links in which every later node has m links to earlier ones.", "quantifier": "all parameters 2 <= m0 <= n, 1 <= m <= m0 and all random choices", "why_tests_cant": "Random construction.", "anchors": ["src/simulation/graph.rs: Graph::new_random_scale_free"]}
{"id": "C49", "title": "Small-world graphs stay simple and keep their edge count", "statement": "For every sequence of random choices, new_random_small_world(n, k, beta) yields an undirected graph without self loops with n*k/2 edges.", "quantifier": "all n > k, even k, all random choices", "why_tests_cant": "Random rewiring; invariant over all rewiring sequences.", "anchors": ["src/simulation/graph.rs: Graph::new_random_small_world"]}
{"id": "C50", "title": "Shuffling a graph is an isomorphism", "statement": "For every random permutation, shuffled() yields the same graph up to renaming the nodes by that permutation.", "quantifier": "all graphs and all permutations", "why_tests_cant": "n! permutations.", "anchors": ["src/simulation/graph.rs: Graph::shuffled"]}
{"id": "C51", "title": "AS-relationship files round trip", "statement": "Reading back the string written by to_as_rel_string yields the original graph.", "quantifier": "all graphs", "why_tests_cant": "All graphs; directed links, isolated nodes, self loops.", "anchors": ["src/io/graph.rs: Graph::to_as_rel_string, Graph::from_as_rel_string, get_edge_from_as_rel_line"]}
{"id": "C52", "title": "Undirectedness check and degrees", "statement": "is_undirected() returns true iff for every link i->j there is a link j->i; in-degree of j is the number of links into j, and the sums of in- and out-degrees are equal; get_connected_nodes returns exactly the nodes that have a link in or out.", "quantifier": "all graphs whose links stay in range", "why_tests_cant": "All graphs.", "anchors": ["src/simulation/graph.rs: Graph::is_undirected, get_in_degrees, get_out_degrees, get_connected_nodes"]}
{"id": "C53", "title": "Grouping names are normalised without panicking", "statement": "Building ISP or country groupings succeeds for every node list; the group name is the given name without commas and without one trailing full stop.", "quantifier": "all node lists, all ISP/country names (arbitrary Unicode strings, including empty ones)", "why_tests_cant": "All strings, in particular multi-byte and empty ones.", "anchors": ["src/io/groupings.rs: remove_special_chars_from_grouping_name, RawGroupings::isps_from_raw_nodes"]}
{"id": "C54", "title": "ISP and country groupings partition the annotated nodes", "statement": "Every node with an ISP is in exactly one ISP group, named after its (normalised) ISP, groups are non-empty and sorted by name, nodes without an ISP are in no group; same for countries.", "quantifier": "all raw node lists with distinct public keys on which name normalisation succeeds", "why_tests_cant": "All node lists; hash map iteration order must not matter.", "anchors": ["src/io/groupings.rs: RawGroupings::isps_from_raw_nodes, countries_from_raw_nodes"]}
{"id": "C55", "title": "Merging a quorum set by group preserves what it lists", "statement": "merge_quorum_set applied with groupings in which every group has at most one member leaves a quorum set unchanged; in general the nodes listed by the merged quorum set are merged IDs of nodes listed by the original.", "quantifier": "all quorum sets and groupings", "why_tests_cant": "Unbounded nesting.", "anchors": ["src/analysis/merge_by_group.rs: Groupings::merge_quorum_set"]}
{"id": "C56", "title": "The almost-ideal and ideal performance-test FBASs have the same quorums", "statement": "make_almost_ideal_fbas(n) has exactly the same quorums as the symmetric FBAS in which every node requires calculate_67p_threshold(n) of all n nodes, although node 0 lists itself twice with an incremented threshold ('0 implications for analysis').", "quantifier": "all n", "why_tests_cant": "n unbounded; all 2^n sets.", "anchors": ["src/bin/bulk_performance_experiment.rs: make_almost_ideal_fbas, make_almost_ideal_stellarlike_fbas"]}
{"id": "C57", "title": "Bulk analysis covers every input exactly once and reuses existing results", "statement": "make_sorted_tasklist produces one task per input data point and per existing result, ordered by label: existing labels are reused and never re-analysed, all other inputs are analysed; no existing result is lost.", "quantifier": "all input and existing-result lists", "why_tests_cant": "Arbitrary lists.", "anchors": ["src/bin/bulk_fbas_analyzer.rs: make_sorted_tasklist, extract_inputs"]}
{"id": "C58", "title": "Merging a quorum set by group preserves its meaning at group level", "statement": "For disjoint groups and any set G of group representatives: G is a slice for merge_quorum_set(q) iff the union of all groups in G is a slice for q.", "quantifier": "all groupings, all FBASs, all nested quorum sets, all sets of representatives", "why_tests_cant": "Nesting depth, thresholds and group structures are unbounded.", "anchors": ["src/analysis/merge_by_group.rs: merge_quorum_set", "src/core_types/groupings.rs: Groupings::new"]}
{"id": "C59", "title": "Shrinking groupings keeps group membership", "statement": "Groupings::shrunken relates two kept nodes iff the original groupings relate them, so that merging shrunken sets and unshrinking identifies exactly the same nodes; it never panics for the FBAS returned by Fbas::shrunken.", "quantifier": "all groupings, all sets of kept IDs", "why_tests_cant": "Arbitrary groupings and ID subsets; the existing test has two groups.", "anchors": ["src/core_types/shrinking.rs: Groupings::shrunken, Grouping::shrunken"]}
{"id": "C60", "title": "No analysis accesses a node that does not exist", "statement": "For FBASs whose quorum sets mention only existing nodes, no index access in the analysis functions or in any call sequence of Analysis is out of range. In general, Analysis::new (and every analysis function that partitions the FBAS) panics on an index iff some node that is part of a quorum transitively trusts a node that does not exist.", "quantifier": "all FBASs, all call sequences of Analysis, all iteration orders", "why_tests_cant": "Index panics depend on arbitrary trust paths through unbounded FBASs; tests use only loaded, well-formed FBASs.", "anchors": ["src/core_types/fbas.rs: Node::is_quorum_slice, Fbas::is_quorum", "src/analysis/preprocessing.rs", "src/analysis/front_end.rs: Analysis::new"]}
{"id": "C61", "title": "Debug assertions in the analysis never fail", "statement": "In a debug build, no debug_assert in the searches for minimal quorums, nonintersecting quorums, minimal blocking sets, minimal splitting sets, or in remove_non_minimal_node_sets fails.", "quantifier": "all well-formed FBASs, all iteration orders", "why_tests_cant": "The assertions compare complete (exponentially large) result lists for unbounded FBASs.", "anchors": ["src/analysis/sets.rs:31,121,154", "src/analysis/quorums.rs:158"]}
{"id": "C62", "title": "Accepted JSON documents and their meaning", "statement": "A JSON document is accepted as an FBAS (or as a list of organizations) iff it describes nodes (organizations) according to the documented format: required entries present once, optional entries at most once, thresholds below 2^64, unknown entries ignored, missing quorum sets meaning the unsatisfiable quorum set; the loaded FBAS is the one described, independently of the order of the entries.", "quantifier": "all JSON values", "why_tests_cant": "JSON values are unbounded in size and nesting; tests use a handful of documents.", "anchors": ["src/io/core_types.rs: RawFbas, RawNode, RawQuorumSet, RawGeoData", "src/io/groupings.rs: RawGrouping"]}
{"id": "C63", "title": "Saving and loading as JSON", "statement": "Loading the JSON representation of raw nodes gives back the same raw nodes; loading a saved FBAS that was loaded before gives the same FBAS; saving and loading organizations gives the same organizations; ISP and country annotations are not saved.", "quantifier": "all JSON values, all FBASs", "why_tests_cant": "Unbounded nesting and arbitrary strings.", "anchors": ["src/io/core_types.rs: Serialize and Deserialize for Fbas", "src/io/groupings.rs"]}
{"id": "C64", "title": "Printed results show exactly the computed sets", "statement": "Rendering never panics for existing nodes: every node is shown with the name of its group if it has one, else with its public key; sets and lists of sets are shown member by member; quorum sets keep their shape and thresholds (after merging by group); the described summary (count, distinct nodes, minimum, maximum, mean, histogram) is the one of the sets, also for shrunken results; the recursion ends for every quorum set.", "quantifier": "all FBASs, all groupings, all results and nested quorum sets", "why_tests_cant": "Names, groups and nesting depth are unbounded; there are no tests of pretty quorum sets.", "anchors": ["src/io/results.rs: into_pretty_quorum_set, to_grouping_names, to_public_keys, into_describe", "src/bin/fbas_analyzer.rs: Output"]}
{"id": "C65", "title": "The command line tool prints what the analyses find", "statement": "fbas_analyzer panics iff its input is not accepted or --alternative-quorum-intersection-check is used although there is no quorum. Otherwise it prints, in a fixed order determined by the options, exactly the requested results: numbers of nodes and groups, symmetric clusters, minimal quorums / blocking sets / splitting sets (of nodes or of groups), quorum intersection, disjoint quorums as a witness, and the top tier. A result does not depend on which other analyses are requested, and the comments repeat the right numbers.", "quantifier": "all JSON inputs, all combinations of options, all groupings, all iteration orders", "why_tests_cant": "The binary has no tests; options combine to hundreds of call sequences on a stateful Analysis object, for arbitrary input files.", "anchors": ["src/bin/fbas_analyzer.rs: main, report_overview, check_and_report_if_has_quorum_intersection, find_and_report_*, report_top_tier_uncondensed, Output"]}
{"id": "C66", "title": "Rank scores are iterated page rank", "statement": "get_rank_scores panics iff a link points to a missing node. With exact arithmetic it returns the scores after k steps of page rank without dampening, where k is the first step in which no score changes by max(1/n^2, 1e-5) or more, or max(2n, 1000) if there is none earlier. The scores are nonnegative with sum at most 1 (exactly 1 if every node has links); equal if all nodes have equally many links in and out; positive exactly for nodes with links, if the graph is undirected; independent of node numbering.", "quantifier": "all graphs; all rounding functions where stated", "why_tests_cant": "Iteration over unbounded graphs; tests check orderings in small tiered meshes.", "anchors": ["src/simulation/graph.rs: Graph::get_rank_scores"]}
{"id": "C67", "title": "Global rank configurator", "statement": "GlobalRankQsc's top tier consists of exactly the nodes with above-average scores; it is empty iff all scores are equal and never contains all nodes. Unconfigured nodes with links get the top tier with the 67% threshold; nothing else changes. Growing an FBAS never panics; its quorums are the sets of linked nodes with at least 67% of the top tier; they pairwise intersect.", "quantifier": "all graphs, all random choices, all sizes up to the size of the graph", "why_tests_cant": "Arbitrary graphs and schedules; the existing test depends on rounding errors.", "anchors": ["src/simulation/qsc/graph_based/global_ranking_based.rs"]}
{"id": "C68", "title": "Higher tier neighbors configurator", "statement": "HigherTierNeighborsQsc splits neighbours by score ratio 2 into higher, same and lower tier (mutually consistent for positive scores in undirected graphs) and configures itself plus the preferred ones; with symmetry enforcement, in a configuration that no longer changes, nodes preferring each other have equal quorum sets. Growth without symmetry enforcement never panics and is determined by graph and scores; full meshes become ideal FBASs.", "quantifier": "all graphs, scores, FBASs, random choices", "why_tests_cant": "Arbitrary graphs and score vectors; fixed points of an iterated process.", "anchors": ["src/simulation/qsc/graph_based/relative_tierness_based.rs"]}
{"id": "C69", "title": "Data points written by the bulk analyzer", "statement": "An analysis in bulk_fbas_analyzer panics iff the input files do not describe an FBAS and organizations, or the name of an ISP or country cannot be processed. Otherwise the data point has the given label, the right verdict about quorum intersection, the size of the top tier, and the smallest, largest and mean sizes of minimal blocking sets, minimal splitting sets and minimal quorums, of nodes and of groups by organization, ISP and country; columns for groups are empty iff there is no information about such groups; the hash of the standard form does not depend on the order of nodes. The output file has one data point per label, and no existing result is lost.", "quantifier": "all JSON inputs, all sets of files and existing results, all iteration orders", "why_tests_cant": "The binary has no tests of the analysis; inputs are arbitrary FBASs with arbitrary annotations.", "anchors": ["src/bin/bulk_fbas_analyzer.rs: main, bulk_do, analyze_or_reuse, analyze, maybe_merge_sets, extend_output_with_*, maybe_load_*, write_csv_via_writer", "src/analysis/results.rs: minmaxmean"]}
{"id": "C70", "title": "Numbers reported by the performance experiment", "statement": "bulk_performance_experiment never panics and none of its assertions fail. For an FBAS size n it reports C(n,n-k) minimal quorums of n-k nodes, C(n,k+1) minimal blocking sets of k+1 nodes and C(n,n-2k) minimal splitting sets of n-2k nodes (none for n<4), with k=floor((n-1)/3). With --stellar-like and m organizations, it reports C(m,m-k)*3^(m-k), C(m,k+1)*3^(k+1) and C(m,m-2k)*3^(m-2k) sets with 2(m-k), 2(k+1) and m-2k nodes, k=floor((m-1)/3). The output has one line per size and run, ordered by size; existing results are kept.", "quantifier": "all sizes, numbers of runs, existing results, iteration orders", "why_tests_cant": "The number of sets grows exponentially with n, only tiny sizes can be run; the binary has no tests.", "anchors": ["src/bin/bulk_performance_experiment.rs: main, analyze_or_reuse, analyze, make_almost_ideal_fbas, make_almost_ideal_stellarlike_fbas"]}
{"id": "C71", "title": "What the simulator tool prints", "statement": "qsc_simulator prints an FBAS with nodes n0, n1, ... of the wanted number, which the analyzer reads back with the same quorums, and in which every node has the quorum set documented for the policy: Ideal and SuperSafe (all nodes, 67% or all; hence quorum intersection and fault tolerance), Random and FameWeightedRandom (the given number of different nodes including itself, 67% or given threshold), AllNeighbors, HigherTierNeighbors, SymmetryEnforcingHigherTierNeighbors (top tier becomes a symmetric cluster), GlobalRank (nodes with above-average rank). It panics iff the graph file cannot be read, or GlobalRank is used with more nodes than the graph has.", "quantifier": "all policies, graph files, initial sizes, growth, random choices, rounding modes", "why_tests_cant": "The binary has no tests; results depend on random visiting orders, unbounded numbers of rounds and arbitrary graphs.", "anchors": ["src/bin/qsc_simulator.rs", "src/simulation/mod.rs", "src/simulation/qsc"]}
{"id": "C72", "title": "Generated graphs can be simulated", "statement": "What graph_generator writes to a file or prints can be read by qsc_simulator and is, up to the renaming of nodes by shuffling, the generated graph: n nodes, undirected, no self-loops or duplicates, with the clique and attachments of Barabasi-Albert or the n*k links (at least k/2 per node) of Watts-Strogatz. The tool panics iff the parameters are not suitable. Piped into qsc_simulator all-neighbors, every node gets itself and its neighbours as quorum set.", "quantifier": "all parameters, all random choices, with and without shuffling, file and standard output", "why_tests_cant": "Random graphs of any size and all random choices; the pipeline of generator, text format, reader and simulator is never tested as a whole.", "anchors": ["src/bin/graph_generator.rs", "src/io/graph.rs", "src/simulation/graph.rs", "src/bin/qsc_simulator.rs"]}
{"id": "C73", "title": "Ranking of nodes with floating-point numbers", "statement": "rank_nodes computes 100 steps of page rank among the given nodes. In spite of rounding after every operation, all scores are finite and nonnegative, zero for other nodes, and within (n+1)/2^44 of the exact ones. sort_by_rank reorders the nodes by descending score, keeping the order of nodes with equal scores; nodes whose exact rank is noticeably higher come first. It panics iff the list has duplicates or missing nodes (in particular partial_cmp never fails). Exact ranks sum up to at most 1, are 0 for nodes that nobody lists and equal in symmetric clusters.", "quantifier": "all FBASs with up to 2^32 nodes whose quorum sets mention only existing nodes, all lists of nodes, all roundings with an error of at most half a unit in the last place (in particular IEEE 754)", "why_tests_cant": "Accumulated rounding errors of arbitrarily many operations; tests compare orders in a few tiny FBASs.", "anchors": ["src/analysis/preprocessing.rs: rank_nodes, sort_by_rank, Fbas::rank_nodes"]}
{"id": "C74", "title": "Reusing analysis results", "statement": "In examples/results_reuse.rs, results are cached by FBAS in standard form. Reusing results of any earlier runs never changes what is printed, an FBAS that differs only in the order of nodes or of entries in quorum sets is not analysed again, and equal hashed JSON values mean equal standard forms. The report is right about the FBAS that was loaded: the hash, a smallest minimal blocking set, its number of nodes, the smallest number of organizations that can compromise liveness, the number of further failures after some nodes failed, and whether evil nodes endanger safety or how many more would have to become evil. The program panics if there is no quorum or a file is not valid.", "quantifier": "all input files, all sequences of earlier runs, all failing and evil nodes, all iteration orders", "why_tests_cant": "Sequences of runs and FBASs are unbounded, and the numbers are minima over exponentially many sets of nodes; the example is run once without assertions.", "anchors": ["examples/results_reuse.rs: main, do_analysis", "src/core_types/fbas.rs: PartialEq, Hash for Fbas"]}
{"id": "C75", "title": "Arithmetic on machine integers does not change the results", "statement": "The code computes with usize; overflows panic in debug builds and wrap around in release builds. Loading thresholds that are not machine words changes no quorums. For all quorum sets whose thresholds and lengths are machine words, slice tests and blocking sets are exact. Every call of Analysis, after any history, returns the same as with unbounded integers.", "quantifier": "all word sizes, debug and release builds, all FBASs, all call sequences, all iteration orders", "why_tests_cant": "Thresholds are arbitrary 64 bit numbers; tests use small ones, on one platform and with one profile.", "anchors": ["src/core_types/quorum_set.rs: is_quorum_slice", "src/analysis/blocking_sets.rs: blocking_threshold", "src/analysis/splitting_sets.rs: splitting_threshold, is_slice_intersection, to_splitting_sets", "src/io/core_types.rs: QuorumSet::from_raw"]}
{"id": "C76", "title": "Results do not depend on the order of the input", "statement": "If two inputs describe the same nodes, with different public keys, but list the nodes or the entries of quorum sets in another order, then the same calls of Analysis panic for both or return answers that say the same in terms of public keys: equal verdicts, equal sets and top tiers, equal collections of minimal quorums, blocking sets and splitting sets, and symmetric clusters that differ only in order.", "quantifier": "all raw FBASs with different public keys, all reorderings, all call sequences of Analysis, all rankings of nodes", "why_tests_cant": "IDs are positions in the input and influence sorting, ranking, the search order and the enumeration of combinations; the number of reorderings grows factorially.", "anchors": ["src/io/core_types.rs: Fbas::from_raw", "src/analysis/front_end.rs: Analysis", "src/analysis/sets.rs: find_minimal_sets", "src/core_types/shrinking.rs"]}
{"id": "C77", "title": "Nodes that nobody lists change no results", "statement": "Appending nodes that no earlier node lists, and that contain no quorum on their own, changes no answer of Analysis (verdicts, minimal quorums, blocking and splitting sets, top tier, symmetric top tier, nonintersecting quorums), whatever the new nodes list. Methods about all nodes agree on the old nodes. New nodes with a quorum of their own end quorum intersection.", "quantifier": "all FBASs, all sets of new nodes with any quorum sets, all call sequences of Analysis", "why_tests_cant": "There are arbitrarily many new nodes with arbitrary quorum sets, and the search orders change with the number of nodes; the claim compares two runs for every call sequence.", "anchors": ["src/analysis/front_end.rs:1-245", "src/analysis/mod.rs:21-110", "src/analysis/preprocessing.rs:24-85", "src/core_types/fbas.rs:50-112"]}
{"id": "C78", "title": "Stricter quorum sets are safer and more fragile", "statement": "If nodes raise thresholds or remove entries of their quorum sets at any depth, then quorum intersection is kept as long as a quorum exists, no node becomes satisfiable, and every reported minimal blocking set contains one that is reported for the stricter FBAS.", "quantifier": "all FBASs, all ways of making quorum sets stricter, all call sequences of Analysis", "why_tests_cant": "The claim relates the results of two searches over unboundedly many pairs of FBASs; the clusters, symmetric shortcuts and search orders differ between the two.", "anchors": ["src/core_types/quorum_set.rs:30-50", "src/analysis/blocking_sets.rs:6-165", "src/analysis/quorums.rs:4-225"]}
{"id": "C79", "title": "Equality, order and hash of FBASs are consistent", "statement": "The hand-written equality, order and hash of Fbas form a total order consistent with equality: FBASs are equal iff their nodes are, which is iff they compare as equal; equal FBASs have equal hashes and give the same answers to all calls of Analysis although their maps from public keys to IDs are not compared. The order is lexicographic: FBASs are compared node by node, first by public keys, then by quorum sets; these by threshold, validators and inner quorum sets.", "quantifier": "all FBASs, all call sequences of Analysis", "why_tests_cant": "Totality and transitivity quantify over all triples of FBASs with nested quorum sets of any depth; equal answers quantify over all call sequences.", "anchors": ["src/core_types/fbas.rs:113-135", "src/core_types/quorum_set.rs:4", "examples/results_reuse.rs:1-116"]}
{"id": "C80", "title": "What-if analysis agrees with a new analysis without the failed nodes", "statement": "If some nodes fail, then removing them from the results (without_nodes_pretty and minimal_sets on minimal blocking sets; dropping the minimal quorums that contain them) gives the same sets, in terms of public keys, as a new analysis of the input from which the failed nodes have been removed. Quorum intersection is kept by failures unless no quorum is left.", "quantifier": "all raw FBASs with different public keys, all lists of failed nodes, all call sequences of Analysis before", "why_tests_cant": "Relates the exponentially large results of two different searches on unboundedly many inputs and failures; the IDs of all nodes change between the two analyses.", "anchors": ["src/analysis/results.rs: without_nodes_pretty, minimal_sets", "src/io/core_types.rs: Fbas::from_raw", "src/analysis/front_end.rs: Analysis", "src/analysis/blocking_sets.rs"]}
{"id": "C81", "title": "Relative thresholds with floating-point numbers", "statement": "For a relative threshold x and n validators, the configurators demand max(1, ceil(nx)) of them, as documented; the threshold is never below the given fraction, so that more than one half gives a majority.", "quantifier": "all numbers of validators, all fractions between 0 and 1", "why_tests_cant": "Rounding errors show up only for particular pairs of fraction and size; the existing tests check two values.", "anchors": ["src/simulation/qsc/mod.rs:26-45: calculate_threshold, calculate_x_threshold"]}
{"id": "C82", "title": "Minimal splitting sets are the minimal sets indispensable for safety", "statement": "The reported minimal splitting sets are the minimal sets of nodes that, by misbehaving, can lead two groups of other nodes to different decisions; without quorum intersection no misbehaviour is needed.", "quantifier": "all FBASs, all sets of nodes, all call sequences of Analysis before", "why_tests_cant": "The meaning of a splitting set quantifies over all pairs of quorums and all sets of misbehaving nodes; the tests compare lists of sets for a few FBASs.", "anchors": ["README.md:15: minimal splitting sets as minimal indispensable sets for safety", "src/analysis/splitting_sets.rs: find_minimal_splitting_sets", "src/analysis/mod.rs: minimal_splitting_sets"]}
{"id": "C83", "title": "The numbers of one report are consistent with each other", "statement": "In one report (answers of Analysis, columns of a data point of the bulk analyzer, for nodes and for groups), the size of a largest minimal blocking set and of a smallest minimal quorum exceed the size of the top tier by at most one together, as do a smallest minimal blocking set and a largest minimal quorum; with quorum intersection the smallest minimal blocking set is not larger than the smallest minimal quorum. Two smallest minimal quorums are not larger than the top tier and a smallest minimal splitting set together, and a smallest minimal splitting set is smaller than every minimal quorum if there are several of them.", "quantifier": "all FBASs and groupings, all call sequences of Analysis before", "why_tests_cant": "Relates the extreme sizes of exponentially large results of different searches on unboundedly many inputs; the tests check each result separately.", "anchors": ["src/analysis/results.rs:98-136: describe, min, max", "src/bin/bulk_fbas_analyzer.rs: analyze_to_data_point", "src/analysis/mod.rs: top_tier, minimal_quorums, minimal_blocking_sets, minimal_splitting_sets"]}
{"id": "C84", "title": "Mean set sizes with floating-point numbers", "statement": "The mean set size, computed with f64 from the sum of the sizes and the number of sets, is the exact mean rounded once to the next f64; it lies between the smallest and the largest size and is wrong by at most a fraction of 2^-53. It is a whole number iff the exact mean is that number. Comparing two means never contradicts the exact means, and gives the same result if sum times number of sets is below 2^52.", "quantifier": "all results whose sizes sum up to at most 2^53", "why_tests_cant": "Rounding depends on arbitrary pairs of sum and number; the tests check two values that are represented exactly.", "anchors": ["src/analysis/results.rs:106-126: minmaxmean, mean"]}
{"id": "C85", "title": "Printed results do not depend on the order of the input files", "statement": "If two input files describe the same network (different public keys, same quorum sets, ISPs and countries) with nodes or entries of quorum sets in another order, then bulk_fbas_analyzer writes the same data point, to the last column, and fbas_analyzer prints the same results: equal counts, verdicts and descriptions, the same sets of names and the same symmetric clusters, merged by organization, ISP or country or not; one panics iff the other does.", "quantifier": "all input files, all options, all orders of nodes, validators and inner quorum sets, all iteration orders of hash maps and rankings", "why_tests_cant": "All permutations of nodes and of nested quorum sets, combined with groupings whose representatives depend on node IDs, cannot be enumerated.", "anchors": ["src/bin/bulk_fbas_analyzer.rs", "src/bin/fbas_analyzer.rs", "src/core_types/groupings.rs", "src/io/groupings.rs", "src/io/core_types.rs"]}
{"id": "C86", "title": "Rank scores of graphs with floating-point numbers", "statement": "In spite of rounding after every operation, the scores computed by get_rank_scores are nonnegative and the exact page rank scores of some step k, up to errors that add up to at most 5(k+1)(D+1)/2^53, where D bounds the number of links into a node; up to such errors, k is the first step in which no score changes by the limit. GlobalRankQsc and HigherTierNeighborsQsc classify every node by its exact score, except for nodes whose score is on the border up to such errors.", "quantifier": "all graphs with up to 2^24 nodes without duplicate links (and larger ones with few links per node), all roundings with the accuracy of f64", "why_tests_cant": "Rounding errors accumulate over thousands of steps and arbitrary graphs; the tests check a few scores of small graphs.", "anchors": ["src/simulation/graph.rs:207-236: get_rank_scores", "src/simulation/qsc/graph_based/global_ranking_based.rs:24-36", "src/simulation/qsc/graph_based/relative_tierness_based.rs:39-61"]}
{"id": "C87", "title": "Networks that do not depend on each other", "statement": "If an input consists of two networks whose nodes do not list each other, then its quorums are the quorums of either network and their unions. The reported minimal quorums are those reported for each network alone, the top tier is the union of the top tiers, there is quorum intersection iff one network has it and the other one has no quorums, and if both have quorums then the only splitting set is the empty one and the reported minimal blocking sets are the unions of one of each network, so that numbers of sets multiply and sizes add up.", "quantifier": "all pairs of raw FBASs with different public keys and no mutual references, all rankings, all call sequences of Analysis before", "why_tests_cant": "Compares three searches on unboundedly many inputs; IDs, search order and clusters of the second network differ between the separate and the combined run.", "anchors": ["src/analysis/mod.rs: find_minimal_sets-based searches per cluster", "src/analysis/quorums.rs", "src/analysis/blocking_sets.rs", "src/analysis/preprocessing.rs: partition_into_strongly_connected_components", "src/io/core_types.rs: Fbas::from_raw"]}
{"id": "C88", "title": "What the results say about a running network", "statement": "Consider executions in which nodes fail and others stop, one at a time and in any order, when running nodes no longer satisfy their quorum sets: every execution ends with the same nodes running, and the reported minimal blocking sets are exactly the minimal sets of nodes whose failure stops all nodes. Consider executions of a vote in which well-behaved nodes vote once and decide when a group with satisfied quorum sets agrees: has_quorum_intersection tells whether decisions agree in all executions, and for every reported minimal splitting set there is an execution with different decisions in which only its members misbehave.", "quantifier": "all FBASs, all executions in any order of steps, all sets of failing or misbehaving nodes, all call sequences of Analysis before", "why_tests_cant": "Executions are unbounded interleavings of steps of arbitrary networks; the tests compare lists of sets for a few FBASs.", "anchors": ["README.md:13-15: safety and liveness", "src/analysis/mod.rs: has_quorum_intersection, minimal_blocking_sets, minimal_splitting_sets", "src/analysis/blocking_sets.rs", "src/analysis/splitting_sets.rs", "src/analysis/quorums.rs"]}
{"id": "C89", "title": "Closed form of all results for networks with a uniform core", "statement": "Let all nodes in a set K have the same quorum set \"t of the nodes in K\" (1 <= t <= |K|), and let every quorum contain a node in K (other nodes may exist, with any quorum sets). Then, after any calls of the same Analysis: the minimal quorums are all sets of t nodes in K, each once; has_quorum_intersection returns 2t > |K|; the minimal blocking sets are all sets of |K| - t + 1 nodes in K; the minimal splitting sets are the empty set only (2t <= |K|), none (t = |K|, |K| >= 1 and quorum intersection), or all sets of 2t - |K| nodes in K; the top tier is K; the quorum set of K is the only symmetric cluster and the symmetric top tier. In particular this determines all results for networks of any size grown with IdealQsc.", "quantifier": "all FBASs with a uniform core of any size and threshold, all other nodes, all call sequences, all behaviours of sorting and of the SCC algorithm, all network sizes for IdealQsc", "why_tests_cant": "The tests check a few sizes; the number of sets grows exponentially with the size of the core.", "anchors": ["src/analysis/front_end.rs: Analysis", "src/analysis/quorums.rs", "src/analysis/blocking_sets.rs", "src/analysis/splitting_sets.rs", "src/analysis/symmetric_clusters.rs", "src/simulation/qsc/mod.rs: IdealQsc"]}
{"id": "C90", "title": "The searches terminate, restore their state and do not recurse deeper than the number of nodes", "statement": "The four recursive search functions (minimal quorums, nonintersecting quorums, minimal blocking sets, minimal splitting sets), called for n different nodes, return for every FBAS: at most n + 1 calls are active at the same time, fewer than 2^(n+1) calls are made, at most 2^n sets are pushed to the found ones, and all other mutable arguments (queue of unprocessed nodes, selection, available/remaining nodes) are as before the call. The loops of find_satisfiable_nodes and contains_quorum end after at most as many iterations as there are nodes, with a result that does not depend on which node without a slice is removed first.", "quantifier": "all FBASs, all orders of nodes, all sets of nodes, all lists of quorum parts, all numbers of picks; all executions of a semantics without bounds on recursion", "why_tests_cant": "Tests run on a few networks; stack depth and the state left behind by inner calls are not visible in results.", "anchors": ["src/analysis/quorums.rs:59-95", "src/analysis/quorums.rs:149-208", "src/analysis/quorums.rs:216-226", "src/analysis/blocking_sets.rs:66-114", "src/analysis/splitting_sets.rs:65-126", "src/analysis/preprocessing.rs:47-60"]}
{"id": "C91", "title": "All results are exact for networks with a tidy top tier, and depend only on the minimal quorums", "statement": "Suppose there is a quorum, and every node in the top tier lists only nodes in the top tier, no node twice, with thresholds between 1 and the number of entries. Whatever the remaining nodes declare, an Analysis answers minimal quorums, minimal blocking sets, minimal splitting sets (each set exactly once, smaller sets first; for splitting sets inner quorum sets must also require a majority and offer a choice), top tier and both quorum intersection checks exactly, after any sequence of other calls. Two such networks with the same minimal quorums get the same answers.", "quantifier": "all FBASs with a tidy top tier, all quorum sets of other nodes, all sequences of calls, all orders of strongly connected components and ranks", "why_tests_cant": "Tests evaluate a few networks with tidy quorum sets throughout; that junk outside of the top tier cannot influence any result requires an argument over all quorum sets.", "anchors": ["src/analysis/front_end.rs:1-245", "src/analysis/quorums.rs:6-226", "src/analysis/blocking_sets.rs:6-114", "src/analysis/splitting_sets.rs:6-126", "src/analysis/symmetric_clusters.rs:1-60"]}
{"id": "C92", "title": "Closed forms of all results for networks of organizations", "statement": "Suppose all nodes of m disjoint organizations have the same quorum set, in which t organizations must agree and organization o agrees if s(o) of its nodes do, and no quorum does without these nodes. Then after any calls an Analysis reports as minimal quorums all sets of s(o) nodes of t organizations each, as minimal blocking sets all sets of |o| - s(o) + 1 nodes of m - t + 1 organizations, as minimal splitting sets (if organizations need a majority but not all of their nodes and 2t > m) all sets of 2 s(o) - |o| nodes of 2t - m organizations, quorum intersection iff 2t exceeds m plus the number of organizations with 2 s(o) <= |o|, and all nodes of organizations as top tier. The numbers of sets are the corresponding sums of products of binomial coefficients.", "quantifier": "all numbers and sizes of organizations, all thresholds, all other nodes, all sequences of calls, all orders of strongly connected components and ranks", "why_tests_cant": "Tests compare a handful of literal networks; the numbers of sets grow exponentially with the number of organizations.", "anchors": ["src/analysis/front_end.rs:1-245", "src/analysis/quorums.rs:97-106", "src/analysis/blocking_sets.rs:116-165", "src/analysis/splitting_sets.rs:127-190", "src/analysis/symmetric_clusters.rs:1-60"]}
{"id": "C93", "title": "A network of organizations, merged by organization, looks like a flat network", "statement": "If a network of m organizations as in C92 is analyzed by fbas_analyzer with merging by these organizations, then it prints what it would print for a network with one node per organization: all sets of t organizations as minimal quorums, all sets of m - t + 1 organizations as minimal blocking sets, all sets of 2t - m organizations as minimal splitting sets (if organizations need a majority but not all of their nodes), all organizations as top tier, and as symmetric cluster the flat quorum set \"t of these organizations\". bulk_fbas_analyzer writes these numbers.", "quantifier": "all numbers and sizes of organizations, all thresholds, all other nodes and groups, all options, all iteration orders", "why_tests_cant": "Tests merge literal node sets; none runs a whole analysis with merging.", "anchors": ["src/bin/fbas_analyzer.rs:219-420", "src/bin/bulk_fbas_analyzer.rs:300-446", "src/analysis/merge_by_group.rs:1-63"]}
{"id": "C94", "title": "End-to-end results in terms of public keys for inputs with a tidy top tier", "statement": "For an input with different public keys and at least one quorum, in which nodes in the top tier list only nodes in the top tier and no node twice and have thresholds between 1 and the number of entries, all answers of Analysis are exactly what the input says in terms of public keys: minimal quorums, quorum intersection by both checks, minimal blocking sets, top tier and (if inner quorum sets require a majority and offer a choice) minimal splitting sets. For two unrelated networks of this kind in one input the minimal blocking sets are exactly the unions of one of each.", "quantifier": "all raw FBASs of this kind (nothing is required of nodes outside the top tier), all rankings and component orders, all call sequences of Analysis before", "why_tests_cant": "Tests load a few files and compare with literal node IDs; that names, IDs and shrunken IDs fit together for every input is a statement about all inputs.", "anchors": ["src/io/core_types.rs: Fbas::from_raw, QuorumSet::from_raw", "src/analysis/front_end.rs: Analysis", "src/core_types/shrinking.rs: ShrinkManager"]}
{"id": "C95", "title": "fbas_analyzer is exact for all networks simulated by qsc_simulator", "statement": "Whatever policy qsc_simulator uses and whatever the random choices are, the quorum sets of the simulated network are flat and list no node twice. Hence everything that fbas_analyzer prints about the document (minimal quorums, quorum intersection, minimal blocking sets, minimal splitting sets, top tier) is exact and does not depend on which other analyses are requested, and fbas_analyzer fails only if the alternative check is requested for a network without quorums. For the policies Ideal and SuperSafe with n >= 1 nodes the pipeline never fails and prints closed forms: all sets of t nodes are minimal quorums (t = n - floor((n-1)/3) or n), all sets of n - t + 1 nodes are minimal blocking sets, and so on. With graphs generated by graph_generator and the policy AllNeighbors, none of the three programs fails, and the quorums are the sets in which each node has more than two thirds of its neighbourhood.", "quantifier": "all policies, graphs, relative thresholds, numbers of initial and additional nodes and random choices; all options of fbas_analyzer, all rankings and component orders", "why_tests_cant": "Tests simulate a few networks with one seed, and none of them combines both programs; that all printed results are exact is a statement about all policies, graphs, seeds and options.", "anchors": ["src/bin/qsc_simulator.rs", "src/bin/fbas_analyzer.rs", "src/bin/graph_generator.rs", "src/simulation/mod.rs", "src/simulation/qsc/random.rs", "src/simulation/qsc/graph_based/relative_tierness_based.rs"]}
{"id": "C96", "title": "Printed sets of groups are what can stop or split a running network", "statement": "With merging by organizations, ISPs or countries that do not overlap: in every execution of a voting process based on quorum sets, all nodes stop once all members of the groups of a printed minimal blocking set have failed, for all networks. For networks with a tidy top tier, the printed sets are exactly the minimal sets of groups whose failure stops all nodes, and failures in fewer groups than the smallest printed set has never stop all nodes. With quorum intersection and majorities inside, for each printed minimal splitting set of groups there is an execution with different decisions in which only members of these groups misbehave, and no members of other sets of groups can fork the network.", "quantifier": "all networks, disjoint groups, options, rankings and component orders, sets of failed or misbehaving nodes, executions", "why_tests_cant": "Tests compare sets of merged ids for a few files; none runs a network in which all members of an organization fail, and the claim is about all executions.", "anchors": ["src/bin/fbas_analyzer.rs", "src/analysis/merge_by_group.rs", "src/analysis/results.rs", "src/analysis/blocking_sets.rs", "src/analysis/splitting_sets.rs"]}
{"id": "C97", "title": "Data points that the bulk analyzer writes for simulated networks", "statement": "The bulk analyzer fails on no document printed by qsc_simulator whose thresholds fit into 64 bits. Without a file of organizations, all columns about organizations, ISPs and countries are empty, the verdict is right, and if there is a quorum then the size of the top tier and the smallest, largest and mean sizes of minimal quorums, minimal blocking sets and minimal splitting sets are right. For the policies Ideal and SuperSafe the whole row is known in advance: with n nodes and b = floor((n-1)/3), an ideal network has a top tier of n nodes, all minimal quorums have n - b nodes, all minimal blocking sets have b + 1 nodes, and all minimal splitting sets have n - 2b nodes (0 for n < 4).", "quantifier": "all policies, graphs, relative thresholds, numbers of initial and additional nodes and random choices; all labels, hash functions, rankings and component orders", "why_tests_cant": "Tests analyze a few networks with literal results; that rows are right for all policies, sizes and seeds is a statement about infinitely many runs of two programs.", "anchors": ["src/bin/qsc_simulator.rs", "src/bin/bulk_fbas_analyzer.rs", "src/simulation/qsc/ideal.rs", "src/simulation/qsc/super_safe.rs"]}
{"id": "C98", "title": "Networks and graphs that random choices can lead to", "statement": "With the policy Random, the networks that qsc_simulator prints for some random choices are exactly those in which every node trusts itself and, all in all, min(size, n) nodes that were present when it chose: the nodes up to itself, the initial nodes, and the first min(size, n) nodes if there were fewer initial nodes. The same holds for FameWeightedRandom (if there is no panic) with the further condition that only targets of links are chosen. The graphs that new_random_scale_free can generate are exactly the simple undirected graphs in which the first m0 nodes are connected with each other and every later node with m earlier nodes. The graphs that shuffled can return are exactly the renamed ones.", "quantifier": "all numbers of initial and additional nodes, sizes at least 2, thresholds, graph data, graphs and parameters; all outcomes of random choices", "why_tests_cant": "Tests draw a few samples; that no possible outcome is left out (e.g. because the range of a random choice is off by one) and no other one occurs is a statement about all sequences of random choices.", "anchors": ["src/simulation/qsc/random.rs", "src/bin/qsc_simulator.rs", "src/simulation/graph.rs", "src/simulation/mod.rs"]}
{"id": "C99", "title": "Safety of networks with random quorum sets", "statement": "Let t be the threshold for min(size, n) validators (the smallest number of more than two thirds). qsc_simulator with the policy Random, i initial nodes and growth to n nodes yields a network with quorum intersection for all random choices if and only if i < 2t. So networks that grow from at most size nodes are always safe, and fbas_analyzer then always prints that there is quorum intersection; with 2t or more initial nodes two disjoint quorums are possible. For FameWeightedRandom with the default threshold i < 2t is sufficient; exactly, all networks that can result have quorum intersection if and only if fewer than 2t of the initial nodes are targets of links (or outside of the graph). With a given threshold u, this holds if and only if u is at most min(size, n) and fewer than 2u of the initial nodes are targets of links (or outside of the graph).", "quantifier": "all numbers of initial and additional nodes, sizes at least 2 and random choices; for FameWeightedRandom all graph data for which there is no panic", "why_tests_cant": "Whether all random choices lead to a safe network cannot be seen from samples; the exact boundary is a statement about all choices, all sizes and all numbers of nodes.", "anchors": ["src/simulation/qsc/random.rs", "src/simulation/qsc/mod.rs", "src/bin/qsc_simulator.rs", "src/simulation/mod.rs", "src/bin/fbas_analyzer.rs"]}
{"id": "C100", "title": "Weights of random choices", "statement": "new_random_scale_free prefers nodes with many links: each later node chooses its links one after the other among all earlier nodes that it has not chosen yet, and the weight of a candidate is the number of links it has at that time. With the policy Random every node chooses among the nodes that are present and not yet listed, all with equal weights; with FameWeightedRandom the weight of a node is the number of links into it (1 for nodes that are not in the graph). In particular, if always a heaviest candidate is chosen, then new nodes are linked to those with the most links.", "quantifier": "all generators and all conditions that relate candidates and weights to the choices of the generator; all numbers of nodes, sizes at least 2 and graph data", "why_tests_cant": "Wrong weights (e.g. equal weights, or out-degrees instead of in-degrees) still yield graphs and networks of the right shape, so no test of a single outcome can reveal them.", "anchors": ["src/simulation/graph.rs", "src/simulation/qsc/random.rs", "src/bin/qsc_simulator.rs"]}
{"id": "C101", "title": "Small-world networks that can be generated", "statement": "new_random_small_world follows the procedure of Watts and Strogatz: starting with a ring in which every node is linked with its k/2 neighbours on each side, the nodes are considered in order; for each of its k/2 forward links that still exists a node flips one coin with probability beta; then the links for which it was heads are replaced one after the other by links to nodes with which the node is not linked at that time (nothing is replaced if there is no such node). Every network that this procedure allows can be generated if beta is not 0, and no other networks. With probability 1 no existing forward link is spared. What is read from the output of graph_generator is such a network up to the names of nodes.", "quantifier": "all generators, all conditions on coin flips with probability beta, all n, k and beta", "why_tests_cant": "Tests check shape (degrees, number of links) of some outcomes; a function that never reconnects a pair of nodes that was disconnected before, that skips links, or that flips coins with a wrong probability passes them.", "anchors": ["src/simulation/graph.rs", "src/bin/graph_generator.rs"]}
{"id": "C102", "title": "Probabilities of random quorum sets and graphs", "statement": "With a fair source of randomness: (a) in a simulation with Random and size >= 2, each initial node independently trusts itself and a uniformly distributed set of size-1 of the other initial nodes (the first `size` nodes trust each other if there are fewer initial nodes), and each node added later itself and a uniformly distributed set of size-1 of the nodes that are already there; all networks of this kind are equally likely. (b) With weights, as for FameWeightedRandom, a node chooses its validators one after the other, each remaining candidate with the probability of its weight among those of the remaining candidates; if there are at least `size` initial nodes, the choices of all nodes of a network are independent, initial nodes drawing from the other initial nodes and later nodes from those already there; if there are fewer, and the weights of the first `size` nodes are positive, these trust each other and the later nodes draw in the same way. (c) new_random_scale_free generates each graph with the probability given by preferential attachment: each added node chooses m earlier nodes one after the other, each remaining node with the probability of its degree before the node was added. (d) new_random_small_world generates networks with the probabilities of the procedure of Watts and Strogatz: one node after the other flips a coin for each of its remaining links with its successors and then replaces those for which it was heads by links with nodes that are chosen uniformly among those with which it is not linked; for probabilities other than 0 and 1, all networks that can result have positive probability, and the ring remains with at least the probability that all coins are tails. (e) Graph::shuffled chooses uniformly among the n! ways to rename the nodes.", "quantifier": "all numbers of nodes, sizes and weights; all networks and graphs that can be generated", "why_tests_cant": "Tests run a few seeds and check shape only; a biased choice (weights ignored, weights counting links added for the same node, nodes chosen by index, some nodes re-chosen in a second round, free end nodes listed twice) gives well-formed results each time.", "anchors": ["src/simulation/qsc/random.rs", "src/simulation/graph.rs", "src/simulation/mod.rs", "src/bin/qsc_simulator.rs"]}
{"id": "C103", "title": "Probability that a network with random quorum sets is safe", "statement": "With a fair source of randomness, the network that qsc_simulator prints for the policy Random, i initial nodes and growth to n nodes has quorum intersection with exactly the probability with which the following does not split: each node picks at random, independently of the others, whom it trusts (itself and min(size, n)-1 of the nodes that are there when it chooses), and a split consists of two disjoint groups each of whose members trusts at least t members of its own group, t being the default threshold for min(size, n) validators. This probability is 1 if and only if i < 2t. For FameWeightedRandom with at least two nodes, it is 1 if and only if there are enough targets of links to choose from (otherwise the tool panics), but fewer than 2t nodes that can be chosen among the initial ones; with a given threshold u, the same with 2u, and u has to be at most min(size, n).", "quantifier": "all numbers of initial and additional nodes with at least one node, sizes at least 2", "why_tests_cant": "The number of networks is exponential; sampling seeds only estimates the probability, and a probability below 1 can be too small to be seen.", "anchors": ["src/simulation/qsc/random.rs", "src/simulation/mod.rs", "src/bin/qsc_simulator.rs", "src/io/core_types.rs"]}
