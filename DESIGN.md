# Formal model of wiberlin/fbas_analyzer in Lean 4

The Lean project is in `lean/`. `properties.jsonl` lists the properties, `MANIFEST.json`
maps each of them to theorem names, `seeded/LOG.jsonl` records attempts to break the model.

## Method

* `Verif/Spec.lean` is the specification. It only uses the data types (`QuorumSet`, `Fbas`)
  and defines slices, quorums, blocking sets, splitting sets, top tier, trust-graph
  reachability from first principles. No property theorem about analysis is stated with
  model helper functions on the specification side.
* `Verif/Model/*.lean` transliterates the Rust code function by function. Every definition
  cites file and lines in `/repo`. Mutable search state (`&mut` arguments with undo) is
  threaded explicitly, so a forgotten undo would be visible in the model. Panics are explicit
  (`Except Panic`), loops become structural recursion, or recursion on fuel with a proof that
  the fuel suffices.
* `Verif/Lemmas/*.lean` are proofs about the model.
* `Verif/Props/*.lean` contain the property theorems (one per property id), each with a
  concrete non-trivial `example`, and `#print axioms`.

## Trusted base

* Lean 4.33.0 kernel and the Mathlib modules imported. Axioms used: at most `propext`,
  `Classical.choice`, `Quot.sound` (printed next to every property theorem).
* The reading of the Rust code into the model (by hand).
* External crates, modelled by their documented behaviour:
  * `bit_set::BitSet` (0.5): a finite set of naturals (`Finset ℕ`); iteration ascending; `Ord`
    lexicographic on the ascending elements.
  * `itertools` 0.9: `combinations(k)` in lexicographic index order, one empty combination for
    `k = 0`, none for `k > n`; `multi_cartesian_product` with the last factor varying fastest
    and **no** item at all for zero factors (behaviour before 0.13).
  * `pathfinding::strongly_connected_components`: parameter `Env.scc`, assumed to return a
    partition of the nodes reachable from the start nodes into classes of mutual reachability
    (any order). A reference implementation is given and proved to meet the assumption.
  * `sort_by_rank` (floating-point page rank): parameter `Env.rank`, an arbitrary permutation (the order that the code
    computes is one, see C73).
    Theorems hold for every such permutation.
  * `rand`: the structure `Rand` (Model/Graph.lean) collects the contract of the functions used:
    `shuffle` permutes; `choose` returns an element, none only for an empty list; `choose_weighted`
    returns an element of positive weight and fails only if there is none; `gen_bool(0)` is false.
    The state of the generator is a parameter; theorems hold for every implementation of the contract.
    Only C102 and C103 speak about probabilities; there the generator is `lottery L` (SpecProbability.lean), which chooses with
    independent, uniformly distributed numbers. That the generators of the crate behave like this is an idealisation.
  * `HashMap`/`BTreeMap`: finite maps. `sort_unstable`/`sort`: sorting w.r.t. a total order.
  * `serde_json`/`csv`: reading and printing of text is not modelled. The derived `Serialize` and
    `Deserialize` implementations are modelled on JSON values (`Verif/Model/Json.lean`): structs are
    read from objects or arrays, repeated fields are errors, unknown fields are ignored. Numbers
    are naturals or rationals.
* `usize`/`u64` are unbounded naturals in the plain model. `Verif/Model/Machine.lean` repeats all functions
  of the analysis that compute with thresholds on machine words of any size, with overflows that panic or
  wrap around; C75 says when the results are the same (`2 * threshold` can overflow in the code for
  thresholds of 2^63 and above). Lengths and indices are bounded by the memory; running out of memory is
  not modelled (itertools' `combinations(k)` may allocate `k` indices).
* Indexing `fbas.nodes[x]` out of range panics in Rust; in the plain model it yields the empty quorum
  set. The checked model (`Verif/Model/Checked*.lean`, namespace `FA.Checked`) repeats the analysis
  functions and the `Analysis` front end with every index access checked; C60 proves that both agree
  exactly if no node that is part of a quorum reaches a missing node (in particular for `WF`, which is
  proved for everything loaded from JSON). Other theorems about analyses assume `WF`.
* `debug_assert!`s are ignored in the plain model (release semantics); they are checked in the checked
  model with `dbg = true` (C61). Logging is ignored.
* f64 arithmetic: `calculate_67p_threshold` is modelled as exact integer arithmetic
  (`C41_float` justifies this for every rounding function with two properties of rounding to nearest);
  `C41_round` shows that rounding to 53 significant bits, as defined in Model/Graph.lean, has them);
  relative thresholds (C81) and mean set sizes (C84) are computed with this rounding; weights and probabilities are rational numbers
  instead of f64. Rank scores take the
  rounding after each operation as a parameter: theorems are about exact arithmetic, about every
  rounding, about every rounding with the accuracy of f64 (C86, including subnormal numbers and proving that
  nothing overflows), or (counterexamples) about rounding to 53 bits. Elsewhere, overflow, subnormal
  numbers and NaN are not modelled (except C73).
* Text is `List Char` (AS relationship files, file names of the bulk analyzer) or `String`; the sizes
  of `usize` and `i32` are not modelled when parsing numbers. bzip2, CSV, threads and time
  measurements are not modelled. Files of the bulk analyzer are given by their JSON content (inputs) or as
  lists of data points (outputs); `par_map` yields results in the order of the tasks; a panic in a task
  ends the program when its result is due; the SHA3 hash of a JSON text is a parameter.

## Validation of the model

The reading of the Rust code is the main thing to trust, so it was tested (these are tests, not proofs):

* `Verif/Conformance/{Core,Io,Simulation}.lean` replay 125 of the project's 156 `#[test]` functions on the
  model, with the values that the authors expect, evaluated by the kernel. Differences to the original tests:
  JSON texts are given as JSON values; tests with randomness are run with two fixed sources of randomness only;
  `small_world_graph_*` and `global_reevaluation_visits_in_random_order` use smaller sizes.
* 21 tests (19 with the files `correct.json`, `broken.json`, `stellarbeat_*_2019-09-17.json`, 2 of
  `HigherTierNeighborsQsc` with more than 30 nodes) are too slow for the kernel. They were run once, outside
  of this project, with Lean's interpreter (or, for `higher_tier_qsc_has_few_minimal_quorums`, in a separate
  kernel run): JSON was read with `Lean.Json`; `Env` was given an ordinary SCC search and the modelled ranking
  `Ranking.sortByRank` with the rounding of f64, without the proofs that `Env` asks for. All expected values were
  reproduced, among them the quorums `{3, 10}`, `{4, 6}` that are found first in `broken.json` (which depends on
  the f64 ranking), the 1161 minimal quorums of the 2019 network and both SHA3-256 hashes of
  `standard_form_is_stable`. Strings were compared as the lists or values from which they are printed. The
  scripts are not part of this repository.
* Not tested: 4 tests which check that something is random, `bunzip2s`, the 3 tests of the command line, and
  the 2 tests that `Groupings::from_json_*` equals `organizations_from_json_*` (one definition in the model).

## Plan per property

| id | modelled | how proved |
|----|----------|-----------|
| C01 | `is_quorum_slice` | structural induction on nested quorum sets against an inductive spec |
| C02 | `is_quorum_slice`, `contained_nodes` | induction on spec derivations |
| C03 | `is_quorum` | from C01, C02 |
| C04 | `to_quorum_slices`, `contains_duplicates` | induction; combinations/cartesian product lemmas |
| C05, C06 | `find_satisfiable_nodes`, `contains_quorum` | loop invariant (every quorum inside stays inside), fuel suffices |
| C07, C08 | `partition_into_sccs`, `relevant_nodes` over `Env.scc` | minimal quorums are strongly connected |
| C09-C11 | search step with explicit state | invariant by induction on fuel; symmetric shortcut via C04; uniqueness of sorted lists |
| C12, C13 | `all_intersect`, `Analysis` | pigeonhole; C27 |
| C14, C15 | nonintersecting search | invariant by induction on fuel; counterexample for panics without quorums |
| C16, C17 | blocking search | invariant; symmetric shortcut under side conditions; counterexamples |
| C18 | top tier | hitting-set duality |
| C19-C21 | splitting search | invariant; counting argument for the heuristic; counterexamples for the symmetric shortcut |
| C22-C24 | symmetric clusters | closedness + strong connectivity |
| C25, C26 | shrinking | bijection lemmas, induction on quorum sets |
| C27-C29 | `Analysis` state machine | invariant over all call sequences; counterexample for call-order dependence; `C28_blocking_first` describes all results after `minimal_blocking_sets()` was called first, for all FBASs |
| C30-C35 | results | list/set lemmas, up-closed families |
| C36-C40 | raw conversion, registry | induction, permutation/sorting lemmas |
| C41-C46 | simulation | arithmetic; induction over schedules |
| C47-C52 | graphs | induction over construction steps, all random choices |
| C53-C55 | groupings | induction |
| C56, C57 | bulk tools | arithmetic, list lemmas |
| C58 | `merge_quorum_set` | structural induction on nested quorum sets |
| C59 | `Groupings::shrunken` | shrink map is a bijection |
| C60 | checked copies of all analysis functions and of `Analysis` | refinement: checked = plain on closed FBASs, error otherwise |
| C62, C63 | derived (de)serialization on JSON values | inductive description of documents, equivalence by induction on documents |
| C64 | `src/io/results.rs` rendering, on JSON values | structural induction on quorum sets; list lemmas |
| C65 | the whole binary `fbas_analyzer` on JSON values and options | each part of the output against the calls made before it, then C12-C29, C32, C54, C62, C64 |
| C69 | `bulk_fbas_analyzer`: analyses, columns, output file | state of the `Analysis` object after minimal quorums were computed first; C12-C29, C32, C34, C38, C54, C57, C62, C65 |
| C70 | `bulk_performance_experiment`: FBASs, analyses, output file | no shrunken FBAS has a symmetric cluster, so C19, C27, C29 apply; minimal sets of threshold systems and of organizations characterized and counted by bijections |
| C71 | the binary `qsc_simulator`: policies, simulation, printed document | per policy an invariant that holds in every state and a stronger one after a node was visited (`Steady`), by induction over visits, rounds and growth; reading back by C36, C63 |
| C72 | the binary `graph_generator`: generation, shuffling, head comment, output | composition of C48-C51 with a renaming of nodes (`Renamed`); an invariant of the rewiring (each node keeps its own `k / 2` links) gives `C49_min_degree`, so that no node is lost in the text format; with C71 the pipeline |
| C73 | `rank_nodes`, `sort_by_rank` with rounding after each operation (`Model/Ranking.lean`), IEEE 754 rounding (`F64.finite`) | error analysis: an invariant bounds the error of partial sums, and the sum of all errors grows by a constant per run (handing on scores does not increase sums); stable merge sort; the order is an instance of `Env.rank` |
| C74 | examples/results_reuse.rs: `do_analysis`, equality of FBASs as cache key, post-analysis (`Model/Reuse.lean`) | invariant of the cache by induction over runs; exactness by C12, C18, C19, C21, C29 after the calls made before; numbers of the report as least elements (`Fewest`, `FewestOwners`), moved from the standard form to the loaded FBAS by public keys (C39) |
| C75 | `is_quorum_slice`, `blocking_threshold`, `to_blocking_sets`, `splitting_threshold`, `is_slice_intersection`, `to_splitting_sets`, the search for splitting sets, `Analysis`, `QuorumSet::from_raw` on machine words (`Model/Machine.lean`) | agreement with the plain model by structural induction; the search for splitting sets with an arbitrary heuristic that accepts all intersections of quorums (`msStepWith`) for release builds; relation "same or overflow" for debug builds; reachable states of `Analysis` (C27) |
| C76 | `Fbas::from_raw`, `Analysis` | inputs in another order give FBASs that differ by a permutation of IDs (`Renamed`); all steps (clusters, searches, shrinking, splitting into symmetric clusters) commute with permutations up to the order of lists; simulation between the reachable states of two objects (C27); answers compared by public keys (`SpecInputOrder`) |
| C77 | `Fbas::from_raw`, `Analysis` | the FBAS with further nodes is an extension (`Extended`): same quorum sets, clusters of the old nodes, satisfiability; all states of `Analysis` except the cached satisfiable nodes agree (`Blind`), by induction over calls |
| C78 | `QuorumSet::is_quorum_slice`, `Analysis` | slices become fewer by induction on `Stricter`; then exactness of the answers (C15, C16, C27) |
| C79 | `impl Eq/Ord/Hash for Fbas`, derived orders of `Node`, `QuorumSet` (`Model/FbasOrder.lean`) | lexicographic orders from total orders of the parts (`QuorumSet.cmp`, as for the standard form); the answers depend on the nodes only |
| C80 | `without_nodes_pretty`, `minimal_sets`, `Fbas::from_raw`, `Analysis` | quorums of an input in terms of public keys (`RawQuorum`); those without failed nodes are the quorums of the smaller input; then exactness of the answers on both sides (C15, C29, C31) |
| C81 | `calculate_x_threshold`, `calculate_threshold` | rounding to nearest keeps the order relative to integers and changes a number by at most a fraction of 2^-53; a quotient `na/b` that is no integer is at least `1/b` away from one |
| C82 | `Analysis::minimal_splitting_sets` | attacks on safety specified separately (`SpecSafety`): misbehaving nodes that take part in two decisions, or behave arbitrarily; minimal quorums are no subsets of each other, so intersections of two of them leave someone to be misled on both sides |
| C83 | answers of `Analysis`, data points | duality of minimal quorums and minimal blocking sets: for every node of one there is one of the other that meets it only there; also for groups, as complements of sets of groups are sets of groups |
| C84 | `NodeIdSetVecResult::mean` | conversions of numbers up to 2^53 are exact, rounding is monotone and keeps integers; different quotients `s/l`, `s'/l'` differ by at least `1/(l l')` |
| C85 | `bulk_fbas_analyzer::analyze`, `fbas_analyzer::main` with loading of groups | a permutation of IDs moves nodes and groups (`Moves`); merged representatives correspond by an injective map that keeps names, so sizes, unions and names agree; merging of quorum sets commutes with the permutation up to the order (`mergeQ_rename`), so the same symmetric clusters are shown (`C85_clusters`); false for quorum sets that list a node twice next to a one-node quorum (`C85_counterexample`) |
| C86 | `Graph::get_rank_scores`, `GlobalRankQsc::get_top_tier_nodes`, `get_neighbors_by_tierness` with rounding | every operation is rounded; error of a step bounded per node by the number of incoming links, total error by linearity of a step (`After.step`), comparison with the limit (`loop`); rounding of IEEE 754 has the assumed accuracy |
| C87 | `Fbas::from_raw`, `Analysis` (minimal quorums, blocking sets, splitting sets, top tier, quorum intersection) | quorums of a concatenated raw FBAS split along the two sets of public keys (`rawQuorum_inter_left`); minimal quorums and minimal blocking sets of the parts are put together on the level of raw FBASs and related to the reports by C27, C29, C18, C12, C21. Blocking sets for well-shaped FBASs only |
| C88 | `Analysis` (quorum intersection, minimal blocking sets, minimal splitting sets) | transition systems for stopping nodes and for a vote with misbehaving nodes (`SpecExecution`); invariants over all executions: quorums without failed nodes keep running, decisions are backed by votes that never change; related to the reports by C29, C12, C82 |
| C89 | all methods of `Analysis`, `IdealQsc` | `UniformCore` (`SpecUniform`): counting arguments for quorums, blocking and splitting sets; such networks are well-shaped, so C12, C18, C19, C21, C27, C29 apply after any calls; C22 and C24 for clusters |
| C90 | the four recursive search functions, loops of `find_satisfiable_nodes` and `contains_quorum` | big-step semantics with counters of calls and active calls (`SpecSearch`); totality by induction on the queue length, uniqueness and restored state by induction on executions; confluence of removals |
| C91 | `Analysis` with all result methods | hypotheses on declared quorum sets only (`SpecTidy`); they imply the conditions of C12, C14, C18, C19, C21, C27, C29 since shrinking to a superset of the top tier keeps quorum sets of its nodes; sorted lists with the same members are equal |
| C92 | `Analysis` with all result methods on networks of organizations | `SpecOrgs` (organizations, what is picked, how many such sets there are); minimal sets with enough nodes of enough organizations, two picks with least overlap, counting by induction on the organizations; exactness from C91 |
| C93 | `Tool.main`, `Bulk.analyze`, `mergeQuorumSet`, `mergeMinimalNodeSets` on networks of organizations | `SpecMergedOrgs` (organizations are groups, their first members); every organization has one representative, and exactly the organizations represented in a set agree if all their nodes do |
| C94 | `Fbas.fromRaw` and all calls of `Analysis` | `SpecTidyInput` (tidy top tier, minimal splitting sets etc. of a raw FBAS, in terms of public keys); thresholds, lengths and repetitions are kept by `fromRaw` if all listed nodes are known, then C91 |
| C95 | `QscSimulator.main` and then `Tool.main` | `SpecPipeline` (plain quorum sets, closed forms of everything printed); invariant of all policies over visits, rounds and growth; kept by writing and reading since generic names differ from names of missing nodes; then C65 for well-shaped networks |
| C96 | `Tool.main` with merging | executions of `SpecExecution` against the printed lines; C91 for the tool (minimal sets of groups), monotonicity of blocking and splitting, each set of failed nodes lies in the expansion of its groups |
| C97 | `QscSimulator.main` followed by `Bulk.analyze` | simulated networks have plain quorum sets (C95), so all side conditions of C69 hold; closed forms from the uniform core (C89) and the facts about sizes of all `k`-element subsets |
| C98 | `QscSimulator.main` with random policies, `newRandomScaleFree`, `shuffled` | what holds for all choices by an invariant over rounds and growth; possibility by generators that answer from a script (a wish per node, a list of links, a permutation) and the invariant that the script is followed |
| C99 | `QscSimulator.main` with random policies, then `fromJson` and `Tool.main` | the smallest member of a quorum is an early node, so each quorum has t early nodes; the converse by C98 with two groups that only need themselves; with weights, only nodes with links leading to them count, as nobody chooses the others (`C99_fame_iff`, and `C99_fame_threshold` for given thresholds) |
| C100 | `newRandomScaleFree`, `QscSimulator.main` with random policies | links and validators are appended in the order in which they are chosen, so candidates and weights of every choice can be read off the result; invariants over loops, rounds and growth |
| C101 | `newRandomSmallWorld` | refinement of an inductively defined relation between sets of links (free end nodes = nodes without a link), and a generator with prescribed coin flips and choices for the converse |
| C102 | `QscSimulator.simulate` with `Qsc.random`, `Qsc.random` with weights, `newRandomScaleFree`, `newRandomSmallWorld`, `shuffled` | probabilities count sequences of draws; one draw fixes one choice, so probabilities multiply along the loops; visits of nodes that are complete draw nothing or do not matter; while there are too few nodes, all choices lead to the same network (`Sure`); for weights, one choice of each node counts and other choices are never taken back (`Leads`); for small worlds, the probability of any property of the result is computed backwards through the loops, which needs that lists of free end nodes have no duplicates |
| C103 | `QscSimulator.main` with `Random` and `FameWeightedRandom`, then `fromJson` | C102 (uniform distribution) with the condition that groups that suffice for themselves meet; quorums are such groups as all thresholds are equal (C98); C99 for probability 1. `C103_fame`, `C103_fame_threshold`: the two groups of C99 arise with a positive probability, the product of C102 |
| C66 | `get_rank_scores` with a rounding parameter | loop invariants: sums over links; the number of rounds is characterized; renaming by bijections |
| C67, C68 | `GlobalRankQsc`, `HigherTierNeighborsQsc` | averages; target configurations determined by the graph; induction over growth |
| C61 | the same with `debug_assert!`s | the assertions are equivalent to facts about the result lists, which are antichains unless a symmetric cluster lists a node twice; invariant over call histories for `Analysis`; counterexamples |

## Disagreements between code and documentation found so far

Each item is backed by a theorem with a concrete witness (or for all FBASs of a kind).

* `find_minimal_quorums` can list a minimal quorum several times if a symmetric cluster's quorum set
  lists a node twice (`C10_counterexample`).
* Making quorum sets stricter can make reported blocking sets larger, since `find_minimal_blocking_sets`
  misses sets for symmetric clusters with unsatisfiable inner quorum sets (`C78_counterexample`).
* C80: what-if analysis and a new analysis without the failed nodes can report different minimal blocking
  sets: the new analysis misses sets if inner quorum sets became unsatisfiable by the failures, and reports
  nothing instead of the empty set if no quorum is left (`C80_counterexample`).
* C81: `calculate_x_threshold` is documented as `max(1, ceil(nx))`. Because of rounding, `--relative-threshold 0.07`
  demands 8 of 100 validators and 0.55 demands 56 (`C81_counterexample`). It is one more at most, and only
  if the exact product is an integer (`C81_fraction_partial`).
* C82: README.md:15 calls minimal splitting sets "minimal indispensable sets for safety". A smaller set of nodes
  can suffice if its members disregard their own quorum sets, and nothing is reported if there is just one
  minimal quorum although a single node can mislead others (`C82_counterexample`).
* C83: for FBASs that are not well-shaped, a data point can contradict itself: two nodes in the top tier, minimal
  quorums and minimal blocking sets of two nodes (`C83_counterexample`).
* `find_nonintersecting_quorums` panics for every FBAS without a quorum (`C15_counterexample`).
* `find_minimal_blocking_sets` is wrong for symmetric clusters with repeated nodes or unsatisfiable
  inner quorum sets (`C16_counterexample*`) and returns no set, instead of the empty set, if there
  is no quorum (`C17_counterexample`). Its minimality check for symmetric clusters with repeated
  nodes only asks whether the largest node of a set is a quorum on its own
  (`isMinimalForBlockingSet_iff`); if no single node is a quorum, no set at all is reported
  (`C16_duplicates`). These are all the wrong cases, and all reported sets are blocking
  (`C16_exact_iff_partial`, `C16_sound`).
* `find_minimal_splitting_sets` is wrong for symmetric clusters with nested quorum sets that offer
  no choice or need no majority, with repeated nodes, or with unsatisfiable inner quorum sets
  (`C19_counterexample`, `C19_counterexample_unsatisfiable`). In the first two cases the reported sets
  are still splitting (`C19_sound_partial`), but they are the minimal splitting sets only in the trivial
  case of one minimal quorum (`C19_exact_iff_partial`).
* `Analysis`: results can depend on the order of calls. After `minimal_blocking_sets()` the ID space
  is shrunken differently, which can change the quorum intersection verdict, the top tier and the
  splitting sets (`C27_counterexample`, `C28_counterexample`, `C29_counterexample`). The verdict can
  wrongly become "true": disjoint quorums are missed by both checks (`C12_counterexample`,
  `C21_counterexample`). What
  remains reliable for all FBASs and call orders: `C12_sound`, `C14_agree`, `C14_sound`, `C27_sound`,
  `C29_sound`. What results mean after `minimal_blocking_sets()` was called first is described exactly by
  `C28_blocking_first`, `C27_blocking_first_iff` and `C12_blocking_first_iff`: those of the network restricted
  to the nodes in the reported blocking sets.
* examples/results_reuse.rs prints "0 more nodes need to become evil for safety to become endangered"
  if no set of nodes is splitting (`C74_counterexample`), and panics if there is no quorum
  (`C74_no_quorum`).
* C75: `2 * threshold` overflows for thresholds of at least half of the largest word plus one. In release
  builds this can make `minimal_splitting_sets` report a set that is not splitting (`C75_wrong_release`); debug
  builds panic (`C75_panic_debug`). Only inner quorum sets that can never be satisfied are affected.
* C76: for a quorum set that lists a node twice, `minimal_blocking_sets` can report sets that are not minimal,
  and which ones depends on the order of the nodes in the input (`C76_order_counterexample`); if it is the first
  call then the top tier depends on it, too. The other results do not depend on the order.
* C85: for the same reason, data points and printed results can depend on the order of the nodes in the input file
  (`C85_counterexample`: largest minimal blocking set of size 3 or 2 for the same network).
* `NodeIdSetVecResult::involved_nodes` returns shrunken IDs (`C35_counterexample`).
* Overlapping groups: members of a common group get different merged IDs, merging is not idempotent
  (`C33_counterexample`).
* `merge_quorum_set` resets the threshold to 1 although inner quorum sets remain, and drops sets that
  are nested in inner quorum sets with a single validator; even groups with one member change
  quorum sets (`C55_counterexample`, `C58_counterexample`).
* `to_standard_form` is not idempotent: leaving out an unsatisfiable node can make another node
  irrelevant (`C38_idempotent_counterexample`).
* `remove_special_chars_from_grouping_name` panics for empty names, names of commas only, and names
  that do not end with an ASCII character (`C53_counterexample`).
* `RandomQsc` with a desired size of 1 leaves the threshold at 0 and reports `NoChange` although it
  sets a validator (`C45_counterexample`); it panics if too few nodes have a positive weight
  (`C45_panics_iff`).
* `new_tiered_full_mesh` starts numbering again at 0 after a tier of size 0 (`C47_counterexample`). The links are the documented ones iff every non-empty tier is the first one, follows a non-empty one, or is a single node without neighbouring tiers (`C47_tiered_iff`).
* `new_random_scale_free` panics for `m0 > n` and for `m0 = 1 < n` although its assertions allow both
  (`C48_panics_iff`); `new_random_small_world` panics for `k > n` (`C49_panics_iff`).
* Reading back a graph written with `to_as_rel_string` reverses all links that exist in one direction
  only, loses links of a node to itself and isolated nodes at the end (`C51_counterexample`; exact
  criterion in `C51_round_trip_iff`); a comment with several lines can make the file
  unreadable (`C51_comment`).
* `make_almost_ideal_fbas(1)`: the single node lists itself twice and *is* treated as a symmetric
  cluster, in contrast to the comment; its minimal blocking set is reported twice (`C56_size_one`).
* `extract_inputs` claims that some files could not be recognized if two organizations files have the
  same label (`C57_extract_error`).
* Quorum sets that mention missing nodes (possible with the simulation: `AllNeighborsQsc` configures
  neighbors that do not exist yet) make `Analysis::new` panic exactly if some node that is part of a
  quorum reaches a missing node (`C60_out_of_bounds_iff`, `C60_growth_counterexample`).
* The debug assertions of `find_minimal_quorums` and `find_minimal_blocking_sets` can fail
  (`C61_counterexample`).
* With overlapping groups, the same node can be shown with the names of different groups within one
  printed quorum set (`C64_counterexample`).
* `fbas_analyzer -b --dont-check-quorum-intersection` can print an empty top tier and `[[]]` as splitting
  sets for an FBAS with quorum intersection (`C65_counterexample`). The comments "We found n minimal ..."
  count sets before merging by group, while the sets are printed after merging. The non-intersecting
  quorums are not merged and can look the same with `--pretty` (`C65_nonintersecting_same_names`).
* C69: `bulk_fbas_analyzer` loads ISPs and countries of every FBAS, so that an unusual name (not ending with
  an ASCII character, see C53) makes the analysis panic although no grouping was asked for. With `--update`
  the file with existing results is overwritten from the start; if an analysis panics, all existing
  results with later labels are lost (`C69_lost`, `C69_lost_counterexample`). For an FBAS without quorums zeros
  are written as if the empty set had been found to be blocking (`C69_no_quorums`).
* C70: `bulk_performance_experiment` reports two minimal blocking sets for the FBAS with one node, which has
  only one (`C70_one_node_counterexample`).
* C71, `qsc_simulator`: contrary to its description, `--initial` does not default to the size of the graph if
  `--grow-by` is given (`C71_default_size_counterexample`). The formula `(n-1) < (3f+1) <= n` in the
  description of `Ideal` has a solution only for every third `n` (`C71_ideal_counterexample`; proved instead:
  the largest `f` with `3f+1 <= n`). `Random` with size 1 yields unsatisfiable quorum sets
  (`C71_random_small`). `FameWeightedRandom` can panic
  (`C71_fame_counterexample`; exactly when is shown by `C71_fame`).
  `SymmetryEnforcingHigherTierNeighbors` does not turn the top tier into a symmetric cluster in general
  (`C71_symmetric_counterexample`).
* C72, `graph_generator`: the text format contains only links, so that nodes without links get lost; with `k = 0`
  (or one node) the written file is read as an empty graph (`C72_counterexample`).
* `GlobalRankQsc` takes the nodes whose score is above the average as top tier. In a full mesh there are
  none; the test `global_rank_qsc_can_be_like_ideal` passes only because of rounding errors: with f64, all
  of 10 nodes are above their average, but none of 11 (`C67_counterexample`).
* `HigherTierNeighborsQsc`: nodes without preferred neighbours become quorums of their own
  (`C68_no_intersection`); nodes with score 0 regard all neighbours as higher tier (`C68_zero_score`).
