import Verif.Ref.Env
import Verif.Model.FrontEnd
import Verif.Model.Groupings
import Verif.Model.Checked

/-!
# The unit tests of the project, replayed on the model (core types and analysis)

These are tests of the *model*, not proofs of properties: every `example` is a `#[test]` function of
/repo (its name is given), with the expected values of the project's authors. They show that the
definitions of `Verif/Model` compute what the Rust code is known to compute. Each is evaluated by the
kernel.

Tests that use the large files of `test_data` are not repeated here (they take minutes in the kernel); see
"Validation of the model" in DESIGN.md.
-/

namespace FA.Conformance
open FA Ref

/-- A quorum set without inner quorum sets. -/
abbrev flat (t : ℕ) (vs : List NodeId) : QuorumSet := ⟨t, vs, []⟩

/-! ## src/core_types/quorum_set.rs -/

-- is_quorum_slice_if_not_quorum_slice
example : (flat 3 [0, 1, 2]).isQuorumSlice {1, 2, 3} = false := by decide +kernel
-- is_quorum_if_quorum
example : (flat 2 [0, 1, 2]).isQuorumSlice {1, 2, 3} = true := by decide +kernel
-- is_quorum_slice_with_inner_quorum_sets
example : (⟨3, [0, 1], [flat 2 [2, 3, 4], flat 2 [4, 5, 6]]⟩ : QuorumSet).isQuorumSlice {1, 2, 3}
    = false := by decide +kernel
example : (⟨3, [0, 1], [flat 2 [2, 3, 4], flat 2 [4, 5, 6]]⟩ : QuorumSet).isQuorumSlice {0, 3, 4, 5}
    = true := by decide +kernel
-- empty_set_is_not_quorum_slice
example : (flat 2 [0, 1, 2]).isQuorumSlice ∅ = false := by decide +kernel
-- quorum_set_with_threshold_0_trusts_no_one
example : ([∅, {0}, {0, 1}, {0, 1, 2}] : List NodeSet).map
    (fun S => (flat 0 [0, 1, 2]).isQuorumSlice S) = [false, false, false, false] := by decide +kernel
-- flast_quorum_set_to_quorum_slices
example : (flat 1 [0, 1, 2]).toQuorumSlices = [{0}, {1}, {2}] := by decide +kernel
-- nested_quorum_set_to_quorum_slices
example : (⟨3, [0, 1], [flat 1 [2, 3], ⟨3, [3, 4], [flat 1 [5]]⟩]⟩ : QuorumSet).toQuorumSlices =
    [{0, 1, 2}, {0, 1, 3}, {0, 1, 3, 4, 5}, {0, 2, 3, 4, 5}, {0, 3, 4, 5}, {1, 2, 3, 4, 5},
      {1, 3, 4, 5}] := by decide +kernel
-- duplicate_validators
example : (⟨2, [0, 1], [flat 1 [1, 3]]⟩ : QuorumSet).containsDuplicates = true := by decide +kernel
-- no_duplicate_validators
example : (⟨2, [0, 1], [flat 1 [2, 3]]⟩ : QuorumSet).containsDuplicates = false := by decide +kernel

/-! ## src/core_types/fbas.rs -/

/-- test_data/correct_trivial.json (reading a quorum set sorts the validators) -/
def correctTrivial : Fbas := mkFbas [flat 2 [0, 1, 2], flat 2 [0, 1, 2], flat 2 [0, 1, 2]]

/-- test_data/broken_trivial.json -/
def brokenTrivial : Fbas := mkFbas [flat 1 [0, 1, 2], flat 2 [0, 1, 2], flat 2 [0, 1, 2]]

-- new_node
example : Node.new "test" = ⟨"test", ⟨0, [], []⟩⟩ := by decide +kernel
-- add_node_panics_on_duplicate_public_key
example : errEq (do
    let (_, f) ← Fbas.new.addNode (Node.new "test")
    f.addNode (Node.new "test")) .explicit = true := by decide +kernel
-- is_quorum_for_fbas
example : correctTrivial.isQuorum {0, 1} = true := by decide +kernel
example : correctTrivial.isQuorum {0} = false := by decide +kernel
-- empty_set_is_not_quorum
example : correctTrivial.isQuorum ∅ = false := by decide +kernel

/-! ## src/core_types/shrinking.rs -/

-- shrink_quorum_set
example : (flat 2 [2, 3, 4]).shrunken (Map.collect [(2, 0), (4, 1)]) = flat 2 [0, 1] := by
  decide +kernel
-- shrink_organization
example : Grouping.shrunken (Map.collect [(2, 0), (4, 1)]) ⟨"test", [2, 3, 4]⟩ = ⟨"test", [0, 1]⟩ := by
  decide +kernel
-- shrink_organizations
example : (do
    let f ← Fbas.newGenericUnconfigured 43
    let orgs ← Groupings.new [⟨"test1", [2, 3, 4]⟩, ⟨"test2", [23, 42]⟩] f
    let small ← Fbas.newGenericUnconfigured 4
    let expected ← Groupings.new [⟨"test1", [0, 1]⟩, ⟨"test2", [2, 3]⟩] small
    let actual ← orgs.shrunken ⟨[], Map.collect [(2, 0), (4, 1), (23, 2), (42, 3)]⟩ small
    .ok (decide (expected = actual)) : Except Panic Bool) = .ok true := by
  exact ok_of (by decide +kernel)
-- shrink_set_shrinks_ids
example : okEq (shrinkSet (Map.collect [(2, 0), (4, 1), (23, 2), (42, 3)]) {2, 4, 42}) {0, 1, 3}
    = true := by decide +kernel
-- shrink_set_panics_if_cant_map_id
example : errEq (shrinkSet (Map.collect [(2, 0), (4, 1), (23, 2), (42, 3)]) {2, 3, 4}) .unwrapNone
    = true := by decide +kernel
-- shrink_sets_shrinks_ids
example : okEq (shrinkSets (Map.collect [(2, 0), (4, 1), (23, 2), (42, 3), (404, 4)])
    [{2, 4, 23}, {23, 42, 404}]) [{0, 1, 2}, {2, 3, 4}] = true := by decide +kernel
-- reshrink_sets_reencodes_sets
example : okEq (ShrinkManager.reshrinkSets
    ⟨[], Map.collect [(2, 0), (4, 1), (23, 2), (42, 3), (99, 4), (404, 5)]⟩
    [{0, 1, 2}, {2, 3, 4}] ⟨[2, 4, 23, 42, 404], []⟩) [{0, 1, 2}, {2, 3, 5}] = true := by
  decide +kernel

/-! ## src/analysis/sets.rs -/

-- node_set_intersections
example : allIntersect [{0, 1}, {0, 2}, {1, 2}] = true := by decide +kernel
example : allIntersect [{0}, {1, 2}] = false := by decide +kernel
-- minimize_node_sets
example : removeNonMinimalNodeSets [{0, 1, 2}, {0, 1}, {0, 2}] = [{0, 1}, {0, 2}] := by decide +kernel
-- is_set_of_minimal_node_sets_detects_duplicates
example : Checked.isSetOfMinimalNodeSets [{0, 1}, {0, 1}] = false := by decide +kernel

/-! ## src/analysis/preprocessing.rs -/

-- unsatisfiable_nodes_not_returned_as_relevant (the unknown node is ignored when reading the FBAS)
example : (mkFbas [flat 2 [0, 1, 2], flat 2 [0, 1, 2], flat 3 [0, 1]]).relevantNodes (refEnv 3) = {0, 1} := by
  decide +kernel
-- one_node_quorums_are_relevant
example : (mkFbas [flat 2 [0, 1], flat 2 [0, 1], flat 1 [2, 2]]).relevantNodes (refEnv 3) = {0, 1, 2} := by
  decide +kernel

/-! ## src/analysis/quorums.rs -/

-- find_minimal_quorums_in_correct_trivial
example : okEq (findMinimalQuorums (refEnv 3) correctTrivial) [{0, 1}, {0, 2}, {1, 2}] = true := by
  decide +kernel
-- find_minimal_quorums_in_broken_trivial
example : okEq (findMinimalQuorums (refEnv 3) brokenTrivial) [{0}, {1, 2}] = true := by decide +kernel
-- find_minimal_quorums_in_broken_trivial_reversed_node_ids (only the order of the nodes is reversed,
-- not the IDs in their quorum sets)
example : okEq (findMinimalQuorums (refEnv 3)
    { brokenTrivial with nodes := brokenTrivial.nodes.reverse }) [{2}, {0, 1}] = true := by
  decide +kernel
-- find_minimal_quorums_when_naive_remove_non_minimal_optimization_doesnt_work
example : okEq (findMinimalQuorums (refEnv 4)
    (mkFbas [flat 2 [0, 3], flat 2 [1, 2], flat 2 [1, 2], flat 2 [0, 3]])) [{0, 3}, {1, 2}] = true := by
  decide +kernel
-- find_satisfiable_nodes_in_unconfigured_fbas
example : (match Fbas.newGenericUnconfigured 10 with
    | .error _ => false
    | .ok f => decide (f.findSatisfiableNodes (Finset.range 10) = (∅, Finset.range 10))) = true := by
  decide +kernel
-- find_transitively_unsatisfiable_nodes
example : ((mkFbas [flat 2 [0, 1, 2, 3], flat 2 [0, 1, 2, 4], flat 2 [0, 1, 2], QuorumSet.empty,
    flat 1 [3]]).findSatisfiableNodes (Finset.range 5)).2 = {3, 4} := by decide +kernel

/-! ## src/analysis/blocking_sets.rs -/

-- find_minimal_blocking_sets_in_broken_trivial
example : okEq (findMinimalBlockingSets (refEnv 3) brokenTrivial) [{0, 1}, {0, 2}] = true := by
  decide +kernel
-- blocking_sets_of_2_of_3_quorum_set
example : (flat 2 [0, 1, 2]).toBlockingSets = [{0, 1}, {0, 2}, {1, 2}] := by decide +kernel
-- find_minimal_blocking_sets_in_symmetric_consensus_cluster
example : okEq (findMinimalBlockingSets (refEnv 2) (mkFbas [flat 2 [0, 1], flat 2 [0, 1]])) [{0}, {1}]
    = true := by decide +kernel
-- find_minimal_blocking_sets_in_different_consensus_clusters
example : okEq (findMinimalBlockingSets (refEnv 4)
    (mkFbas [flat 1 [1], flat 2 [0, 1], flat 2 [2, 3], flat 2 [2, 3]]))
    [{0, 2}, {0, 3}, {1, 2}, {1, 3}] = true := by decide +kernel
-- find_minimal_blocking_sets_in_different_symmetric_consensus_clusters
example : okEq (findMinimalBlockingSets (refEnv 4)
    (mkFbas [flat 2 [0, 1], flat 2 [0, 1], flat 2 [2, 3], flat 2 [2, 3]]))
    [{0, 2}, {0, 3}, {1, 2}, {1, 3}] = true := by decide +kernel

/-! ## src/analysis/splitting_sets.rs -/

-- is_slice_intersection_2_of_3
example : (flat 2 [0, 1, 2]).isSliceIntersection {0} = true := by decide +kernel
-- find_minimal_splitting_sets_in_different_consensus_clusters
example : okEq (findMinimalQuorums (refEnv 6) (mkFbas [flat 2 [0, 1, 2], flat 2 [0, 1, 2],
    flat 2 [0, 1, 2], flat 2 [3, 4, 5], flat 2 [3, 4, 5], flat 2 [3, 4, 5]]))
    [{0, 1}, {0, 2}, {1, 2}, {3, 4}, {3, 5}, {4, 5}] = true := by decide +kernel
example : okEq (findMinimalSplittingSets (refEnv 6) (mkFbas [flat 2 [0, 1, 2], flat 2 [0, 1, 2],
    flat 2 [0, 1, 2], flat 2 [3, 4, 5], flat 2 [3, 4, 5], flat 2 [3, 4, 5]])
    [{0, 1}, {0, 2}, {1, 2}, {3, 4}, {3, 5}, {4, 5}]) [{0}, {1}, {2}, {3}, {4}, {5}] = true := by
  decide +kernel
-- find_minimal_splitting_sets_if_one_quorum
example : okEq (findMinimalSplittingSets (refEnv 3)
    (mkFbas [flat 2 [0, 1], flat 2 [0, 1, 2], flat 1 []]) [{0, 1}]) [] = true := by decide +kernel
-- find_minimal_splitting_sets_if_one_quorum_and_symmetric
example : okEq (findMinimalSplittingSets (refEnv 2) (mkFbas [flat 2 [0, 1], flat 2 [0, 1]]) [{0, 1}]) []
    = true := by decide +kernel
-- find_minimal_splitting_sets_if_two_quorums
example : okEq (findMinimalSplittingSets (refEnv 3)
    (mkFbas [flat 2 [0, 1], flat 2 [0, 1, 2], flat 2 [1, 2]]) [{0, 1}, {1, 2}]) [{1}] = true := by
  decide +kernel
-- find_minimal_splitting_sets_if_no_quorum (the unknown node is ignored when reading the FBAS)
example : okEq (findMinimalSplittingSets (refEnv 1) (mkFbas [flat 2 [0]]) []) [] = true := by
  decide +kernel

/-- The FBAS of `find_minimal_splitting_sets_of_weird_fbas`. -/
def weird : Fbas := mkFbas [
  ⟨3, [0, 1], [flat 1 [2, 3]]⟩, ⟨3, [0, 1], [flat 1 [2, 3]]⟩,
  ⟨4, [2, 3], [flat 1 [0, 1], flat 1 [4, 5]]⟩, ⟨4, [2, 3], [flat 1 [0, 1], flat 1 [4, 5]]⟩,
  flat 2 [2, 3], flat 2 [2, 3]]

-- find_minimal_splitting_sets_of_weird_fbas
example : okEq (findMinimalQuorums (refEnv 6) weird) [{0, 1, 2, 3, 4}, {0, 1, 2, 3, 5}] = true := by
  decide +kernel
example : okEq (findMinimalSplittingSets (refEnv 6) weird [{0, 1, 2, 3, 4}, {0, 1, 2, 3, 5}])
    [{0, 1, 2, 3}] = true := by decide +kernel

/-! ## src/analysis/symmetric_clusters.rs -/

/-- Two symmetric nodes, and two nodes that trust each other. -/
def splitFbas : Fbas := mkFbas [flat 2 [0, 1], flat 2 [0, 1], flat 1 [3], flat 1 [2]]

/-- The verdict of a fresh analysis. -/
noncomputable def verdict (env : Env) (f : Fbas) : Except Panic Bool := do
  let a ← Analysis.new env f
  let (h, _) ← a.hasQuorumIntersection env
  .ok h

-- find_symmetric_cluster_in_correct_trivial
example : okEq (findSymmetricClusters (refEnv 3) correctTrivial) [flat 2 [0, 1, 2]] = true := by
  decide +kernel
-- find_symmetric_cluster_in_split_fbas
example : okEq (verdict (refEnv 4) splitFbas) false = true := by decide +kernel
example : okEq (findSymmetricClusters (refEnv 4) splitFbas) [flat 2 [0, 1]] = true := by decide +kernel
-- find_symmetric_cluster_in_symmetric_cluster
example : okEq (findSymmetricClusterInConsensusCluster (mkFbas [flat 2 [0, 1], flat 2 [0, 1]]) {0, 1})
    (some (flat 2 [0, 1])) = true := by decide +kernel
-- find_symmetric_cluster_in_weird_cluster
example : okEq (findSymmetricClusterInConsensusCluster (mkFbas [flat 1 [1], flat 2 [0, 1]]) {0, 1}) none
    = true := by decide +kernel
-- find_symmetric_top_tier_in_symmetric_fbas
example : okEq (findSymmetricTopTier (refEnv 2) (mkFbas [flat 2 [0, 1], flat 2 [0, 1]]))
    (some (flat 2 [0, 1])) = true := by decide +kernel
-- find_symmetric_top_tier_in_broken_symmetric_fbas
example : okEq (verdict (refEnv 2) (mkFbas [flat 1 [0, 1], flat 1 [0, 1]])) false = true := by
  decide +kernel
example : okEq (findSymmetricTopTier (refEnv 2) (mkFbas [flat 1 [0, 1], flat 1 [0, 1]]))
    (some (flat 1 [0, 1])) = true := by decide +kernel
-- find_symmetric_top_tier_in_split_fbas
example : okEq (findSymmetricTopTier (refEnv 4)
    (mkFbas [flat 2 [0, 1], flat 2 [0, 1], flat 2 [2, 3], flat 2 [2, 3]])) none = true := by
  decide +kernel
-- find_symmetric_top_tier_in_weird_split_fbas
example : okEq (findSymmetricTopTier (refEnv 4) splitFbas) none = true := by decide +kernel

/-! ## src/analysis/mod.rs -/

-- has_quorum_intersection_trivial
example : okEq (verdict (refEnv 3) correctTrivial) true = true := by decide +kernel
example : okEq (verdict (refEnv 3) brokenTrivial) false = true := by decide +kernel
-- has_quorum_intersection_if_just_one_quorum
example : okEq (verdict (refEnv 2) (mkFbas [flat 2 [0, 1], flat 2 [0, 1]])) true = true := by
  decide +kernel
-- no_has_quorum_intersection_if_there_is_no_quorum
example : okEq (verdict (refEnv 1) (mkFbas [flat 2 [0]])) false = true := by decide +kernel
-- minimal_quorums_id_ordering
example : okEq (do
    let a ← Analysis.new (refEnv 3) (mkFbas [flat 2 [1, 2], flat 2 [1, 2], flat 2 [1, 2]])
    let (r, _) ← a.minimalQuorums (refEnv 3)
    r.unwrap) [{1, 2}] = true := by decide +kernel

/-! ## src/analysis/results.rs -/

-- node_sets_histogram
example : okEq (SetVecResult.new [{0, 1}, {2, 3}, {4, 5, 6, 7}, {1, 4}] none).histogram [0, 0, 3, 0, 1]
    = true := by decide +kernel
-- node_sets_describe
example : okEq (SetVecResult.new [{0, 1}, {2, 3}, {4, 5, 6, 7}, {1, 4}] none).describe
    (4, 8, (2, 4, 5 / 2), [0, 0, 3, 0, 1]) = true := by decide +kernel
-- remove_nodes_from_unshrunken_node_set_result
example : okEq (do
    let r ← SetResult.new {0, 1} none
    .ok (r.withoutNodes [1]).unwrap) {0} = true := by decide +kernel
-- remove_nodes_from_shrunken_result
example : okEq (do
    let r ← SetResult.new {0, 1} (some (ShrinkManager.new {23, 42}))
    .ok (r.withoutNodes [23]).unwrap) {42} = true := by decide +kernel
-- remove_nodes_from_unshrunken_vec_result
example : okEq (do
    let r ← (SetVecResult.new [{0, 1}, {0, 2}, {3}] none).withoutNodes [2, 3]
    r.unwrap) [{0, 1}, {0}, {}] = true := by decide +kernel
-- remove_nodes_from_shrunken_vec_result
example : okEq (do
    let r ← (SetVecResult.new [{0, 1}, {0, 2}, {3}]
      (some (ShrinkManager.new {23, 42, 7, 1000}))).withoutNodes [42, 1000]
    r.unwrap) [{7, 23}, {7}, {}] = true := by decide +kernel
-- remove_non_minimal_sets
example : okEq (SetVecResult.new [{0, 1}, {0, 2, 3}, {3}, {0, 1, 4, 5}] none).minimalSets.unwrap
    [{3}, {0, 1}] = true := by decide +kernel

end FA.Conformance
