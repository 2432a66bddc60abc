import Verif.Conformance.Core
import Verif.Props.Simulation
import Verif.Model.SimulatorTools

/-!
# The unit tests of the project, replayed on the model (simulation)

See `Verif/Conformance/Core.lean`. Tests that involve random numbers are run with the two sources of
randomness `lazyRand` and `busyRand`; tests which check that something *is* random are left out, as
nothing about probabilities is part of the model. Scores are computed with the rounding `F64.round` of
`f64`.
-/

namespace FA.Conformance
open FA Ref Props

/-- The macro `simulate!` (src/simulation/qsc/mod.rs:66-73). -/
def simulate (R : Rand) (s : R.State) (qsc : Qsc R) (n : ℕ) : Except Panic Fbas := do
  let sim ← Simulator.simulateGrowth qsc n ⟨Fbas.new, [], s⟩
  .ok sim.fbas

/-- The quorum sets after a simulation. -/
def simulated (R : Rand) (s : R.State) (qsc : Qsc R) (n : ℕ) : Except Panic (List QuorumSet) := do
  let f ← simulate R s qsc n
  .ok (f.nodes.map Node.quorumSet)

/-- The results are the same (and not a panic). -/
def sameOk {α : Type} [DecidableEq α] (a b : Except Panic α) : Bool :=
  match a, b with
  | .ok a, .ok b => decide (a = b)
  | _, _ => false

/-! ## src/simulation/mod.rs -/

-- growth_with_interruptions
example : okEq (do
    let sim ← Simulator.simulateGrowth (Qsc.dummy lazyRand) 3 ⟨Fbas.new, [], ()⟩
    let sim' ← Simulator.simulateGrowth (Qsc.dummy lazyRand) 5 sim
    let f ← Fbas.newGenericUnconfigured 3
    let f' ← Fbas.newGenericUnconfigured 8
    .ok (decide (sim.fbas.nodes = f.nodes) && decide (sim'.fbas.nodes = f'.nodes))) true = true := by
  decide +kernel
-- monitoring_works
example : okEq (do
    let sim ← Simulator.simulateGrowth (Qsc.dummy lazyRand) 1 ⟨Fbas.new, [], ()⟩
    .ok sim.events.isEmpty) false = true := by decide +kernel
-- global_reevaluation_round_can_make_all_nodes_super_safe
example : okEq (do
    let f ← Fbas.newGenericUnconfigured 8
    let (_, sim) ← Simulator.simulateGlobalReevaluationRound (Qsc.superSafe lazyRand) [0, 1, 2, 3, 4, 5, 6, 7]
      ⟨f, [], ()⟩
    .ok (sim.fbas.nodes.map Node.quorumSet)) (List.replicate 8 (flat 8 [0, 1, 2, 3, 4, 5, 6, 7])) = true := by
  decide +kernel
-- global_reevaluation_stops_once_stable
example : okEq (do
    let f ← Fbas.newGenericUnconfigured 8
    let (n, _) ← Simulator.simulateGlobalReevaluation (Qsc.superSafe busyRand) 1000000 ⟨f, [], (0 : ℕ)⟩
    .ok n) 2 = true := by decide +kernel
-- global_reevaluation_visits_in_random_order (here, every shuffle reverses the order)
example : okEq (do
    let f ← Fbas.newGenericUnconfigured 8
    let (_, sim) ← Simulator.simulateGlobalReevaluation (Qsc.superSafe busyRand) 2 ⟨f, [], (0 : ℕ)⟩
    .ok (sim.events.filterMap (fun e => match e with
      | .quorumSetChange id _ => some id
      | _ => none))) [7, 6, 5, 4, 3, 2, 1, 0, 0, 1, 2, 3, 4, 5, 6, 7] = true := by decide +kernel

/-! ## src/simulation/qsc -/

-- calculate_67p_threshold_up_to_20
example : (List.range 20).all (fun n => n = 0 || decide (3 * Qsc.calculate67pThreshold n ≥ 2 * n + 1)) = true := by
  decide +kernel
-- calculate_relative_threshold_is_at_least_1
example : Qsc.calculateXThreshold 0 (51 / 100) = 1 := by decide +kernel
example : Qsc.calculateXThreshold 100 0 = 1 := by decide +kernel
-- ideal_qsc_makes_ideal_fbas
example : okEq (do
    let f ← simulate lazyRand () (Qsc.ideal lazyRand) 4
    let a ← Analysis.new (refEnv 4) f
    let (r, _) ← a.minimalQuorums (refEnv 4)
    r.unwrap) [{0, 1, 2}, {0, 1, 3}, {0, 2, 3}, {1, 2, 3}] = true := by decide +kernel
-- super_safe_qsc_makes_a_quorum, super_safe_qsc_makes_no_small_quorum
example : okEq (do
    let f ← simulate lazyRand () (Qsc.superSafe lazyRand) 5
    .ok (f.isQuorum {0, 1, 2, 3, 4}, f.isQuorum {0, 1, 2, 3})) (true, false) = true := by decide +kernel
-- super_safe_qsc_makes_quorum_intersection
example : okEq (do
    let f ← simulate lazyRand () (Qsc.superSafe lazyRand) 8
    verdict (refEnv 8) f) true = true := by decide +kernel
-- simple_random_qsc_makes_a_quorum
example : okEq (do
    let f ← simulate lazyRand () (Qsc.random lazyRand 4 none []) 4
    .ok (f.isQuorum {0, 1, 2, 3})) true = true := by decide +kernel
example : okEq (do
    let f ← simulate busyRand (0 : ℕ) (Qsc.random busyRand 4 none []) 4
    .ok (f.isQuorum {0, 1, 2, 3})) true = true := by decide +kernel
-- simple_random_qsc_adapts_until_satisfied
example : okEq (do
    let sim ← Simulator.simulateGrowth (Qsc.random busyRand 5 none []) 2 ⟨Fbas.new, [], (0 : ℕ)⟩
    let sim' ← Simulator.simulateGrowth (Qsc.random busyRand 5 none []) 10 sim
    .ok (sim.fbas.isQuorum {0, 1}, sim'.fbas.isQuorum {0, 1})) (true, false) = true := by decide +kernel
-- random_qsc_honors_weights
example : okEq (do
    let f ← Fbas.newGenericUnconfigured 10
    let (_, sim) ← Simulator.simulateGlobalReevaluation
      (Qsc.random lazyRand 5 (some 3) [0, 0, 0, 0, 0, 1, 1, 1, 1, 1]) 2 ⟨f, [], ()⟩
    .ok (sim.fbas.isQuorum {0, 1, 2, 3, 4, 5, 6}, sim.fbas.isQuorum {7, 8, 9})) (false, true) = true := by
  decide +kernel
example : okEq (do
    let f ← Fbas.newGenericUnconfigured 10
    let (_, sim) ← Simulator.simulateGlobalReevaluation
      (Qsc.random busyRand 5 (some 3) [0, 0, 0, 0, 0, 1, 1, 1, 1, 1]) 2 ⟨f, [], (0 : ℕ)⟩
    .ok (sim.fbas.isQuorum {0, 1, 2, 3, 4, 5, 6}, sim.fbas.isQuorum {7, 8, 9})) (false, true) = true := by
  decide +kernel
-- all_neighbors_qsc_can_be_like_super_safe
example : sameOk (simulated lazyRand () (Qsc.allNeighbors lazyRand (Graph.newFullMesh 10) (some 1)) 10)
    (simulated lazyRand () (Qsc.superSafe lazyRand) 10) = true := by decide +kernel
-- all_neighbors_qsc_can_be_like_ideal_safe
example : sameOk (simulated lazyRand () (Qsc.allNeighbors lazyRand (Graph.newFullMesh 10) none) 10)
    (simulated lazyRand () (Qsc.ideal lazyRand) 10) = true := by decide +kernel
-- global_rank_qsc_can_be_like_ideal (because of rounding errors: all scores are the same)
example : sameOk (do
    let qsc ← QscSimulator.newGlobalRank lazyRand F64.round (Graph.newFullMesh 10) none
    simulated lazyRand () qsc 10) (simulated lazyRand () (Qsc.ideal lazyRand) 10) = true := by
  decide +kernel
-- global_rank_qsc
example : okEq (do
    let g ← Graph.newTieredFullMesh [2, 3, 1]
    let qsc ← QscSimulator.newGlobalRank lazyRand F64.round g none
    simulated lazyRand () qsc 6) (List.replicate 6 (flat 2 [0, 1])) = true := by decide +kernel

/-- `higher_tier_qsc.get_neighbors_by_tierness(i)` -/
def tierness (g : Graph) (i : NodeId) : Except Panic (List NodeId × List NodeId × List NodeId) := do
  let scores ← g.getRankScores F64.round
  Qsc.neighborsByTierness g scores i

/-- The graph of the tests with undirected links. -/
def undirected : Graph :=
  ⟨[[1, 2, 3], [0, 2, 3], [0, 1, 3], [0, 1, 2, 4, 5], [3, 5], [3, 4], [3, 4, 6], [5]]⟩

-- get_neighbors_by_tierness_middle_tier_directed_links
example : okEq (do tierness (← Graph.newTieredFullMesh [3, 3, 3]) 3) ([0, 1, 2], [4, 5], []) = true := by
  decide +kernel
-- get_neighbors_by_tierness_top_tier_directed_links
example : okEq (do tierness (← Graph.newTieredFullMesh [3, 3, 3]) 1) ([], [0, 2], []) = true := by
  decide +kernel
-- get_neighbors_by_tierness_middle_tier_undirected_links
example : okEq (tierness undirected 4) ([3], [5], []) = true := by decide +kernel
-- get_neighbors_by_tierness_top_tier_undirected_links
example : okEq (tierness undirected 3) ([], [0, 1, 2], [4, 5]) = true := by decide +kernel
-- higher_tier_qsc_can_be_like_ideal_safe
example : sameOk (do
    let qsc ← QscSimulator.newHigherTier lazyRand F64.round (← Graph.newTieredFullMesh [10]) none false
    simulated lazyRand () qsc 10) (simulated lazyRand () (Qsc.ideal lazyRand) 10) = true := by
  decide +kernel

/-! ## src/simulation/graph.rs -/

-- full_mesh
example : (Graph.newFullMesh 4).outlinks = [[1, 2, 3], [0, 2, 3], [0, 1, 3], [0, 1, 2]] := by decide +kernel
-- tiered_full_mesh
example : okEq (do .ok (← Graph.newTieredFullMesh [2, 3, 1]).outlinks)
    [[1], [0], [0, 1, 3, 4], [0, 1, 2, 4], [0, 1, 2, 3], [2, 3, 4]] = true := by decide +kernel
-- scale_free_graph_interconnects_m0_fully
example : okEq (do
    let (g, _) ← Graph.newRandomScaleFree busyRand (0 : ℕ) 23 8 2
    .ok ((List.range 8).all (fun i => (List.range 8).all (fun j =>
      decide (i = j) || decide (i ∈ g.outlinks.getD j []))))) true = true := by decide +kernel
-- scale_free_graph_has_sane_number_of_edges
example : okEq (do
    let (g, _) ← Graph.newRandomScaleFree busyRand (0 : ℕ) 23 3 2
    .ok ((g.outlinks.map List.length).sum / 2)) ((3 * (3 - 1)) / 2 + (23 - 3) * 2) = true := by decide +kernel
-- scale_free_graph_doesnt_panic_on_exotic_m_values
example : okEq (do
    let (g, _) ← Graph.newRandomScaleFree busyRand (0 : ℕ) 40 4 4
    .ok g.numberOfNodes) 40 = true := by decide +kernel
-- small_world_graph_has_sane_number_of_edges (with a smaller graph)
example : okEq (do
    let (g, _) ← Graph.newRandomSmallWorld busyRand (0 : ℕ) 20 6 (5 / 100)
    .ok ((g.outlinks.map List.length).sum / 2)) (20 * 6 / 2) = true := by decide +kernel
-- small_world_graph_with_big_k_has_sane_number_of_edges (with a smaller graph)
example : okEq (do
    let (g, _) ← Graph.newRandomSmallWorld busyRand (0 : ℕ) 16 14 (5 / 100)
    .ok ((g.outlinks.map List.length).sum / 2)) (16 * 14 / 2) = true := by decide +kernel
-- graph_shuffle_preserves_degrees
example : okEq (do
    let (g, s) ← Graph.newRandomScaleFree busyRand (0 : ℕ) 23 3 2
    let (g', _) ← g.shuffled busyRand s
    .ok (decide ((g.outlinks.map List.length).insertionSort (· ≤ ·) =
      (g'.outlinks.map List.length).insertionSort (· ≤ ·)))) true = true := by decide +kernel
-- node_degrees_undirected
example : okEq (do
    let (g, _) ← Graph.newRandomScaleFree busyRand (0 : ℕ) 23 3 2
    let expected := g.outlinks.map List.length
    .ok (← g.isUndirected, decide (expected = (← g.getInDegrees)), decide (expected = g.getOutDegrees)))
    (true, true, true) = true := by decide +kernel
-- node_out_degrees_directed
example : okEq (do .ok (← Graph.newTieredFullMesh [2, 3, 1]).getOutDegrees) [1, 1, 4, 4, 4, 3] = true := by
  decide +kernel
-- node_in_degrees_directed
example : okEq (do (← Graph.newTieredFullMesh [2, 3, 1]).getInDegrees) [4, 4, 3, 3, 3, 0] = true := by
  decide +kernel
-- get_alive_nodes_directed
example : (⟨[[], [0], [0, 3], [2], []]⟩ : Graph).getConnectedNodes = {0, 1, 2, 3} := by decide +kernel
-- node_rank_scores (`(x * 2.).round() / 2.`)
example : okEq (do
    let scores ← (← Graph.newTieredFullMesh [2, 3, 1]).getRankScores F64.round
    .ok (scores.map (fun x => ((⌊x * 2 + 1 / 2⌋ : ℤ) : ℚ) / 2))) [1 / 2, 1 / 2, 0, 0, 0, 0] = true := by
  decide +kernel

end FA.Conformance
