import Verif.Model.Graph
import Mathlib.Data.Rat.Floor

/-!
# Simulation: src/simulation/mod.rs, src/simulation/monitors.rs and src/simulation/qsc
-/

namespace FA

/-! ## src/simulation/mod.rs -/

/-- `enum ChangeEffect` (src/simulation/mod.rs:100-103). -/
inductive ChangeEffect
  | change
  | noChange
deriving DecidableEq, Repr

/-- `had_change` (src/simulation/mod.rs:105-107). -/
def ChangeEffect.hadChange (c : ChangeEffect) : Bool := c == .change

/-- `update` (src/simulation/mod.rs:108-112). -/
def ChangeEffect.update (self other : ChangeEffect) : ChangeEffect :=
  if self = .noChange then other else self

/-- `enum Event` (src/simulation/mod.rs:90-96). -/
inductive Event
  | addNode (nodeId : NodeId)
  | startGlobalReevaluation
  | startGlobalReevaluationRound
  | finishGlobalReevaluation (rounds : ℕ)
  | quorumSetChange (nodeId : NodeId) (effect : ChangeEffect)
deriving DecidableEq, Repr

/-- `trait QuorumSetConfigurator` (src/simulation/mod.rs:81-83): any function that changes the FBAS
and reports an effect, possibly using random numbers. -/
abbrev Qsc (R : Rand) := NodeId → Fbas × R.State → Except Panic (ChangeEffect × Fbas × R.State)

/-- `struct Simulator` (src/simulation/mod.rs:15-19), with the random number generator, and with the
events recorded by a `DebugMonitor` (src/simulation/monitors.rs:13-34). The configurator is a separate
argument of the functions. -/
structure Simulator (R : Rand) where
  fbas : Fbas
  events : List Event
  rng : R.State

namespace Simulator
variable {R : Rand}

/-- `register_event` of `DebugMonitor` (src/simulation/monitors.rs:29-34). -/
def registerEvent (sim : Simulator R) (e : Event) : Simulator R :=
  { sim with events := sim.events ++ [e] }

/-- The loop of `simulate_global_reevaluation_round` (src/simulation/mod.rs:71-76). -/
def roundLoop (qsc : Qsc R) : List NodeId → ChangeEffect × Simulator R →
    Except Panic (ChangeEffect × Simulator R)
  | [], st => .ok st
  | nodeId :: order, (anyChange, sim) =>
    match qsc nodeId (sim.fbas, sim.rng) with
    | .error e => .error e
    | .ok (effect, fbas, rng) =>
      roundLoop qsc order
        (anyChange.update effect,
          ({ sim with fbas, rng }).registerEvent (.quorumSetChange nodeId effect))

/-- `simulate_global_reevaluation_round` (src/simulation/mod.rs:68-78). -/
def simulateGlobalReevaluationRound (qsc : Qsc R) (order : List NodeId) (sim : Simulator R) :
    Except Panic (ChangeEffect × Simulator R) :=
  roundLoop qsc order (.noChange, sim.registerEvent .startGlobalReevaluationRound)

/-- The `while` loop of `simulate_global_reevaluation` (src/simulation/mod.rs:57-61). The first
argument is `maximum_number_of_rounds - next_round_number`. Returns the number of rounds. -/
def reevaluationLoop (qsc : Qsc R) : (remaining : ℕ) → (stable : Bool) → (nextRoundNumber : ℕ) →
    (order : List NodeId) → Simulator R → Except Panic (ℕ × Simulator R)
  | 0, _, nextRoundNumber, _, sim => .ok (nextRoundNumber, sim)
  | remaining + 1, stable, nextRoundNumber, order, sim =>
    if stable then .ok (nextRoundNumber, sim)
    else
      let shuffled := R.shuffle sim.rng order
      match simulateGlobalReevaluationRound qsc shuffled.1 { sim with rng := shuffled.2 } with
      | .error e => .error e
      | .ok (effect, sim') =>
        reevaluationLoop qsc remaining (!effect.hadChange) (nextRoundNumber + 1) shuffled.1 sim'

/-- `simulate_global_reevaluation` (src/simulation/mod.rs:47-66). -/
def simulateGlobalReevaluation (qsc : Qsc R) (maximumNumberOfRounds : ℕ) (sim : Simulator R) :
    Except Panic (ℕ × Simulator R) :=
  let order := rangeFT 0 sim.fbas.nodes.length
  match reevaluationLoop qsc maximumNumberOfRounds false 0 order
      (sim.registerEvent .startGlobalReevaluation) with
  | .error e => .error e
  | .ok (numberOfRounds, sim') =>
    .ok (numberOfRounds, sim'.registerEvent (.finishGlobalReevaluation numberOfRounds))

/-- `simulate_growth` (src/simulation/mod.rs:34-41). -/
def simulateGrowth (qsc : Qsc R) : (nodesToSpawn : ℕ) → Simulator R → Except Panic (Simulator R)
  | 0, sim => .ok sim
  | k + 1, sim =>
    match sim.fbas.addGenericNode QuorumSet.empty with
    | .error e => .error e
    | .ok (nodeId, fbas) =>
      match qsc nodeId (fbas, sim.rng) with
      | .error e => .error e
      | .ok (_, fbas', rng) =>
        let sim' := ({ sim with fbas := fbas', rng }).registerEvent (.addNode nodeId)
        match simulateGlobalReevaluation qsc sim'.fbas.numberOfNodes sim' with
        | .error e => .error e
        | .ok (_, sim'') => simulateGrowth qsc k sim''

end Simulator

/-! ## src/simulation/qsc -/

namespace Qsc

/-- `DummyQsc` (src/simulation/qsc/mod.rs:18-24). -/
def dummy (R : Rand) : Qsc R := fun _ st => .ok (.noChange, st)

/-- `calculate_67p_threshold` (src/simulation/qsc/mod.rs:35-38). Simplified: the quotient is rounded
down as a natural number instead of `f64` (`C41_float` shows that this is the same for all realistic
sizes); for `n = 0` the conversion of `-1` to `usize` saturates to 0. -/
def calculate67pThreshold (n : ℕ) : ℕ := n - (n - 1) / 3

/-- `calculate_67p_threshold` (src/simulation/qsc/mod.rs:35-38) with `f64` arithmetic: every operation
is followed by rounding to an `f64` with `rnd`. -/
def calculate67pThresholdF64 (rnd : ℚ → ℚ) (n : ℕ) : ℕ :=
  n - ⌊rnd (rnd (rnd (n : ℚ) - 1) / 3)⌋.toNat

/-- `calculate_x_threshold` (src/simulation/qsc/mod.rs:41-44): `n as f64` and the product are rounded.
Simplified: no limits for the exponent, and no special values; negative numbers become 0 as `usize`. -/
def calculateXThreshold (n : ℕ) (x : ℚ) : ℕ := max 1 ⌈F64.round (x * F64.round n)⌉.toNat

/-- `calculate_threshold` (src/simulation/qsc/mod.rs:26-32). -/
def calculateThreshold (n : ℕ) : Option ℚ → ℕ
  | some x => calculateXThreshold n x
  | none => calculate67pThreshold n

/-- `*existing = quorum_set` for the node with the given ID. -/
def setQuorumSet (f : Fbas) (nodeId : NodeId) (q : QuorumSet) : Except Panic Fbas :=
  (f.swapQuorumSet nodeId q).map Prod.snd

/-- `fbas.nodes[node_id].quorum_set` -/
def existing (f : Fbas) (nodeId : NodeId) : Except Panic QuorumSet :=
  match f.getQuorumSet nodeId with
  | none => .error .outOfBounds
  | some q => .ok q

/-- `if *existing == candidate { NoChange } else { *existing = candidate; Change }`
(src/simulation/qsc/ideal.rs:31-37, super_safe.rs:29-35, relative_tierness_based.rs:107-112). -/
def replaceIfDifferent (R : Rand) (candidate : QuorumSet) (nodeId : NodeId) (st : Fbas × R.State) :
    Except Panic (ChangeEffect × Fbas × R.State) :=
  match existing st.1 nodeId with
  | .error e => .error e
  | .ok q =>
    if candidate = q then .ok (.noChange, st)
    else
      match setQuorumSet st.1 nodeId candidate with
      | .error e => .error e
      | .ok f' => .ok (.change, f', st.2)

/-- `IdealQsc::build_new_configuration` (src/simulation/qsc/ideal.rs:44-54). -/
def idealConfiguration (f : Fbas) : QuorumSet :=
  let n := f.nodes.length
  ⟨calculate67pThreshold n, rangeFT 0 n, []⟩

/-- `IdealQsc::configure` (src/simulation/qsc/ideal.rs:29-38). -/
def ideal (R : Rand) : Qsc R := fun nodeId st =>
  replaceIfDifferent R (idealConfiguration st.1) nodeId st

/-- `SuperSafeQsc::build_new_configuration` (src/simulation/qsc/super_safe.rs:42-52). -/
def superSafeConfiguration (f : Fbas) : QuorumSet :=
  let n := f.nodes.length
  ⟨n, rangeFT 0 n, []⟩

/-- `SuperSafeQsc::configure` (src/simulation/qsc/super_safe.rs:27-36). -/
def superSafe (R : Rand) : Qsc R := fun nodeId st =>
  replaceIfDifferent R (superSafeConfiguration st.1) nodeId st

/-- The loop in `RandomQsc::configure` (src/simulation/qsc/random.rs:48-57); arguments: remaining
iterations, available nodes, validators. `binary_search` finds the chosen node since the available
nodes are sorted; removing at this index is `erase`. -/
def randomLoop (R : Rand) (weights : List ℕ) :
    ℕ → List NodeId → List NodeId → R.State → Except Panic (List NodeId × R.State)
  | 0, _, validators, s => .ok (validators, s)
  | k + 1, available, validators, s =>
    match R.chooseWeighted s (fun x => weights.getD x 1) available with
    | (none, _) => .error .unwrapNone
    | (some x, s') => randomLoop R weights k (available.erase x) (validators ++ [x]) s'

/-- `RandomQsc::configure` (src/simulation/qsc/random.rs:25-65). -/
def random (R : Rand) (desiredSize : ℕ) (desiredThreshold : Option ℕ) (weights : List ℕ) : Qsc R :=
  fun nodeId st =>
    let n := st.1.nodes.length
    match existing st.1 nodeId with
    | .error e => .error e
    | .ok q =>
      let validators := if q.validators = [] then [nodeId] else q.validators
      let current := validators.length
      if current < desiredSize then
        let target := min desiredSize n
        let threshold := desiredThreshold.getD (calculate67pThreshold target)
        let available := (rangeFT 0 n).filter (fun x => x ∉ validators)
        match randomLoop R weights (target - current) available validators st.2 with
        | .error e => .error e
        | .ok (validators', s') =>
          match setQuorumSet st.1 nodeId { q with threshold, validators := validators' } with
          | .error e => .error e
          | .ok f' => .ok (.change, f', s')
      else
        match setQuorumSet st.1 nodeId { q with validators } with
        | .error e => .error e
        | .ok f' => .ok (.noChange, f', st.2)

/-- `AllNeighborsQsc::configure` (src/simulation/qsc/graph_based/all_neighbors.rs:26-52). -/
def allNeighbors (R : Rand) (g : Graph) (relativeThreshold : Option ℚ) : Qsc R :=
  fun nodeId st =>
    match existing st.1 nodeId with
    | .error e => .error e
    | .ok q =>
      if nodeId ∈ g.getConnectedNodes ∧ q = QuorumSet.empty then
        match g.outlinks[nodeId]? with
        | none => .error .unwrapNone
        | some links =>
          let validators := sortIds (if nodeId ∈ links then links else links ++ [nodeId])
          let threshold := calculateThreshold validators.length relativeThreshold
          match setQuorumSet st.1 nodeId
              { q with threshold, validators := q.validators ++ validators } with
          | .error e => .error e
          | .ok f' => .ok (.change, f', st.2)
      else .ok (.noChange, st)

/-- `GlobalRankQsc::get_top_tier_nodes` (src/simulation/qsc/graph_based/global_ranking_based.rs:24-36);
`rnd` is the rounding of arithmetic operations, see `Graph.rankRun`. -/
def topTierNodes (rnd : ℚ → ℚ) (g : Graph) : Except Panic (List NodeId) :=
  let n := g.outlinks.length
  match g.getRankScores rnd with
  | .error e => .error e
  | .ok rankScores =>
    let average : ℚ := rnd (rankScores.foldl (fun a x => rnd (a + x)) 0 / n)
    match mapE (fun i => getE rankScores i) (rangeFT 0 n) with
    | .error e => .error e
    | .ok _ => .ok ((rangeFT 0 n).filter (fun i => average < rankScores.getD i 0))

/-- `GlobalRankQsc::configure` (src/simulation/qsc/graph_based/global_ranking_based.rs:38-52). -/
def globalRank (R : Rand) (g : Graph) (topTier : List NodeId) (relativeThreshold : Option ℚ) :
    Qsc R := fun nodeId st =>
  match existing st.1 nodeId with
  | .error e => .error e
  | .ok q =>
    if q = QuorumSet.empty then
      match getE g.outlinks nodeId with
      | .error e => .error e
      | .ok links =>
        if links ≠ [] then
          match setQuorumSet st.1 nodeId
              { q with threshold := calculateThreshold topTier.length relativeThreshold,
                       validators := topTier } with
          | .error e => .error e
          | .ok f' => .ok (.change, f', st.2)
        else .ok (.noChange, st)
    else .ok (.noChange, st)

/-- `HigherTierNeighborsQsc::get_neighbors_by_tierness`
(src/simulation/qsc/graph_based/relative_tierness_based.rs:39-61), for given rank scores. Multiplying by
2 is exact for `f64`. -/
def neighborsByTierness (g : Graph) (rankScores : List ℚ) (nodeId : NodeId) :
    Except Panic (List NodeId × List NodeId × List NodeId) :=
  match getE rankScores nodeId with
  | .error e => .error e
  | .ok own =>
    match g.outlinks[nodeId]? with
    | none => .error .unwrapNone
    | some links =>
      match mapE (fun i => getE rankScores i) links with
      | .error e => .error e
      | .ok _ =>
        let score := fun i => rankScores.getD i 0
        let higher := links.filter (fun i => 2 * own ≤ score i)
        let other := links.filter (fun i => ¬ 2 * own ≤ score i)
        let lower := other.filter (fun i => 2 * score i ≤ own)
        let same := other.filter (fun i => ¬ 2 * score i ≤ own)
        .ok (higher, same, lower)

/-- The correction of validators in `HigherTierNeighborsQsc::configure`
(src/simulation/qsc/graph_based/relative_tierness_based.rs:79-91). -/
def symmetryCorrection (f : Fbas) (nodeId : NodeId) (validators : List NodeId) : NodeSet :=
  validators.foldl (fun acc i =>
    let acc := insert i acc
    match f.nodes[i]? with
    | none => acc
    | some other =>
      let ov := other.quorumSet.containedNodes
      if nodeId ∈ ov then acc ∪ ov else acc) ∅

/-- `HigherTierNeighborsQsc::configure`
(src/simulation/qsc/graph_based/relative_tierness_based.rs:64-113). -/
def higherTierNeighbors (R : Rand) (g : Graph) (rankScores : List ℚ)
    (relativeThreshold : Option ℚ) (symmetryEnforcing : Bool) : Qsc R := fun nodeId st =>
  if nodeId ∈ g.getConnectedNodes then
    match neighborsByTierness g rankScores nodeId with
    | .error e => .error e
    | .ok (higher, same, _) =>
      let validators := if higher ≠ [] then higher else same
      let validators :=
        if symmetryEnforcing then elems (symmetryCorrection st.1 nodeId validators)
        else validators
      let validators := sortIds (if nodeId ∈ validators then validators else validators ++ [nodeId])
      replaceIfDifferent R
        ⟨calculateThreshold validators.length relativeThreshold, validators, []⟩ nodeId st
  else .ok (.noChange, st)

end Qsc
end FA
