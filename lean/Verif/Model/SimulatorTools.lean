import Verif.Model.Simulation
import Verif.Model.AsRel
import Verif.Model.Json

/-!
# The binaries `qsc_simulator` and `graph_generator`

src/bin/qsc_simulator.rs and src/bin/graph_generator.rs. Not modelled: parsing of the command line,
reading and writing of files, messages on standard error, and logging. Paths of graph files are
replaced by the contents of the files. Optional relative thresholds are rational numbers instead of
`f64`.
-/

namespace FA

namespace QscSimulator

/-- `enum QuorumSetConfiguratorConfig` (src/bin/qsc_simulator.rs:33-77), with the contents of graph
files instead of paths. -/
inductive Config
  | superSafe
  | ideal
  | random (desiredQuorumSetSize : ℕ)
  | fameWeightedRandom (desiredQuorumSetSize : ℕ) (graphData : Text) (desiredThreshold : Option ℕ)
  | allNeighbors (graphData : Text) (relativeThreshold : Option ℚ)
  | higherTierNeighbors (graphData : Text) (relativeThreshold : Option ℚ)
  | symmetryEnforcingHigherTierNeighbors (graphData : Text) (relativeThreshold : Option ℚ)
  | globalRank (graphData : Text) (relativeThreshold : Option ℚ)

/-- `struct Cli` (src/bin/qsc_simulator.rs:15-32). -/
structure Cli where
  initialN : ℕ
  growByN : ℕ
  qscConfig : Config

/-- `parse_graph_path` (src/bin/qsc_simulator.rs:79-96), for given contents of the file (or of standard
input). -/
def parseGraph (contents : Text) : Except Panic (Graph × ℕ) :=
  match Graph.fromAsRelString contents with
  | .error e => .error e
  | .ok g => .ok (g, g.outlinks.length)

/-- `HigherTierNeighborsQsc::new` (src/simulation/qsc/graph_based/relative_tierness_based.rs:12-32). -/
def newHigherTier (R : Rand) (rnd : ℚ → ℚ) (g : Graph) (relativeThreshold : Option ℚ)
    (symmetryEnforcing : Bool) : Except Panic (Qsc R) :=
  match g.getRankScores rnd with
  | .error e => .error e
  | .ok rankScores => .ok (Qsc.higherTierNeighbors R g rankScores relativeThreshold symmetryEnforcing)

/-- `GlobalRankQsc::new` (src/simulation/qsc/graph_based/global_ranking_based.rs:10-16). -/
def newGlobalRank (R : Rand) (rnd : ℚ → ℚ) (g : Graph) (relativeThreshold : Option ℚ) :
    Except Panic (Qsc R) :=
  match Qsc.topTierNodes rnd g with
  | .error e => .error e
  | .ok topTier => .ok (Qsc.globalRank R g topTier relativeThreshold)

/-- A configurator for a graph, together with the number of nodes of the graph. -/
def withGraph {R : Rand} (contents : Text) (mk : Graph → Except Panic (Qsc R)) :
    Except Panic (Qsc R × ℕ) :=
  match parseGraph contents with
  | .error e => .error e
  | .ok (graph, nodes) =>
    match mk graph with
    | .error e => .error e
    | .ok qsc => .ok (qsc, nodes)

/-- `parse_qsc_config` (src/bin/qsc_simulator.rs:98-165). -/
def parseQscConfig (R : Rand) (rnd : ℚ → ℚ) : Config → Except Panic (Qsc R × ℕ)
  | .superSafe => .ok (Qsc.superSafe R, 0)
  | .ideal => .ok (Qsc.ideal R, 0)
  | .random size => .ok (Qsc.random R size none [], 0)
  | .fameWeightedRandom size contents threshold =>
    withGraph contents (fun graph =>
      match graph.getInDegrees with
      | .error e => .error e
      | .ok degrees => .ok (Qsc.random R size threshold degrees))
  | .allNeighbors contents threshold =>
    withGraph contents (fun graph => .ok (Qsc.allNeighbors R graph threshold))
  | .higherTierNeighbors contents threshold =>
    withGraph contents (fun graph => newHigherTier R rnd graph threshold false)
  | .symmetryEnforcingHigherTierNeighbors contents threshold =>
    withGraph contents (fun graph => newHigherTier R rnd graph threshold true)
  | .globalRank contents threshold =>
    withGraph contents (fun graph => newGlobalRank R rnd graph threshold)

/-- The simulation in `main` (src/bin/qsc_simulator.rs:182-191), for a given configurator: the final
FBAS. -/
def simulate {R : Rand} (qsc : Qsc R) (initialN growByN : ℕ) (s : R.State) : Except Panic Fbas :=
  match Fbas.newGenericUnconfigured initialN with
  | .error e => .error e
  | .ok fbas =>
    match Simulator.simulateGlobalReevaluation qsc initialN ⟨fbas, [], s⟩ with
    | .error e => .error e
    | .ok (_, simulator) =>
      match Simulator.simulateGrowth qsc growByN simulator with
      | .error e => .error e
      | .ok simulator => .ok simulator.fbas

/-- `main` (src/bin/qsc_simulator.rs:167-196): the printed document. -/
def main (R : Rand) (rnd : ℚ → ℚ) (args : Cli) (s : R.State) : Except Panic Json :=
  match parseQscConfig R rnd args.qscConfig with
  | .error e => .error e
  | .ok (qsc, nodesInGraph) =>
    let initialN := if args.initialN > 0 ∨ args.growByN > 0 then args.initialN else nodesInGraph
    match simulate qsc initialN args.growByN s with
    | .error e => .error e
    | .ok fbas => .ok fbas.toJson

end QscSimulator

namespace GraphGenerator

/-- `enum GraphGenerationAlgorithmConfig` (src/bin/graph_generator.rs:29-38). -/
inductive Config
  | barabasiAlbert (n m0 m : ℕ)
  | wattsStrogatz (n k : ℕ) (beta : ℚ)

/-- `apply_graph_gen_alg` (src/bin/graph_generator.rs:40-46). -/
def applyGraphGenAlg (R : Rand) (s : R.State) : Config → Except Panic (Graph × R.State)
  | .barabasiAlbert n m0 m => Graph.newRandomScaleFree R s n m0 m
  | .wattsStrogatz n k beta => Graph.newRandomSmallWorld R s n k beta

/-- The head comment (src/bin/graph_generator.rs:62); formatting an `f64` with `{:?}` is a parameter. -/
def headComment (showF64 : ℚ → Text) : Config → Text
  | .barabasiAlbert n m0 m =>
    "Graph generated using BarabasiAlbert { n: ".toList ++ Text.ofNat n ++ ", m0: ".toList ++
      Text.ofNat m0 ++ ", m: ".toList ++ Text.ofNat m ++ " }".toList
  | .wattsStrogatz n k beta =>
    "Graph generated using WattsStrogatz { n: ".toList ++ Text.ofNat n ++ ", k: ".toList ++
      Text.ofNat k ++ ", beta: ".toList ++ showF64 beta ++ " }".toList

/-- The graph of `main` (src/bin/graph_generator.rs:56-60). -/
def generate (R : Rand) (s : R.State) (dontShuffle : Bool) (config : Config) :
    Except Panic (Graph × R.State) :=
  match applyGraphGenAlg R s config with
  | .error e => .error e
  | .ok (graph, s') => if dontShuffle then .ok (graph, s') else graph.shuffled R s'

/-- `main` (src/bin/graph_generator.rs:48-71): the text that is written to the file, or printed on
standard output, where `println!` adds a line break (`toFile` stands for a given path). -/
def main (R : Rand) (showF64 : ℚ → Text) (s : R.State) (toFile dontShuffle : Bool)
    (config : Config) : Except Panic Text :=
  match generate R s dontShuffle config with
  | .error e => .error e
  | .ok (graph, _) =>
    match graph.toAsRelString (some (headComment showF64 config)) with
    | .error e => .error e
    | .ok text => .ok (if toFile then text else text ++ ['\n'])

end GraphGenerator

end FA
