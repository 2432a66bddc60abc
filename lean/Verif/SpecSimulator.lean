import Verif.Model.SimulatorTools
import Verif.Spec
import Verif.SpecGraph
import Mathlib.Data.Set.Card
import Verif.SpecSimulation
import Verif.SpecThreshold

/-!
# Specification: the simulator tool

What `qsc_simulator` is expected to print.
-/

namespace FA.Spec
open FA

/-- The graph file of a policy. -/
def graphData : QscSimulator.Config → Option Text
  | .superSafe => none
  | .ideal => none
  | .random _ => none
  | .fameWeightedRandom _ t _ => some t
  | .allNeighbors t _ => some t
  | .higherTierNeighbors t _ => some t
  | .symmetryEnforcingHigherTierNeighbors t _ => some t
  | .globalRank t _ => some t

/-- The number of simulated nodes: as given on the command line; if nothing is given, one for each of the
`m` nodes of the graph. -/
def wantedSize (args : QscSimulator.Cli) (m : ℕ) : ℕ :=
  if args.initialN = 0 ∧ args.growByN = 0 then m else args.initialN + args.growByN

/-- The number of nodes in the beginning. -/
def initialSize (args : QscSimulator.Cli) (m : ℕ) : ℕ :=
  if args.initialN = 0 ∧ args.growByN = 0 then m else args.initialN

/-- Each of the first `m` nodes finds `min size m - 1` other ones that are targets of links; nodes outside
of the graph count as well. -/
def EnoughTargets (g : Graph) (size m : ℕ) : Prop :=
  ∀ x < m, min size m ≤
    1 + Set.ncard {y : ℕ | y < m ∧ y ≠ x ∧ (y < g.outlinks.length → 1 ≤ linksInto g y)}

/-- The printed document is the one of an FBAS with `n` nodes `n0`, `n1`, ..., and every quorum set is as
wanted. -/
def Prints (out : Except Panic Json) (n : ℕ) (wanted : NodeId → QuorumSet → Prop) : Prop :=
  ∃ f : Fbas, out = .ok f.toJson ∧
    f.nodes.map Node.publicKey = (List.range n).map (fun i => "n" ++ toString i) ∧
    ∀ x q, HasQSet f x q → wanted x q

/-- The node has a link, or is the target of a link. -/
def Connected (g : Graph) (x : NodeId) : Prop := (∃ j, Link g x j) ∨ ∃ i, Link g i x

/-- A flat quorum set with exactly the nodes in `S`, in ascending order, and the threshold for so many
nodes. -/
def FlatOver (rel : Option ℚ) (S : NodeId → Prop) (q : QuorumSet) : Prop :=
  ∃ t vs, q = ⟨t, vs, []⟩ ∧ vs.Pairwise (· < ·) ∧ (∀ y, y ∈ vs ↔ S y) ∧ ThresholdFor rel vs.length t

/-- Parameters of the graph generator for `n` nodes, all of which are to get links. -/
def Suitable : GraphGenerator.Config → ℕ → Prop
  | .barabasiAlbert n m0 m, n' => n = n' ∧ 2 ≤ m0 ∧ m0 ≤ n ∧ 1 ≤ m ∧ m ≤ m0
  | .wattsStrogatz n k _, n' => n = n' ∧ 0 < k ∧ k < n ∧ k % 2 = 0

end FA.Spec
