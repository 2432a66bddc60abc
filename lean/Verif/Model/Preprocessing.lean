import Verif.Model.Fbas
import Mathlib.Logic.Relation

/-!
# Preprocessing: src/analysis/preprocessing.rs (and `contains_quorum` from src/analysis/quorums.rs)
-/

namespace FA

/-- What the external function `pathfinding::strongly_connected_components(starts, succ)` is assumed
to return: the nodes reachable from `starts`, each exactly once, grouped by mutual reachability (in
any order). -/
structure SccSpec (starts : List NodeId) (succ : NodeId → List NodeId)
    (comps : List (List NodeId)) : Prop where
  nodup : comps.flatten.Nodup
  mem : ∀ x, x ∈ comps.flatten ↔
    ∃ s ∈ starts, Relation.ReflTransGen (fun a b => b ∈ succ a) s x
  same : ∀ c ∈ comps, ∀ x ∈ c, ∀ y, y ∈ c ↔
    Relation.ReflTransGen (fun a b => b ∈ succ a) x y ∧
    Relation.ReflTransGen (fun a b => b ∈ succ a) y x

/-- The external functions the analysis depends on, with the assumptions made about them.
`scc` is `pathfinding::directed::strongly_connected_components::strongly_connected_components`
(assumed correct on finite graphs). `rank` is `sort_by_rank` (src/analysis/preprocessing.rs:126-131),
which sorts by floating-point scores: it is an arbitrary permutation here. -/
structure Env where
  scc : List NodeId → (NodeId → List NodeId) → List (List NodeId)
  scc_spec : ∀ (starts : List NodeId) (succ : NodeId → List NodeId) (n : ℕ),
    (∀ s ∈ starts, s < n) → (∀ x < n, ∀ y ∈ succ x, y < n) → SccSpec starts succ (scc starts succ)
  rank : Fbas → List NodeId → List NodeId
  rank_perm : ∀ f l, (rank f l).Perm l

namespace Fbas

/-- The `while let` loop of `find_satisfiable_nodes` (src/analysis/preprocessing.rs:52-58). Every
iteration removes a node, so `satisfiable.card` iterations are enough (fuel). -/
def satLoop (f : Fbas) : ℕ → NodeSet × NodeSet → NodeSet × NodeSet
  | 0, st => st
  | fuel + 1, (satisfiable, unsatisfiable) =>
    match (elems satisfiable).find? (fun x => !f.nodeIsQuorumSlice x satisfiable) with
    | none => (satisfiable, unsatisfiable)
    | some x => satLoop f fuel (satisfiable.erase x, insert x unsatisfiable)

/-- `find_satisfiable_nodes` (src/analysis/preprocessing.rs:47-60). -/
def findSatisfiableNodes (f : Fbas) (nodeSet : NodeSet) : NodeSet × NodeSet :=
  let satisfiable := ofList ((elems nodeSet).filter (fun x => f.nodeIsQuorumSlice x nodeSet))
  let unsatisfiable := ofList ((elems nodeSet).filter (fun x => !f.nodeIsQuorumSlice x nodeSet))
  f.satLoop satisfiable.card (satisfiable, unsatisfiable)

/-- `satisfiable_nodes` (src/analysis/preprocessing.rs:9-11). -/
def satisfiableNodes (f : Fbas) : NodeSet := (f.findSatisfiableNodes f.allNodes).1

/-- `unsatisfiable_nodes` (src/analysis/preprocessing.rs:12-14). -/
def unsatisfiableNodes (f : Fbas) : NodeSet := (f.findSatisfiableNodes f.allNodes).2

/-- The `while let` loop of `contains_quorum` (src/analysis/quorums.rs:219-224). -/
def cqLoop (f : Fbas) : ℕ → NodeSet → NodeSet
  | 0, satisfiable => satisfiable
  | fuel + 1, satisfiable =>
    match (elems satisfiable).find? (fun x => !f.nodeIsQuorumSlice x satisfiable) with
    | none => satisfiable
    | some x => cqLoop f fuel (satisfiable.erase x)

/-- `contains_quorum` (src/analysis/quorums.rs:216-226). -/
def containsQuorum (f : Fbas) (nodeSet : NodeSet) : Bool :=
  !decide (f.cqLoop nodeSet.card nodeSet = ∅)

/-- `complement_contains_quorum` (src/analysis/quorums.rs:228-232). -/
def complementContainsQuorum (f : Fbas) (nodeSet : NodeSet) : Bool :=
  f.containsQuorum (f.allNodes \ nodeSet)

/-- The successor function used for the trust graph (src/analysis/preprocessing.rs:67-73). -/
def successors (f : Fbas) (x : NodeId) : List NodeId := elems (f.qset x).containedNodes

/-- `partition_into_strongly_connected_components` (src/analysis/preprocessing.rs:63-80). -/
def partitionIntoSccs (env : Env) (f : Fbas) (nodes : NodeSet) : List NodeSet :=
  (env.scc (elems nodes) f.successors).map
    (fun c => ofList (c.filter (fun x => decide (x ∈ elems nodes))))

/-- `strongly_connected_components` (src/analysis/preprocessing.rs:15-17). -/
def stronglyConnectedComponents (env : Env) (f : Fbas) : List NodeSet :=
  f.partitionIntoSccs env f.allNodes

/-- `relevant_nodes` (src/analysis/preprocessing.rs:24-33). -/
def relevantNodes (env : Env) (f : Fbas) : NodeSet :=
  (f.partitionIntoSccs env f.satisfiableNodes).foldl
    (fun relevant scc => if f.containsQuorum scc then relevant ∪ scc else relevant) ∅

end Fbas
end FA
