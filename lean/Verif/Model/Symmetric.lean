import Verif.Model.Sets

/-!
# Symmetric clusters: src/analysis/symmetric_clusters.rs
-/

namespace FA

/-- State of the loop in `find_symmetric_clusters_in_node_set`: `qset_occurances` and
`found_clusters` (src/analysis/symmetric_clusters.rs:58-60). -/
structure SymState where
  occ : Map QuorumSet (ℕ × ℕ)
  found : List QuorumSet

/-- Counting one more occurrence of `qset` (src/analysis/symmetric_clusters.rs:65-72); returns the
updated map, the new count and the goal. -/
def bumpOccurrence (occ : Map QuorumSet (ℕ × ℕ)) (qset : QuorumSet) :
    Map QuorumSet (ℕ × ℕ) × ℕ × ℕ :=
  match occ.get? qset with
  | some (counter, goal) => (occ.insert qset (counter + 1, goal), counter + 1, goal)
  | none =>
    let goal := qset.containedNodes.card
    (occ.insert qset (1, goal), 1, goal)

/-- Loop body (src/analysis/symmetric_clusters.rs:62-76). -/
def symStep (f : Fbas) (st : SymState) (nodeId : NodeId) : SymState :=
  let qset := f.qset nodeId
  if nodeId ∈ qset.containedNodes then
    let r := bumpOccurrence st.occ qset
    { occ := r.1, found := if r.2.1 = r.2.2 then st.found ++ [qset] else st.found }
  else st

/-- `find_symmetric_clusters_in_node_set` (src/analysis/symmetric_clusters.rs:54-79). -/
def findSymmetricClustersInNodeSet (f : Fbas) (nodes : NodeSet) : List QuorumSet :=
  ((elems nodes).foldl (symStep f) ⟨[], []⟩).found

/-- `find_symmetric_cluster_in_consensus_cluster` (src/analysis/symmetric_clusters.rs:40-52), with
its two assertions. -/
def findSymmetricClusterInConsensusCluster (f : Fbas) (cluster : NodeSet) :
    Except Panic (Option QuorumSet) :=
  match findSymmetricClustersInNodeSet f cluster with
  | [] => .ok none
  | q :: qs =>
    if (q :: qs).length ≠ 1 then .error .assertion
    else if q.containedNodes ≠ cluster then .error .assertion
    else .ok (some q)

/-- `symmetric_clusters_finder` (src/analysis/symmetric_clusters.rs:30-38). -/
def symmetricClustersFinder (clusters : List NodeSet) (f : Fbas) :
    Except Panic (List QuorumSet) :=
  .ok (clusters.foldl (fun found nodes => found ++ findSymmetricClustersInNodeSet f nodes) [])

/-- `find_symmetric_clusters` (src/analysis/symmetric_clusters.rs:7-15). -/
def findSymmetricClusters (env : Env) (f : Fbas) : Except Panic (List QuorumSet) :=
  findSets env f symmetricClustersFinder

/-- `find_symmetric_top_tier` (src/analysis/symmetric_clusters.rs:19-28). -/
def findSymmetricTopTier (env : Env) (f : Fbas) : Except Panic (Option QuorumSet) :=
  match findSymmetricClusters env f with
  | .error e => .error e
  | .ok [q] => .ok (if f.complementContainsQuorum q.containedNodes then none else some q)
  | .ok _ => .ok none

end FA
