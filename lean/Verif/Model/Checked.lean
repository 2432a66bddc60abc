import Verif.Model.Graph
import Verif.Model.Splitting

/-!
# The analysis with all index accesses and debug assertions

The definitions in the other `Model` files replace `fbas.nodes[x]` by the empty quorum set if `x` does
not exist, and ignore `debug_assert!`. Here the functions of src/analysis are modelled a second time,
with `Panic.outOfBounds` for every index access that fails, and `Panic.assertion` for failed debug
assertions if `dbg` is set (debug builds). The theorems in `Props/Checked.lean` say when both versions
agree.
-/

namespace FA.Checked
open FA

/-- `Iterator::find` with a predicate that may panic. -/
def findE {α : Type} (p : α → Except Panic Bool) : List α → Except Panic (Option α)
  | [] => .ok none
  | a :: l => do if ← p a then .ok (some a) else findE p l

/-- `Iterator::filter` with a predicate that may panic, consumed completely. -/
def filterE {α : Type} (p : α → Except Panic Bool) : List α → Except Panic (List α)
  | [] => .ok []
  | a :: l => do
    let b ← p a
    let r ← filterE p l
    .ok (if b then a :: r else r)

/-- `Iterator::partition` with a predicate that may panic. -/
def partitionE {α : Type} (p : α → Except Panic Bool) : List α → Except Panic (List α × List α)
  | [] => .ok ([], [])
  | a :: l => do
    let b ← p a
    let r ← partitionE p l
    .ok (if b then (a :: r.1, r.2) else (r.1, a :: r.2))

/-- `a && b` where `b` may panic. -/
def andE (a : Bool) (b : Except Panic Bool) : Except Panic Bool := if a then b else .ok false

/-- `debug_assert!(c)`, which only does something in debug builds. -/
def debugAssert (dbg c : Bool) : Except Panic Unit :=
  if dbg && !c then .error .assertion else .ok ()

/-! ## src/core_types/fbas.rs -/

/-- `fbas.nodes[x].is_quorum_slice(node_set)` (src/core_types/fbas.rs:148-150). -/
def nodeIsQuorumSlice (f : Fbas) (x : NodeId) (S : NodeSet) : Except Panic Bool := do
  let node ← getE f.nodes x
  .ok (node.quorumSet.isQuorumSlice S)

/-- `is_quorum` (src/core_types/fbas.rs:106-111). -/
def isQuorum (f : Fbas) (S : NodeSet) : Except Panic Bool :=
  andE (!decide (S = ∅)) (allE (fun x => nodeIsQuorumSlice f x S) (elems S))

/-! ## src/analysis/preprocessing.rs and the end of src/analysis/quorums.rs -/

/-- The `while let` loop of `find_satisfiable_nodes` (src/analysis/preprocessing.rs:52-58). -/
def satLoop (f : Fbas) : ℕ → NodeSet × NodeSet → Except Panic (NodeSet × NodeSet)
  | 0, st => .ok st
  | fuel + 1, (satisfiable, unsatisfiable) => do
    match ← findE (fun x => do let b ← nodeIsQuorumSlice f x satisfiable; .ok (!b))
        (elems satisfiable) with
    | none => .ok (satisfiable, unsatisfiable)
    | some x => satLoop f fuel (satisfiable.erase x, insert x unsatisfiable)

/-- `find_satisfiable_nodes` (src/analysis/preprocessing.rs:47-60). -/
def findSatisfiableNodes (f : Fbas) (nodeSet : NodeSet) : Except Panic (NodeSet × NodeSet) := do
  let r ← partitionE (fun x => nodeIsQuorumSlice f x nodeSet) (elems nodeSet)
  satLoop f (ofList r.1).card (ofList r.1, ofList r.2)

/-- The `while let` loop of `contains_quorum` (src/analysis/quorums.rs:219-224). -/
def cqLoop (f : Fbas) : ℕ → NodeSet → Except Panic NodeSet
  | 0, satisfiable => .ok satisfiable
  | fuel + 1, satisfiable => do
    match ← findE (fun x => do let b ← nodeIsQuorumSlice f x satisfiable; .ok (!b))
        (elems satisfiable) with
    | none => .ok satisfiable
    | some x => cqLoop f fuel (satisfiable.erase x)

/-- `contains_quorum` (src/analysis/quorums.rs:216-226). -/
def containsQuorum (f : Fbas) (nodeSet : NodeSet) : Except Panic Bool := do
  let r ← cqLoop f nodeSet.card nodeSet
  .ok (!decide (r = ∅))

/-- `complement_contains_quorum` (src/analysis/quorums.rs:228-232). -/
def complementContainsQuorum (f : Fbas) (nodeSet : NodeSet) : Except Panic Bool :=
  containsQuorum f (f.allNodes \ nodeSet)

/-- `partition_into_strongly_connected_components` (src/analysis/preprocessing.rs:63-80). The external
function calls `successors`, which indexes `fbas.nodes`, for every node it visits, i.e. for every node
in the components it returns. -/
def partitionIntoSccs (env : Env) (f : Fbas) (nodes : NodeSet) : Except Panic (List NodeSet) := do
  let comps := env.scc (elems nodes) f.successors
  let _ ← mapE (fun x => getE f.nodes x) comps.flatten
  .ok (comps.map (fun c => ofList (c.filter (fun x => decide (x ∈ elems nodes)))))

/-- The loop of `relevant_nodes` (src/analysis/preprocessing.rs:27-31). -/
def relevantLoop (f : Fbas) (relevant scc : NodeSet) : Except Panic NodeSet := do
  if ← containsQuorum f scc then .ok (relevant ∪ scc) else .ok relevant

/-- `satisfiable_nodes` (src/analysis/preprocessing.rs:9-11). -/
def satisfiableNodes (f : Fbas) : Except Panic NodeSet := do
  let r ← findSatisfiableNodes f f.allNodes
  .ok r.1

/-- `unsatisfiable_nodes` (src/analysis/preprocessing.rs:12-14). -/
def unsatisfiableNodes (f : Fbas) : Except Panic NodeSet := do
  let r ← findSatisfiableNodes f f.allNodes
  .ok r.2

/-- `relevant_nodes` (src/analysis/preprocessing.rs:24-33). -/
def relevantNodes (env : Env) (f : Fbas) : Except Panic NodeSet := do
  let satisfiable ← satisfiableNodes f
  let sccs ← partitionIntoSccs env f satisfiable
  foldE (relevantLoop f) ∅ sccs

/-! ### Ranking -/

/-- `scores[trusted_node_id] += last_scores[node_id] / l` (src/analysis/preprocessing.rs:109). -/
def addScore (last : List ℚ) (nodeId : NodeId) (l : ℚ) (scores : List ℚ) (trusted : NodeId) :
    Except Panic (List ℚ) := do
  let s ← getE last nodeId
  modifyE scores trusted (· + s / l)

/-- The loop over the nodes in `rank_nodes` (src/analysis/preprocessing.rs:100-111). -/
def rankNode (f : Fbas) (nodesSet : NodeSet) (last scores : List ℚ) (nodeId : NodeId) :
    Except Panic (List ℚ) := do
  let node ← getE f.nodes nodeId
  let trusted := node.quorumSet.containedNodes
  foldE (addScore last nodeId trusted.card) scores
    ((elems trusted).filter (fun id => decide (id ∈ nodesSet)))

/-- The outer loop of `rank_nodes` (src/analysis/preprocessing.rs:96-112), with the remaining number of
runs. -/
def rankLoop (f : Fbas) (nodes : List NodeId) : ℕ → List ℚ → Except Panic (List ℚ)
  | 0, scores => .ok scores
  | runs + 1, last => do
    let scores ← foldE (rankNode f (ofList nodes) last) (List.replicate f.nodes.length 0) nodes
    rankLoop f nodes runs scores

/-- `rank_nodes` (src/analysis/preprocessing.rs:86-123). Simplified: rational numbers instead of
`f64`. -/
def rankNodes (f : Fbas) (nodes : List NodeId) : Except Panic (List ℚ) :=
  if nodes.length = (ofList nodes).card then
    rankLoop f nodes 100 (List.replicate f.nodes.length (1 / (nodes.length : ℚ)))
  else .error .assertion

/-- `sort_by_rank` (src/analysis/preprocessing.rs:126-131): all index accesses are checked, but the
resulting order is the arbitrary one of `Env` (the comparisons of rounded scores are not modelled). -/
def sortByRank (env : Env) (f : Fbas) (nodes : List NodeId) : Except Panic (List NodeId) := do
  let scores ← rankNodes f nodes
  let _ ← mapE (fun x => getE scores x) nodes
  .ok (env.rank f nodes)

/-! ## src/analysis/sets.rs -/

/-- `is_set_of_minimal_node_sets` (src/analysis/sets.rs:125-132). -/
def isSetOfMinimalNodeSets (nodeSets : List NodeSet) : Bool :=
  nodeSets.zipIdx.all (fun p => nodeSets.zipIdx.all (fun q => p.2 == q.2 || !decide (p.1 ⊆ q.1)))

/-- Sorting node sets into buckets by size (src/analysis/sets.rs:86-88). -/
def intoBuckets (nodeSets : List NodeSet) (buckets : List (List NodeSet)) :
    Except Panic (List (List NodeSet)) :=
  foldE (fun bs s => modifyE bs s.card (fun b => b ++ [s])) buckets nodeSets

/-- `remove_non_minimal_node_sets` (src/analysis/sets.rs:77-99), with the debug assertion at the end of
`remove_non_minimal_node_sets_from_buckets` (line 154). -/
def removeNonMinimalNodeSets (dbg : Bool) (nodeSets : List NodeSet) :
    Except Panic (List NodeSet) := do
  let nodeSets := dedupAdj (sortLex nodeSets)
  let maxLenUpperBound := maxD (nodeSets.map Finset.card) + 1
  let buckets ← intoBuckets nodeSets (List.replicate maxLenUpperBound [])
  let minimal := minimalFromBuckets buckets
  debugAssert dbg (isSetOfMinimalNodeSets minimal)
  .ok minimal

/-- `remove_non_minimal_x` (src/analysis/sets.rs:101-123). -/
def removeNonMinimalX (dbg : Bool) (nodeSets : List NodeSet)
    (isMinimal : NodeSet → Except Panic Bool) : Except Panic (List NodeSet) := do
  let minimal ← filterE isMinimal nodeSets
  debugAssert dbg (isSetOfMinimalNodeSets minimal)
  .ok minimal

/-- The consensus clusters computed by `find_sets` (src/analysis/sets.rs:41-66). -/
def consensusClusters (env : Env) (f : Fbas) : Except Panic (List NodeSet) := do
  let r ← findSatisfiableNodes f (ofList (List.range f.nodes.length))
  let sccs ← partitionIntoSccs env f r.1
  filterE (containsQuorum f) sccs

/-- `find_sets` (src/analysis/sets.rs:37-74). -/
def findSets {R : Type} (env : Env) (f : Fbas)
    (finder : List NodeSet → Fbas → Except Panic (List R)) : Except Panic (List R) := do
  let clusters ← consensusClusters env f
  finder clusters f

/-- `find_minimal_sets` (src/analysis/sets.rs:26-35). -/
def findMinimalSets (dbg : Bool) (env : Env) (f : Fbas)
    (finder : List NodeSet → Fbas → Except Panic (List NodeSet)) : Except Panic (List NodeSet) := do
  let sets ← findSets env f finder
  debugAssert dbg (isSetOfMinimalNodeSets sets)
  .ok (sortLen (sortLex sets))

/-! ## src/analysis/symmetric_clusters.rs -/

/-- Loop body (src/analysis/symmetric_clusters.rs:62-76). -/
def symStep (f : Fbas) (st : SymState) (nodeId : NodeId) : Except Panic SymState := do
  let node ← getE f.nodes nodeId
  let qset := node.quorumSet
  if nodeId ∈ qset.containedNodes then
    let r := bumpOccurrence st.occ qset
    .ok { occ := r.1, found := if r.2.1 = r.2.2 then st.found ++ [qset] else st.found }
  else .ok st

/-- `find_symmetric_clusters_in_node_set` (src/analysis/symmetric_clusters.rs:54-79). -/
def findSymmetricClustersInNodeSet (f : Fbas) (nodes : NodeSet) : Except Panic (List QuorumSet) := do
  let st ← foldE (symStep f) ⟨[], []⟩ (elems nodes)
  .ok st.found

/-- `find_symmetric_cluster_in_consensus_cluster` (src/analysis/symmetric_clusters.rs:40-52). -/
def findSymmetricClusterInConsensusCluster (f : Fbas) (cluster : NodeSet) :
    Except Panic (Option QuorumSet) := do
  match ← findSymmetricClustersInNodeSet f cluster with
  | [] => .ok none
  | q :: qs =>
    if (q :: qs).length ≠ 1 then .error .assertion
    else if q.containedNodes ≠ cluster then .error .assertion
    else .ok (some q)

/-- `symmetric_clusters_finder` (src/analysis/symmetric_clusters.rs:30-38). -/
def symmetricClustersFinder (clusters : List NodeSet) (f : Fbas) : Except Panic (List QuorumSet) :=
  foldE (fun found nodes => do
    let l ← findSymmetricClustersInNodeSet f nodes
    .ok (found ++ l)) [] clusters

/-- `find_symmetric_clusters` (src/analysis/symmetric_clusters.rs:7-15). -/
def findSymmetricClusters (env : Env) (f : Fbas) : Except Panic (List QuorumSet) :=
  findSets env f symmetricClustersFinder

/-- `find_symmetric_top_tier` (src/analysis/symmetric_clusters.rs:19-28). -/
def findSymmetricTopTier (env : Env) (f : Fbas) : Except Panic (Option QuorumSet) := do
  match ← findSymmetricClusters env f with
  | [q] => do
    if ← complementContainsQuorum f q.containedNodes then .ok none else .ok (some q)
  | _ => .ok none

/-! ## src/analysis/quorums.rs -/

/-- `selection_satisfiable` (src/analysis/quorums.rs:210-214). -/
def selectionSatisfiable (f : Fbas) (selection available : NodeSet) : Except Panic Bool :=
  allE (fun x => nodeIsQuorumSlice f x available) (elems selection)

/-- The loop of `is_minimal_for_quorum` (src/analysis/quorums.rs:237-243). -/
def minimalForQuorumLoop (f : Fbas) : List NodeId → NodeSet → Except Panic Bool
  | [], _ => .ok true
  | x :: xs, tester => do
    if ← containsQuorum f (tester.erase x) then .ok false
    else minimalForQuorumLoop f xs (insert x (tester.erase x))

/-- `is_minimal_for_quorum` (src/analysis/quorums.rs:234-245). -/
def isMinimalForQuorum (f : Fbas) (quorum : NodeSet) : Except Panic Bool :=
  minimalForQuorumLoop f (elems quorum) quorum

/-- `minimal_quorums_finder_step` (src/analysis/quorums.rs:59-95). -/
def mqStep (f : Fbas) : ℕ → Bool → MqState → Except Panic MqState
  | 0, _, st => .ok st
  | fuel + 1, selectionChanged, st => do
    if ← andE selectionChanged (isQuorum f st.selection) then
      if ← isMinimalForQuorum f st.selection then
        .ok { st with found := st.found ++ [st.selection] }
      else .ok st
    else
      match st.unprocessed with
      | [] => .ok st
      | x :: rest => do
        let st := { st with unprocessed := rest, selection := insert x st.selection }
        let st ← mqStep f fuel true st
        let st := { st with selection := st.selection.erase x, available := st.available.erase x }
        let b ← selectionSatisfiable f st.selection st.available
        let st ← (if b then mqStep f fuel false st else .ok st)
        .ok { st with unprocessed := x :: st.unprocessed, available := insert x st.available }

/-- `QuorumSet::to_minimal_quorums` (src/analysis/quorums.rs:99-106). -/
def toMinimalQuorums (dbg : Bool) (q : QuorumSet) (f : Fbas) : Except Panic (List NodeSet) :=
  let quorums := q.toQuorumSlices
  if q.containsDuplicates then removeNonMinimalX dbg quorums (isMinimalForQuorum f)
  else .ok quorums

/-- The body of the loop over the clusters in `minimal_quorums_finder`
(src/analysis/quorums.rs:31-56). -/
def minimalQuorumsInCluster (dbg : Bool) (env : Env) (f : Fbas) (found : List NodeSet)
    (nodes : NodeSet) : Except Panic (List NodeSet) := do
  match ← findSymmetricClusterInConsensusCluster f nodes with
  | some q => do
    let l ← toMinimalQuorums dbg q f
    .ok (found ++ l)
  | none => do
    let unprocessed ← sortByRank env f (elems nodes)
    let st ← mqStep f (unprocessed.length + 1) true
      { unprocessed, selection := ∅, available := ofList unprocessed, found }
    .ok st.found

/-- `minimal_quorums_finder` (src/analysis/quorums.rs:29-58). -/
def minimalQuorumsFinder (dbg : Bool) (env : Env) (clusters : List NodeSet) (f : Fbas) :
    Except Panic (List NodeSet) :=
  foldE (minimalQuorumsInCluster dbg env f) [] clusters

/-- `find_minimal_quorums` (src/analysis/quorums.rs:4-9). -/
def findMinimalQuorums (dbg : Bool) (env : Env) (f : Fbas) : Except Panic (List NodeSet) :=
  findMinimalSets dbg env f (minimalQuorumsFinder dbg env)

/-- `nonintersecting_quorums_finder_step` (src/analysis/quorums.rs:149-208), with its debug assertion
(line 158). -/
def nqStep (dbg : Bool) (f : Fbas) : ℕ → ℕ → Bool → NqState →
    Except Panic (Option (NodeSet × NodeSet) × NqState)
  | 0, _, _, st => .ok (none, st)
  | fuel + 1, picksLeft, selectionChanged, st => do
    debugAssert dbg (decide (Disjoint st.selection st.antiselection))
    if ← andE selectionChanged (isQuorum f st.selection) then
      let r ← findSatisfiableNodes f st.antiselection
      if r.1 ≠ ∅ then .ok (some (st.selection, r.1), st) else .ok (none, st)
    else if picksLeft = 0 then .ok (none, st)
    else
      match st.unprocessed with
      | [] => .ok (none, st)
      | x :: rest => do
        let st := { st with
          unprocessed := rest
          selection := insert x st.selection
          antiselection := st.antiselection.erase x }
        match ← nqStep dbg f fuel (picksLeft - 1) true st with
        | (some r, st) => .ok (some r, st)
        | (none, st) => do
          let st := { st with
            selection := st.selection.erase x
            antiselection := insert x st.antiselection
            available := st.available.erase x }
          let b ← selectionSatisfiable f st.selection st.available
          match ← (if b then nqStep dbg f fuel picksLeft false st else .ok (none, st)) with
          | (some r, st) => .ok (some r, st)
          | (none, st) =>
            .ok (none, { st with
              unprocessed := x :: st.unprocessed
              available := insert x st.available })

/-- The end of `nonintersecting_quorums_finder` (src/analysis/quorums.rs:129-146): the assertions about
the result of the search. -/
def nonintersectingResult (f : Fbas) :
    Option (NodeSet × NodeSet) × NqState → Except Panic (List NodeSet)
  | (some (a, b), _) => do
    let ok ← allE (isQuorum f) [a, b]
    if ok then
      if Disjoint a b then .ok [a, b] else .error .assertion
    else .error .assertion
  | (none, st) => do
    if ← isQuorum f st.available then .ok [st.available] else .error .assertion

/-- `nonintersecting_quorums_finder` (src/analysis/quorums.rs:109-148). -/
def nonintersectingQuorumsFinder (dbg : Bool) (env : Env) (clusters : List NodeSet) (f : Fbas) :
    Except Panic (List NodeSet) :=
  if clusters.length > 1 then
    mapE (fun nodes => do let r ← findSatisfiableNodes f nodes; .ok r.1) clusters
  else do
    let nodes := clusters.head?.getD ∅
    let unprocessed ← sortByRank env f (elems nodes)
    let available := ofList unprocessed
    let picksLeft := unprocessed.length / 2
    let r ← nqStep dbg f (unprocessed.length + 1) picksLeft true
      { unprocessed, selection := ∅, available, antiselection := available }
    nonintersectingResult f r

/-- `find_nonintersecting_quorums` (src/analysis/quorums.rs:14-27). -/
def findNonintersectingQuorums (dbg : Bool) (env : Env) (f : Fbas) :
    Except Panic (Option (List NodeSet)) := do
  let quorums ← findSets env f (nonintersectingQuorumsFinder dbg env)
  .ok (if quorums.length < 2 then none else some quorums)

/-! ## src/analysis/blocking_sets.rs -/

/-- `is_blocked_set` (src/analysis/blocking_sets.rs:190-192). -/
def isBlockedSet (f : Fbas) (nodes : NodeSet) : Except Panic Bool := do
  let b ← containsQuorum f nodes
  .ok (!b)

/-- The loop of `is_minimal_for_blocking_set_with_precomputed_blocked_set`
(src/analysis/blocking_sets.rs:180-186). -/
def minimalForBlockingSetLoop (f : Fbas) : List NodeId → NodeSet → Except Panic Bool
  | [], _ => .ok true
  | x :: xs, tester => do
    if ← isBlockedSet f (insert x tester) then .ok false
    else minimalForBlockingSetLoop f xs ((insert x tester).erase x)

/-- `is_minimal_for_blocking_set_with_precomputed_blocked_set`
(src/analysis/blocking_sets.rs:173-188). -/
def isMinimalForBlockingSetPre (f : Fbas) (blockingSet blockedSet : NodeSet) : Except Panic Bool :=
  minimalForBlockingSetLoop f (elems blockingSet) blockedSet

/-- `is_minimal_for_blocking_set` (src/analysis/blocking_sets.rs:168-172). -/
def isMinimalForBlockingSet (f : Fbas) (blockingSet : NodeSet) : Except Panic Bool :=
  isMinimalForBlockingSetPre f blockingSet blockingSet

/-- `minimal_blocking_sets_finder_step` (src/analysis/blocking_sets.rs:66-114). -/
def mbStep (f : Fbas) : ℕ → Bool → MbState → Except Panic MbState
  | 0, _, st => .ok st
  | fuel + 1, selectionChanged, st => do
    if ← andE selectionChanged (isBlockedSet f st.remaining) then
      if ← isMinimalForBlockingSetPre f st.selection st.remaining then
        .ok { st with found := st.found ++ [st.selection] }
      else .ok st
    else
      match st.unprocessed with
      | [] => .ok st
      | x :: rest => do
        let st := { st with
          unprocessed := rest
          selection := insert x st.selection
          remaining := st.remaining.erase x }
        let st ← mbStep f fuel true st
        let st := { st with
          selection := st.selection.erase x
          remaining := insert x st.remaining
          maxRemaining := insert x st.maxRemaining }
        let b ← isBlockedSet f st.maxRemaining
        let st ← (if b then mbStep f fuel false st else .ok st)
        .ok { st with
          unprocessed := x :: st.unprocessed
          maxRemaining := st.maxRemaining.erase x }

/-- `to_minimal_blocking_sets` (src/analysis/blocking_sets.rs:118-125). -/
def toMinimalBlockingSets (dbg : Bool) (q : QuorumSet) (f : Fbas) : Except Panic (List NodeSet) :=
  let blockingSets := q.toBlockingSets
  if q.containsDuplicates then removeNonMinimalX dbg blockingSets (isMinimalForBlockingSet f)
  else .ok blockingSets

/-- The body of the loop over the clusters in `minimal_blocking_sets_finder`
(src/analysis/blocking_sets.rs:18-50). -/
def minimalBlockingSetsInCluster (dbg : Bool) (env : Env) (f : Fbas) (found : List (List NodeSet))
    (nodes : NodeSet) : Except Panic (List (List NodeSet)) := do
  match ← findSymmetricClusterInConsensusCluster f nodes with
  | some q => do
    let l ← toMinimalBlockingSets dbg q f
    .ok (found ++ [l])
  | none => do
    let unprocessed ← sortByRank env f (elems nodes)
    let st ← mbStep f (unprocessed.length + 1) true
      { unprocessed, selection := ∅, remaining := ofList unprocessed, maxRemaining := ∅, found := [] }
    .ok (found ++ [st.found])

/-- `minimal_blocking_sets_finder` (src/analysis/blocking_sets.rs:16-65). -/
def minimalBlockingSetsFinder (dbg : Bool) (env : Env) (clusters : List NodeSet) (f : Fbas) :
    Except Panic (List NodeSet) := do
  let perCluster ← foldE (minimalBlockingSetsInCluster dbg env f) [] clusters
  .ok ((multiCartesianProduct perCluster).map unionAll)

/-- `find_minimal_blocking_sets` (src/analysis/blocking_sets.rs:6-14). -/
def findMinimalBlockingSets (dbg : Bool) (env : Env) (f : Fbas) : Except Panic (List NodeSet) :=
  findMinimalSets dbg env f (minimalBlockingSetsFinder dbg env)

/-! ## src/analysis/splitting_sets.rs -/

/-- `fbas.nodes[x].is_slice_intersection(node_set)` (src/analysis/splitting_sets.rs:128-132). -/
def nodeIsSliceIntersection (f : Fbas) (x : NodeId) (S : NodeSet) : Except Panic Bool := do
  let node ← getE f.nodes x
  .ok (node.quorumSet.isSliceIntersection S)

/-- `has_potential` (src/analysis/splitting_sets.rs:224-228). -/
def hasPotential (f : Fbas) (selection available : NodeSet) : Except Panic Bool :=
  allE (fun x => nodeIsSliceIntersection f x available) (elems selection)

/-- `is_quorum_intersection` (src/analysis/splitting_sets.rs:213-221). -/
def isQuorumIntersection (f : Fbas) (selection : NodeSet) (relevantQuorumParts : List NodeSet) :
    Except Panic Bool := do
  let b ← andE (!decide (selection = ∅)) (hasPotential f selection selection)
  .ok (b && !allIntersect relevantQuorumParts)

/-- `splitting_sets_finder_step` (src/analysis/splitting_sets.rs:65-126). -/
def msStep (f : Fbas) : ℕ → List NodeSet → Bool → MsState → Except Panic MsState
  | 0, _, _, st => .ok st
  | fuel + 1, parts, selectionChanged, st => do
    if parts.length < 2 then .ok st
    else if ← andE selectionChanged (isQuorumIntersection f st.selection parts) then
      .ok { st with found := st.found ++ [st.selection] }
    else
      match st.unprocessed with
      | [] => .ok st
      | x :: rest => do
        let st := { st with unprocessed := rest, selection := insert x st.selection }
        let partsWithSelect :=
          (parts.filter (fun q => decide (x ∈ q))).map (fun q => q.erase x)
        let st ← msStep f fuel partsWithSelect true st
        let st := { st with selection := st.selection.erase x, available := st.available.erase x }
        let partsForAvailable := parts.filter (fun (q : NodeSet) => !decide (Disjoint q st.available))
        let b ← hasPotential f st.selection st.available
        let st ← (if b then msStep f fuel partsForAvailable false st else .ok st)
        .ok { st with unprocessed := x :: st.unprocessed, available := insert x st.available }

/-- `to_minimal_splitting_sets` (src/analysis/splitting_sets.rs:156-163). -/
def toMinimalSplittingSets (dbg : Bool) (q : QuorumSet) : Except Panic (List NodeSet) :=
  let splittingSets := q.toSplittingSets
  if q.containsDuplicates then removeNonMinimalNodeSets dbg splittingSets else .ok splittingSets

/-- The body of the loop over the clusters in `minimal_splitting_sets_finder`
(src/analysis/splitting_sets.rs:25-61). -/
def minimalSplittingSetsInCluster (dbg : Bool) (env : Env) (f : Fbas) (minimalQuorums : List NodeSet)
    (found : List NodeSet) (nodes : NodeSet) : Except Panic (List NodeSet) := do
  match ← findSymmetricClusterInConsensusCluster f nodes with
  | some q => do
    let l ← toMinimalSplittingSets dbg q
    .ok (found ++ l)
  | none => do
    let unprocessed ← sortByRank env f (elems nodes)
    let st ← msStep f (unprocessed.length + 1) minimalQuorums true
      { unprocessed, selection := ∅, available := ofList unprocessed, found := [] }
    let l ← removeNonMinimalNodeSets dbg st.found
    .ok (found ++ l)

/-- `minimal_splitting_sets_finder` (src/analysis/splitting_sets.rs:19-64). -/
def minimalSplittingSetsFinder (dbg : Bool) (env : Env) (minimalQuorums : List NodeSet)
    (clusters : List NodeSet) (f : Fbas) : Except Panic (List NodeSet) :=
  foldE (minimalSplittingSetsInCluster dbg env f minimalQuorums) [] clusters

/-- `find_minimal_splitting_sets` (src/analysis/splitting_sets.rs:7-17). -/
def findMinimalSplittingSets (dbg : Bool) (env : Env) (f : Fbas) (minimalQuorums : List NodeSet) :
    Except Panic (List NodeSet) :=
  findMinimalSets dbg env f (minimalSplittingSetsFinder dbg env minimalQuorums)

end FA.Checked
