import Verif.Model.Quorums

/-!
# Minimal blocking sets: src/analysis/blocking_sets.rs
-/

namespace FA

/-- `is_blocked_set` (src/analysis/blocking_sets.rs:190-192). -/
def isBlockedSet (f : Fbas) (nodes : NodeSet) : Bool := !f.containsQuorum nodes

/-- The loop of `is_minimal_for_blocking_set_with_precomputed_blocked_set`
(src/analysis/blocking_sets.rs:180-186). -/
def minimalForBlockingSetLoop (f : Fbas) : List NodeId → NodeSet → Bool
  | [], _ => true
  | x :: xs, tester =>
    let tester := insert x tester
    if isBlockedSet f tester then false
    else minimalForBlockingSetLoop f xs (tester.erase x)

/-- `is_minimal_for_blocking_set_with_precomputed_blocked_set`
(src/analysis/blocking_sets.rs:173-188). -/
def isMinimalForBlockingSetPre (f : Fbas) (blockingSet blockedSet : NodeSet) : Bool :=
  minimalForBlockingSetLoop f (elems blockingSet) blockedSet

/-- `is_minimal_for_blocking_set` (src/analysis/blocking_sets.rs:168-172). The code computes
`blocked_set` but then passes `blocking_set` a second time instead of it. -/
def isMinimalForBlockingSet (f : Fbas) (blockingSet : NodeSet) : Bool :=
  isMinimalForBlockingSetPre f blockingSet blockingSet

/-- The `&mut` arguments of `minimal_blocking_sets_finder_step`. -/
structure MbState where
  unprocessed : List NodeId
  selection : NodeSet
  remaining : NodeSet
  maxRemaining : NodeSet
  found : List NodeSet

/-- `minimal_blocking_sets_finder_step` (src/analysis/blocking_sets.rs:66-114). -/
def mbStep (f : Fbas) : ℕ → Bool → MbState → MbState
  | 0, _, st => st
  | fuel + 1, selectionChanged, st =>
    if selectionChanged && isBlockedSet f st.remaining then
      if isMinimalForBlockingSetPre f st.selection st.remaining then
        { st with found := st.found ++ [st.selection] }
      else st
    else
      match st.unprocessed with
      | [] => st
      | x :: rest =>
        let st := { st with
          unprocessed := rest
          selection := insert x st.selection
          remaining := st.remaining.erase x }
        let st := mbStep f fuel true st
        let st := { st with
          selection := st.selection.erase x
          remaining := insert x st.remaining
          maxRemaining := insert x st.maxRemaining }
        let st := if isBlockedSet f st.maxRemaining then mbStep f fuel false st else st
        { st with
          unprocessed := x :: st.unprocessed
          maxRemaining := st.maxRemaining.erase x }

namespace QuorumSet

/-- `blocking_threshold` (src/analysis/blocking_sets.rs:159-165). -/
def blockingThreshold (q : QuorumSet) : ℕ :=
  if q.validators.length + q.inner.length ≥ q.threshold then
    q.validators.length + q.inner.length - q.threshold + 1
  else 0

mutual
/-- `to_blocking_sets` (src/analysis/blocking_sets.rs:128-158). -/
def toBlockingSets : QuorumSet → List NodeSet
  | ⟨t, vs, qs⟩ =>
    combineGroups (blockingThreshold ⟨t, vs, qs⟩)
      (vs.map (fun v => [({v} : NodeSet)]) ++ toBlockingSetsList qs)
/-- `inner_quorum_sets.iter().map(|qset| qset.to_blocking_sets())` (lines 135-139). -/
def toBlockingSetsList : List QuorumSet → List (List NodeSet)
  | [] => []
  | q :: qs => toBlockingSets q :: toBlockingSetsList qs
end

/-- `to_minimal_blocking_sets` (src/analysis/blocking_sets.rs:118-125). -/
def toMinimalBlockingSets (q : QuorumSet) (f : Fbas) : List NodeSet :=
  let blockingSets := q.toBlockingSets
  if q.containsDuplicates then removeNonMinimalX blockingSets (isMinimalForBlockingSet f)
  else blockingSets

end QuorumSet

/-- The loop over the clusters in `minimal_blocking_sets_finder`
(src/analysis/blocking_sets.rs:17-51), with `found_blocking_sets_per_cluster` as state. -/
def minimalBlockingSetsPerCluster (env : Env) (f : Fbas) :
    List NodeSet → List (List NodeSet) → Except Panic (List (List NodeSet))
  | [], found => .ok found
  | nodes :: clusters, found =>
    match findSymmetricClusterInConsensusCluster f nodes with
    | .error e => .error e
    | .ok (some q) => minimalBlockingSetsPerCluster env f clusters (found ++ [q.toMinimalBlockingSets f])
    | .ok none =>
      let unprocessed := env.rank f (elems nodes)
      let st := mbStep f (unprocessed.length + 1) true
        { unprocessed, selection := ∅, remaining := ofList unprocessed, maxRemaining := ∅, found := [] }
      minimalBlockingSetsPerCluster env f clusters (found ++ [st.found])

/-- `minimal_blocking_sets_finder` (src/analysis/blocking_sets.rs:16-65). -/
def minimalBlockingSetsFinder (env : Env) (clusters : List NodeSet) (f : Fbas) :
    Except Panic (List NodeSet) :=
  match minimalBlockingSetsPerCluster env f clusters [] with
  | .error e => .error e
  | .ok perCluster => .ok ((multiCartesianProduct perCluster).map unionAll)

/-- `find_minimal_blocking_sets` (src/analysis/blocking_sets.rs:6-14). -/
def findMinimalBlockingSets (env : Env) (f : Fbas) : Except Panic (List NodeSet) :=
  findMinimalSets env f (minimalBlockingSetsFinder env)

end FA
