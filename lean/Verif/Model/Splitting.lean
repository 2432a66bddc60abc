import Verif.Model.Blocking

/-!
# Minimal splitting sets: src/analysis/splitting_sets.rs
-/

namespace FA
namespace QuorumSet

/-- `splitting_threshold` (src/analysis/splitting_sets.rs:204-210). -/
def splittingThreshold (q : QuorumSet) : ℕ :=
  if 2 * q.threshold > q.validators.length + q.inner.length then
    2 * q.threshold - (q.validators.length + q.inner.length)
  else 0

mutual
/-- `QuorumSet::is_slice_intersection` (src/analysis/splitting_sets.rs:134-154). -/
def isSliceIntersection (S : NodeSet) : QuorumSet → Bool
  | ⟨t, vs, qs⟩ =>
    let st := splittingThreshold ⟨t, vs, qs⟩
    if st = 0 then true -- everything is splitting what is already split
    else
      let foundValidatorMatches := ((vs.filter (fun x => decide (x ∈ S))).take st).length
      let foundInnerQuorumSetMatches :=
        ((filterSliceIntersections S qs).take (st - foundValidatorMatches)).length
      foundValidatorMatches + foundInnerQuorumSetMatches == st
/-- `inner_quorum_sets.iter().filter(|x| x.is_slice_intersection(node_set))` (lines 145-147). -/
def filterSliceIntersections (S : NodeSet) : List QuorumSet → List QuorumSet
  | [] => []
  | q :: qs =>
    if isSliceIntersection S q then q :: filterSliceIntersections S qs
    else filterSliceIntersections S qs
end

/-- The check "to see if we aren't really a 1-quorum quorum set"
(src/analysis/splitting_sets.rs:196-202). -/
def dropIfOneQuorum (q : QuorumSet) (potential : List NodeSet) : List NodeSet :=
  match potential with
  | [s] => if q.isQuorumSlice s then [] else [s]
  | l => l

mutual
/-- `to_splitting_sets` (src/analysis/splitting_sets.rs:166-203). -/
def toSplittingSets : QuorumSet → List NodeSet
  | ⟨t, vs, qs⟩ =>
    dropIfOneQuorum ⟨t, vs, qs⟩
      (combineGroups (splittingThreshold ⟨t, vs, qs⟩)
        (vs.map (fun v => [({v} : NodeSet)]) ++ toSplittingSetsList qs))
/-- `inner_quorum_sets.iter().map(|qset| qset.to_splitting_sets())` (lines 173-177). -/
def toSplittingSetsList : List QuorumSet → List (List NodeSet)
  | [] => []
  | q :: qs => toSplittingSets q :: toSplittingSetsList qs
end

/-- `to_minimal_splitting_sets` (src/analysis/splitting_sets.rs:156-163). -/
def toMinimalSplittingSets (q : QuorumSet) : List NodeSet :=
  let splittingSets := q.toSplittingSets
  if q.containsDuplicates then removeNonMinimalNodeSets splittingSets else splittingSets

end QuorumSet

/-- `has_potential` (src/analysis/splitting_sets.rs:224-228), with `Node::is_slice_intersection`
(lines 128-132). -/
def hasPotential (f : Fbas) (selection available : NodeSet) : Bool :=
  (elems selection).all (fun x => (f.qset x).isSliceIntersection available)

/-- `is_quorum_intersection` (src/analysis/splitting_sets.rs:213-221). -/
def isQuorumIntersection (f : Fbas) (selection : NodeSet) (relevantQuorumParts : List NodeSet) :
    Bool :=
  !decide (selection = ∅) && hasPotential f selection selection
    && !allIntersect relevantQuorumParts

/-- The `&mut` arguments of `splitting_sets_finder_step`. -/
structure MsState where
  unprocessed : List NodeId
  selection : NodeSet
  available : NodeSet
  found : List NodeSet

/-- `splitting_sets_finder_step` (src/analysis/splitting_sets.rs:65-126). -/
def msStep (f : Fbas) : ℕ → List NodeSet → Bool → MsState → MsState
  | 0, _, _, st => st
  | fuel + 1, parts, selectionChanged, st =>
    if parts.length < 2 then st
    else if selectionChanged && isQuorumIntersection f st.selection parts then
      { st with found := st.found ++ [st.selection] }
    else
      match st.unprocessed with
      | [] => st
      | x :: rest =>
        let st := { st with unprocessed := rest, selection := insert x st.selection }
        let partsWithSelect :=
          (parts.filter (fun q => decide (x ∈ q))).map (fun q => q.erase x)
        let st := msStep f fuel partsWithSelect true st
        let st := { st with selection := st.selection.erase x, available := st.available.erase x }
        let partsForAvailable := parts.filter (fun (q : NodeSet) => !decide (Disjoint q st.available))
        let st :=
          if hasPotential f st.selection st.available
          then msStep f fuel partsForAvailable false st else st
        { st with unprocessed := x :: st.unprocessed, available := insert x st.available }

/-- The loop over the clusters in `minimal_splitting_sets_finder`
(src/analysis/splitting_sets.rs:24-63), with `found_splitting_sets` as state. -/
def minimalSplittingSetsFinderLoop (env : Env) (f : Fbas) (minimalQuorums : List NodeSet) :
    List NodeSet → List NodeSet → Except Panic (List NodeSet)
  | [], found => .ok found
  | nodes :: clusters, found =>
    match findSymmetricClusterInConsensusCluster f nodes with
    | .error e => .error e
    | .ok (some q) =>
      minimalSplittingSetsFinderLoop env f minimalQuorums clusters (found ++ q.toMinimalSplittingSets)
    | .ok none =>
      let unprocessed := env.rank f (elems nodes)
      let st := msStep f (unprocessed.length + 1) minimalQuorums true
        { unprocessed, selection := ∅, available := ofList unprocessed, found := [] }
      minimalSplittingSetsFinderLoop env f minimalQuorums clusters
        (found ++ removeNonMinimalNodeSets st.found)

/-- `minimal_splitting_sets_finder` (src/analysis/splitting_sets.rs:19-64). -/
def minimalSplittingSetsFinder (env : Env) (minimalQuorums : List NodeSet)
    (clusters : List NodeSet) (f : Fbas) : Except Panic (List NodeSet) :=
  minimalSplittingSetsFinderLoop env f minimalQuorums clusters []

/-- `find_minimal_splitting_sets` (src/analysis/splitting_sets.rs:7-17). -/
def findMinimalSplittingSets (env : Env) (f : Fbas) (minimalQuorums : List NodeSet) :
    Except Panic (List NodeSet) :=
  findMinimalSets env f (minimalSplittingSetsFinder env minimalQuorums)

end FA
