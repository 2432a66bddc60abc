import Verif.Model.Results

/-!
# Groupings and merging by group: src/core_types/groupings.rs, src/analysis/merge_by_group.rs, the
parts of src/core_types/shrinking.rs, src/analysis/results.rs and src/io/results.rs that use groupings
-/

namespace FA

/-- `struct Grouping` (src/core_types/groupings.rs:14-18). -/
structure Grouping where
  name : String
  validators : List NodeId
deriving DecidableEq, Repr

/-- `struct Groupings` (src/core_types/groupings.rs:6-13). The reference to the FBAS is passed to the
functions that use it instead of being stored. -/
structure Groupings where
  groupings : List Grouping
  mergedIds : List NodeId
  nodeIdToOrgIdx : Map NodeId ℕ
deriving DecidableEq

namespace Groupings

/-- The inner loop of `Groupings::new` (src/core_types/groupings.rs:28-31): the remaining validators of
one group; `merged_ids[validator] = merged_id` panics for a validator that does not exist. -/
def newLoop (mergedId orgIdx : ℕ) :
    List NodeId → List NodeId × Map NodeId ℕ → Except Panic (List NodeId × Map NodeId ℕ)
  | [], st => .ok st
  | v :: vs, (merged, idx) =>
    if v < merged.length then
      newLoop mergedId orgIdx vs (merged.set v mergedId, idx.insert v orgIdx)
    else .error .outOfBounds

/-- The outer loop of `Groupings::new` (src/core_types/groupings.rs:24-33), starting with the group
with index `orgIdx`. -/
def newGroups (orgIdx : ℕ) :
    List Grouping → List NodeId × Map NodeId ℕ → Except Panic (List NodeId × Map NodeId ℕ)
  | [], st => .ok st
  | org :: orgs, (merged, idx) =>
    match org.validators with
    | [] => newGroups (orgIdx + 1) orgs (merged, idx)
    | mergedId :: vs =>
      match newLoop mergedId orgIdx vs (merged, idx.insert mergedId orgIdx) with
      | .error e => .error e
      | .ok st => newGroups (orgIdx + 1) orgs st

/-- `Groupings::new` (src/core_types/groupings.rs:20-40). -/
def new (groupings : List Grouping) (f : Fbas) : Except Panic Groupings :=
  match newGroups 0 groupings (List.range f.nodes.length, []) with
  | .error e => .error e
  | .ok (merged, idx) => .ok ⟨groupings, merged, idx⟩

/-- `get_by_member` (src/core_types/groupings.rs:41-47); indexing may panic. -/
def getByMember (g : Groupings) (nodeId : NodeId) : Except Panic (Option Grouping) :=
  match g.nodeIdToOrgIdx.get? nodeId with
  | some orgIdx =>
    match g.groupings[orgIdx]? with
    | some org => .ok (some org)
    | none => .error .outOfBounds
  | none => .ok none

/-- `get_by_name` (src/core_types/groupings.rs:48-50). -/
def getByName (g : Groupings) (name : String) : Option Grouping :=
  g.groupings.find? (fun org => decide (org.name = name))

/-- `number_of_groupings` (src/core_types/groupings.rs:51-53). -/
def numberOfGroupings (g : Groupings) : ℕ := g.groupings.length

/-- `merge_node` (src/analysis/merge_by_group.rs:5-7); indexing may panic. -/
def mergeNode (g : Groupings) (nodeId : NodeId) : Except Panic NodeId :=
  match g.mergedIds[nodeId]? with
  | some m => .ok m
  | none => .error .outOfBounds

/-- `merge_node_set` (src/analysis/merge_by_group.rs:9-11). -/
def mergeNodeSet (g : Groupings) (s : NodeSet) : Except Panic NodeSet :=
  match mapE g.mergeNode (elems s) with
  | .error e => .error e
  | .ok l => .ok (ofList l)

/-- `merge_node_sets` (src/analysis/merge_by_group.rs:13-18). -/
def mergeNodeSets (g : Groupings) (l : List NodeSet) : Except Panic (List NodeSet) :=
  mapE g.mergeNodeSet l

/-- `merge_minimal_node_sets` (src/analysis/merge_by_group.rs:21-23). -/
def mergeMinimalNodeSets (g : Groupings) (l : List NodeSet) : Except Panic (List NodeSet) :=
  match g.mergeNodeSets l with
  | .error e => .error e
  | .ok l => .ok (removeNonMinimalNodeSets l)

/-- The end of `merge_quorum_set` (src/analysis/merge_by_group.rs:34-55), given the merged validators
and the merged inner quorum sets. `q.validators[0]` (line 45) cannot fail, as the partition (line 40)
selects the sets with exactly one validator. -/
def mergeFinish (t : ℕ) (vs : List NodeId) (qs : List QuorumSet) : QuorumSet :=
  let candidates := qs.filter (fun q => q.validators.length == 1)
  let inner := qs.filter (fun q => !(q.validators.length == 1))
  let vs := vs ++ candidates.flatMap (fun q => q.validators.take 1)
  match vs with
  | [] => ⟨t, vs, inner⟩
  | v :: _ => if vs.all (fun x => decide (x = v)) then ⟨1, [v], inner⟩ else ⟨t, vs, inner⟩

mutual
/-- `merge_quorum_set` (src/analysis/merge_by_group.rs:26-55). -/
def mergeQuorumSet (g : Groupings) : QuorumSet → Except Panic QuorumSet
  | ⟨t, vs, qs⟩ =>
    match mapE g.mergeNode vs with
    | .error e => .error e
    | .ok vs' =>
      match mergeQuorumSets g qs with
      | .error e => .error e
      | .ok qs' => .ok (mergeFinish t vs' qs')
/-- `merge_quorum_sets` (src/analysis/merge_by_group.rs:57-62); also the `map` over the inner quorum
sets (lines 36-39). -/
def mergeQuorumSets (g : Groupings) : List QuorumSet → Except Panic (List QuorumSet)
  | [] => .ok []
  | q :: qs =>
    match mergeQuorumSet g q with
    | .error e => .error e
    | .ok q' =>
      match mergeQuorumSets g qs with
      | .error e => .error e
      | .ok qs' => .ok (q' :: qs')
end

end Groupings

/-- `Grouping::shrunken` (src/core_types/shrinking.rs:154-167). -/
def Grouping.shrunken (m : Map NodeId NodeId) (org : Grouping) : Grouping :=
  ⟨org.name, sortIds (org.validators.filterMap m.get?)⟩

/-- `Groupings::shrunken` (src/core_types/shrinking.rs:139-151). -/
def Groupings.shrunken (orgs : Groupings) (sm : ShrinkManager) (shrunkenFbas : Fbas) :
    Except Panic Groupings :=
  Groupings.new (orgs.groupings.map (Grouping.shrunken sm.shrinkMap)) shrunkenFbas

/-- `from_public_keys` (src/analysis/results.rs:182-184). -/
def fromPublicKeys (names : List String) (f : Fbas) : List NodeId := names.filterMap f.getNodeId

/-- `from_grouping_names` (src/analysis/results.rs:185-200). -/
def fromGroupingNames (names : List String) (f : Fbas) (g : Groupings) : List NodeId :=
  (names.map (fun name =>
    match g.getByName name with
    | some org => org.validators
    | none =>
      match f.getNodeId name with
      | some nodeId => [nodeId]
      | none => [])).flatten

/-- The choice made by `without_nodes_pretty` (src/analysis/results.rs:47-51, 166-170). -/
def fromPretty (names : List String) (f : Fbas) (g : Option Groupings) : List NodeId :=
  match g with
  | some g => fromGroupingNames names f g
  | none => fromPublicKeys names f

/-- `to_public_keys` (src/io/results.rs:195-201); indexing may panic. -/
def toPublicKeys (ids : List NodeId) (f : Fbas) : Except Panic (List PublicKey) :=
  mapE (fun id =>
    match f.nodes[id]? with
    | some node => .ok node.publicKey
    | none => .error .outOfBounds) ids

/-- `to_grouping_names` (src/io/results.rs:202-215); indexing may panic. -/
def toGroupingNames (ids : List NodeId) (f : Fbas) (g : Groupings) :
    Except Panic (List PublicKey) :=
  mapE (fun id =>
    match g.getByMember id with
    | .error e => .error e
    | .ok (some org) => .ok org.name
    | .ok none =>
      match f.nodes[id]? with
      | some node => .ok node.publicKey
      | none => .error .outOfBounds) ids

namespace SetResult

/-- `without_nodes_pretty` (src/analysis/results.rs:41-53). -/
def withoutNodesPretty (r : SetResult) (names : List String) (f : Fbas) (g : Option Groupings) :
    SetResult :=
  r.withoutNodes (fromPretty names f g)

/-- `merged_by_group` (src/analysis/results.rs:55-59). -/
def mergedByGroup (r : SetResult) (g : Groupings) : Except Panic SetResult :=
  match g.mergeNodeSet r.nodeSet with
  | .error e => .error e
  | .ok s => .ok ⟨s⟩

/-- `into_pretty_vec` (src/io/results.rs:159-165). -/
def intoPrettyVec (r : SetResult) (f : Fbas) (g : Option Groupings) :
    Except Panic (List PublicKey) :=
  match g with
  | some g => toGroupingNames (elems r.unwrap) f g
  | none => toPublicKeys (elems r.unwrap) f

end SetResult

namespace SetVecResult

/-- `merged_by_group` (src/analysis/results.rs:140-145). -/
def mergedByGroup (r : SetVecResult) (g : Groupings) : Except Panic SetVecResult :=
  match r.unshrink with
  | .error e => .error e
  | .ok r' =>
    match g.mergeNodeSets r'.nodeSets with
    | .error e => .error e
    | .ok l => .ok { r' with nodeSets := l }

/-- `without_nodes_pretty` (src/analysis/results.rs:161-173). -/
def withoutNodesPretty (r : SetVecResult) (names : List String) (f : Fbas) (g : Option Groupings) :
    Except Panic SetVecResult :=
  r.withoutNodes (fromPretty names f g)

/-- `into_pretty_vec_vec` (src/io/results.rs:172-192). -/
def intoPrettyVecVec (r : SetVecResult) (f : Fbas) (g : Option Groupings) :
    Except Panic (List (List PublicKey)) :=
  mapE (fun s =>
    match r.unshrinkTable with
    | some table =>
      match unshrinkSet table s with
      | .error e => .error e
      | .ok s' => (SetResult.mk s').intoPrettyVec f g
    | none => (SetResult.mk s).intoPrettyVec f g) r.nodeSets

end SetVecResult
end FA
