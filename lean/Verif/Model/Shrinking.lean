import Verif.Model.Fbas

/-!
# ID shrinking: src/core_types/shrinking.rs (`Groupings::shrunken` is in `Model/Groupings.lean`)
-/

namespace FA

/-- `struct ShrinkManager` (src/core_types/shrinking.rs:6-10). -/
structure ShrinkManager where
  unshrinkTable : List NodeId
  shrinkMap : Map NodeId NodeId

/-- Free function `shrink_set` (src/core_types/shrinking.rs:58-64); `unwrap()` panics for unmapped
IDs. -/
def shrinkSet (m : Map NodeId NodeId) (s : NodeSet) : Except Panic NodeSet :=
  match mapE (fun id => match m.get? id with | some new => .ok new | none => .error .unwrapNone)
      (elems s) with
  | .error e => .error e
  | .ok l => .ok (ofList l)

/-- Free function `shrink_sets` (src/core_types/shrinking.rs:66-74). -/
def shrinkSets (m : Map NodeId NodeId) (l : List NodeSet) : Except Panic (List NodeSet) :=
  mapE (shrinkSet m) l

/-- Free function `unshrink_set` (src/core_types/shrinking.rs:76-78); indexing panics for unknown
IDs. -/
def unshrinkSet (table : List NodeId) (s : NodeSet) : Except Panic NodeSet :=
  match mapE (fun id => match table[id]? with | some old => .ok old | none => .error .outOfBounds)
      (elems s) with
  | .error e => .error e
  | .ok l => .ok (ofList l)

/-- Free function `unshrink_sets` (src/core_types/shrinking.rs:80-85). -/
def unshrinkSets (table : List NodeId) (l : List NodeSet) : Except Panic (List NodeSet) :=
  mapE (unshrinkSet table) l

namespace ShrinkManager

/-- `ShrinkManager::new` (src/core_types/shrinking.rs:12-23). -/
def new (idsToKeep : NodeSet) : ShrinkManager :=
  ⟨elems idsToKeep, Map.collect (elems idsToKeep).zipIdx⟩

/-- The map built by `reshrink_sets` (src/core_types/shrinking.rs:41-50): current shrunken ID to new
shrunken ID. -/
def reshrinkMap (sm old : ShrinkManager) : Map NodeId NodeId :=
  Map.collect (old.unshrinkTable.zipIdx.filterMap (fun p =>
    (sm.shrinkMap.get? p.1).map (fun newId => (p.2, newId))))

/-- `reshrink_sets` (src/core_types/shrinking.rs:36-52). -/
def reshrinkSets (sm : ShrinkManager) (nodeSets : List NodeSet) (old : ShrinkManager) :
    Except Panic (List NodeSet) :=
  FA.shrinkSets (sm.reshrinkMap old) nodeSets

end ShrinkManager

namespace QuorumSet

mutual
/-- `QuorumSet::shrunken` (src/core_types/shrinking.rs:111-136). -/
def shrunken (m : Map NodeId NodeId) : QuorumSet → QuorumSet
  | ⟨t, vs, qs⟩ => ⟨t, sortIds (vs.filterMap m.get?), sortQs (shrunkenList m qs)⟩
/-- The loop over the inner quorum sets (src/core_types/shrinking.rs:120-125). -/
def shrunkenList (m : Map NodeId NodeId) : List QuorumSet → List QuorumSet
  | [] => []
  | q :: qs =>
    if shrunken m q ≠ QuorumSet.empty then shrunken m q :: shrunkenList m qs
    else shrunkenList m qs
end

end QuorumSet

/-- `Node::shrunken` (src/core_types/shrinking.rs:103-108). -/
def Node.shrunken (m : Map NodeId NodeId) (node : Node) : Node :=
  ⟨node.publicKey, node.quorumSet.shrunken m⟩

namespace Fbas

/-- The loop of `Fbas::shrunken` (src/core_types/shrinking.rs:94-98) over the old IDs. -/
def shrunkenLoop (f : Fbas) (m : Map NodeId NodeId) : List NodeId → List Node →
    Except Panic (List Node)
  | [], nodes => .ok nodes
  | oldId :: rest, nodes =>
    match m.get? oldId with
    | none => shrunkenLoop f m rest nodes
    | some newId =>
      match f.nodes[oldId]? with
      | none => .error .outOfBounds
      | some node =>
        if newId < nodes.length then shrunkenLoop f m rest (nodes.set newId (node.shrunken m))
        else .error .outOfBounds

/-- `Fbas::shrunken` (src/core_types/shrinking.rs:88-100). Note that the public keys of the nodes are
replaced, but the map from public keys to IDs is the one of the generic FBAS. -/
def shrunken (f : Fbas) (idsToKeep : NodeSet) : Except Panic (Fbas × ShrinkManager) :=
  let sm := ShrinkManager.new idsToKeep
  match newGenericUnconfigured sm.unshrinkTable.length with
  | .error e => .error e
  | .ok g =>
    match f.shrunkenLoop sm.shrinkMap (List.range f.nodes.length) g.nodes with
    | .error e => .error e
    | .ok nodes => .ok (⟨nodes, g.pkToId⟩, sm)

end Fbas
end FA
