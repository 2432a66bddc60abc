import Verif.Model.QuorumSet

/-!
# FBASs: src/core_types/fbas.rs
-/

namespace FA

/-- `PublicKey` (src/core_types/mod.rs:13). -/
abbrev PublicKey := String

/-- `struct Node` (src/core_types/fbas.rs:135-139). -/
structure Node where
  publicKey : PublicKey
  quorumSet : QuorumSet
deriving DecidableEq

/-- `Node::new` (src/core_types/fbas.rs:141-147). -/
def Node.new (publicKey : PublicKey) : Node := ⟨publicKey, QuorumSet.empty⟩

/-- A `HashMap<K, V>` as an association list; the first binding of a key counts. -/
abbrev Map (K V : Type) := List (K × V)

/-- `HashMap::get`. -/
def Map.get? {K V : Type} [DecidableEq K] (m : Map K V) (k : K) : Option V :=
  (m.find? (fun p => decide (p.1 = k))).map Prod.snd

/-- `HashMap::insert` (without the returned old value). -/
def Map.insert {K V : Type} [DecidableEq K] (m : Map K V) (k : K) (v : V) : Map K V :=
  (k, v) :: m.filter (fun p => decide (p.1 ≠ k))

/-- Collecting an iterator of pairs into a `HashMap`: later pairs overwrite earlier ones. -/
def Map.collect {K V : Type} [DecidableEq K] (l : List (K × V)) : Map K V :=
  l.foldl (fun m p => Map.insert m p.1 p.2) []

/-- `struct Fbas` (src/core_types/fbas.rs:48-52). -/
structure Fbas where
  nodes : List Node
  pkToId : Map PublicKey NodeId

namespace Fbas

/-- `Fbas::new` (src/core_types/fbas.rs:55-60). -/
def new : Fbas := ⟨[], []⟩

/-- `generate_generic_node_name` (src/core_types/fbas.rs:153-155). -/
def genericNodeName (nodeId : NodeId) : String := "n" ++ toString nodeId

/-- `add_node` (src/core_types/fbas.rs:69-80); panics on a duplicate public key. -/
def addNode (f : Fbas) (node : Node) : Except Panic (NodeId × Fbas) :=
  let nodeId := f.nodes.length
  match f.pkToId.get? node.publicKey with
  | some _ => .error .explicit
  | none => .ok (nodeId, ⟨f.nodes ++ [node], f.pkToId.insert node.publicKey nodeId⟩)

/-- `add_generic_node` (src/core_types/fbas.rs:82-89). -/
def addGenericNode (f : Fbas) (quorumSet : QuorumSet) : Except Panic (NodeId × Fbas) :=
  f.addNode ⟨genericNodeName f.nodes.length, quorumSet⟩

/-- The loop of `new_generic_unconfigured` (src/core_types/fbas.rs:62-68). -/
def addGenericUnconfigured : ℕ → Fbas → Except Panic Fbas
  | 0, f => .ok f
  | k + 1, f =>
    match f.addGenericNode QuorumSet.empty with
    | .error e => .error e
    | .ok (_, f') => addGenericUnconfigured k f'

/-- `new_generic_unconfigured` (src/core_types/fbas.rs:62-68). -/
def newGenericUnconfigured (n : ℕ) : Except Panic Fbas := addGenericUnconfigured n new

/-- `get_node_id` (src/core_types/fbas.rs:90-92). -/
def getNodeId (f : Fbas) (publicKey : String) : Option NodeId := f.pkToId.get? publicKey

/-- `get_quorum_set` (src/core_types/fbas.rs:93-95). -/
def getQuorumSet (f : Fbas) (nodeId : NodeId) : Option QuorumSet :=
  (f.nodes[nodeId]?).map Node.quorumSet

/-- `swap_quorum_set` (src/core_types/fbas.rs:96-99); panics if the node does not exist. Returns
the old quorum set and the updated FBAS. -/
def swapQuorumSet (f : Fbas) (nodeId : NodeId) (quorumSet : QuorumSet) :
    Except Panic (QuorumSet × Fbas) :=
  match f.nodes[nodeId]? with
  | none => .error .outOfBounds
  | some node =>
    .ok (node.quorumSet, { f with nodes := f.nodes.set nodeId { node with quorumSet } })

/-- `number_of_nodes` (src/core_types/fbas.rs:100-102). -/
def numberOfNodes (f : Fbas) : ℕ := f.nodes.length

/-- `all_nodes` (src/core_types/fbas.rs:103-105). -/
def allNodes (f : Fbas) : NodeSet := Finset.range f.nodes.length

/-- The quorum set of node `x`, i.e. `fbas.nodes[x].quorum_set`. The Rust code panics if `x` does not
exist; here the empty quorum set is used instead (it has no slices). -/
def qset (f : Fbas) (x : NodeId) : QuorumSet :=
  match f.nodes[x]? with
  | some node => node.quorumSet
  | none => QuorumSet.empty

/-- `fbas.nodes[x].is_quorum_slice(node_set)` (src/core_types/fbas.rs:148-150). -/
def nodeIsQuorumSlice (f : Fbas) (x : NodeId) (S : NodeSet) : Bool := (f.qset x).isQuorumSlice S

/-- `is_quorum` (src/core_types/fbas.rs:106-111). -/
def isQuorum (f : Fbas) (S : NodeSet) : Bool :=
  !decide (S = ∅) && (elems S).all (fun x => f.nodeIsQuorumSlice x S)

end Fbas
end FA
