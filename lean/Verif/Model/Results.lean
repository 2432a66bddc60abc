import Verif.Model.Shrinking
import Verif.Model.Sets
import Mathlib.Data.Rat.Defs

/-!
# Results: src/analysis/results.rs (merging by group is in `Model/Groupings.lean`)
-/

namespace FA

/-- `struct NodeIdSetResult` (src/analysis/results.rs:5-7). -/
structure SetResult where
  nodeSet : NodeSet
deriving DecidableEq

namespace SetResult

/-- `NodeIdSetResult::new` (src/analysis/results.rs:9-17). -/
def new (nodeSet : NodeSet) (sm : Option ShrinkManager) : Except Panic SetResult :=
  match sm with
  | some sm =>
    match unshrinkSet sm.unshrinkTable nodeSet with
    | .error e => .error e
    | .ok s => .ok ⟨s⟩
  | none => .ok ⟨nodeSet⟩

/-- `unwrap` (src/analysis/results.rs:18-20). -/
def unwrap (r : SetResult) : NodeSet := r.nodeSet

/-- `into_vec` (src/analysis/results.rs:21-23). -/
def intoVec (r : SetResult) : List NodeId := elems r.unwrap

/-- `involved_nodes` (src/analysis/results.rs:24-26). -/
def involvedNodes (r : SetResult) : NodeSet := r.nodeSet

/-- `len` (src/analysis/results.rs:27-29). -/
def len (r : SetResult) : ℕ := r.nodeSet.card

/-- `without_nodes` (src/analysis/results.rs:33-39). -/
def withoutNodes (r : SetResult) (nodes : List NodeId) : SetResult :=
  ⟨nodes.foldl (fun s node => s.erase node) r.nodeSet⟩

end SetResult

/-- `struct NodeIdSetVecResult` (src/analysis/results.rs:62-66). -/
structure SetVecResult where
  nodeSets : List NodeSet
  unshrinkTable : Option (List NodeId)
deriving DecidableEq

namespace SetVecResult

/-- `NodeIdSetVecResult::new` (src/analysis/results.rs:68-73). -/
def new (nodeSets : List NodeSet) (sm : Option ShrinkManager) : SetVecResult :=
  ⟨nodeSets, sm.map ShrinkManager.unshrinkTable⟩

/-- `unshrink` (src/analysis/results.rs:174-179). -/
def unshrink (r : SetVecResult) : Except Panic SetVecResult :=
  match r.unshrinkTable with
  | some table =>
    match unshrinkSets table r.nodeSets with
    | .error e => .error e
    | .ok l => .ok ⟨l, none⟩
  | none => .ok ⟨r.nodeSets, none⟩

/-- `unwrap` (src/analysis/results.rs:74-77). -/
def unwrap (r : SetVecResult) : Except Panic (List NodeSet) :=
  match r.unshrink with
  | .error e => .error e
  | .ok r' => .ok r'.nodeSets

/-- `into_vec_vec` (src/analysis/results.rs:78-84). -/
def intoVecVec (r : SetVecResult) : Except Panic (List (List NodeId)) :=
  match r.unshrink with
  | .error e => .error e
  | .ok r' => .ok (r'.nodeSets.map elems)

/-- `involved_nodes` (src/analysis/results.rs:85-87). The sets are not unshrunken. -/
def involvedNodes (r : SetVecResult) : NodeSet := FA.involvedNodes r.nodeSets

/-- `len` (src/analysis/results.rs:88-90). -/
def len (r : SetVecResult) : ℕ := r.nodeSets.length

/-- `is_empty` (src/analysis/results.rs:91-93). -/
def isEmpty (r : SetVecResult) : Bool := r.nodeSets.isEmpty

/-- `contains_empty_set` (src/analysis/results.rs:94-96). -/
def containsEmptySet (r : SetVecResult) : Bool := decide (∅ ∈ r.nodeSets)

/-- `min` (src/analysis/results.rs:111-113): `.min().unwrap_or(0)`. -/
def min (r : SetVecResult) : ℕ :=
  match r.nodeSets.map Finset.card with
  | [] => 0
  | x :: xs => xs.foldl Min.min x

/-- `max` (src/analysis/results.rs:115-117): `.max().unwrap_or(0)`. -/
def max (r : SetVecResult) : ℕ :=
  match r.nodeSets.map Finset.card with
  | [] => 0
  | x :: xs => xs.foldl Max.max x

/-- `mean` (src/analysis/results.rs:119-126), as an exact rational number instead of `f64`. -/
def mean (r : SetVecResult) : ℚ :=
  if r.nodeSets.isEmpty then 0
  else ((r.nodeSets.map Finset.card).sum : ℚ) / (r.nodeSets.length : ℚ)

/-- The loop of `histogram` (src/analysis/results.rs:131-134); indexing may panic. -/
def histogramLoop : List NodeSet → List ℕ → Except Panic (List ℕ)
  | [], h => .ok h
  | s :: l, h =>
    match h[s.card]? with
    | none => .error .outOfBounds
    | some c => histogramLoop l (h.set s.card (c + 1))

/-- `histogram` (src/analysis/results.rs:128-136). -/
def histogram (r : SetVecResult) : Except Panic (List ℕ) :=
  histogramLoop r.nodeSets (List.replicate (r.max + 1) 0)

/-- `describe` (src/analysis/results.rs:98-105). -/
def describe (r : SetVecResult) : Except Panic (ℕ × ℕ × (ℕ × ℕ × ℚ) × List ℕ) :=
  match r.histogram with
  | .error e => .error e
  | .ok h => .ok (r.nodeSets.length, r.involvedNodes.card, (r.min, r.max, r.mean), h)

/-- `minimal_sets` (src/analysis/results.rs:147-151). The sets stay shrunken. -/
def minimalSets (r : SetVecResult) : SetVecResult :=
  { r with nodeSets := removeNonMinimalNodeSets r.nodeSets }

/-- `without_nodes` (src/analysis/results.rs:152-160). -/
def withoutNodes (r : SetVecResult) (nodes : List NodeId) : Except Panic SetVecResult :=
  match r.unshrink with
  | .error e => .error e
  | .ok r' => .ok { r' with nodeSets := r'.nodeSets.map (· \ ofList nodes) }

end SetVecResult
end FA
