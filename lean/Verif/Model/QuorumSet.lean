import Verif.Model.Base

/-!
# Quorum sets: src/core_types/quorum_set.rs
-/

namespace FA

/-- `struct QuorumSet` (src/core_types/quorum_set.rs:4-12). -/
structure QuorumSet where
  threshold : ℕ
  validators : List NodeId
  inner : List QuorumSet
deriving Repr

namespace QuorumSet

/-- `QuorumSet::new` (src/core_types/quorum_set.rs:14-20). -/
def empty : QuorumSet := ⟨0, [], []⟩

/-! Derived equality (src/core_types/quorum_set.rs:4, `Eq`, `PartialEq`). -/

mutual
/-- Decidable equality of quorum sets. -/
def decEq : (a b : QuorumSet) → Decidable (a = b)
  | ⟨t, vs, qs⟩, ⟨t', vs', qs'⟩ =>
    if ht : t = t' then
      if hv : vs = vs' then
        match decEqList qs qs' with
        | isTrue hq => isTrue (by rw [ht, hv, hq])
        | isFalse hq => isFalse (by intro h; injection h; contradiction)
      else isFalse (by intro h; injection h; contradiction)
    else isFalse (by intro h; injection h; contradiction)
/-- Decidable equality of lists of quorum sets. -/
def decEqList : (a b : List QuorumSet) → Decidable (a = b)
  | [], [] => isTrue rfl
  | [], _ :: _ => isFalse (by intro h; cases h)
  | _ :: _, [] => isFalse (by intro h; cases h)
  | q :: qs, q' :: qs' =>
    match decEq q q' with
    | isTrue h1 =>
      match decEqList qs qs' with
      | isTrue h2 => isTrue (by rw [h1, h2])
      | isFalse h2 => isFalse (by intro h; injection h; contradiction)
    | isFalse h1 => isFalse (by intro h; injection h; contradiction)
end

instance : DecidableEq QuorumSet := decEq

mutual
/-- `derive(Ord)` on `QuorumSet` (src/core_types/quorum_set.rs:4): lexicographic in the field order
threshold, validators, inner quorum sets. -/
def cmp : QuorumSet → QuorumSet → Ordering
  | ⟨t, vs, qs⟩, ⟨t', vs', qs'⟩ =>
    (compare t t').then ((cmpIds vs vs').then (cmpList qs qs'))
/-- Lexicographic comparison of `Vec<QuorumSet>`. -/
def cmpList : List QuorumSet → List QuorumSet → Ordering
  | [], [] => .eq
  | [], _ :: _ => .lt
  | _ :: _, [] => .gt
  | q :: qs, q' :: qs' => (cmp q q').then (cmpList qs qs')
/-- Lexicographic comparison of `Vec<NodeId>`. -/
def cmpIds : List NodeId → List NodeId → Ordering
  | [], [] => .eq
  | [], _ :: _ => .lt
  | _ :: _, [] => .gt
  | x :: xs, y :: ys => (compare x y).then (cmpIds xs ys)
end

/-- `a <= b` for the derived order. -/
def le (a b : QuorumSet) : Prop := cmp a b ≠ .gt

instance : DecidableRel le := fun a b => inferInstanceAs (Decidable (cmp a b ≠ .gt))

/-- `sort_unstable` on a `Vec<QuorumSet>`. -/
def sortQs (l : List QuorumSet) : List QuorumSet := l.insertionSort le

mutual
/-- `contained_nodes_with_duplicates` (src/core_types/quorum_set.rs:83-89). -/
def containedNodesWithDuplicates : QuorumSet → List NodeId
  | ⟨_, vs, qs⟩ => vs ++ containedNodesWithDuplicatesList qs
/-- The loop over the inner quorum sets (lines 85-87). -/
def containedNodesWithDuplicatesList : List QuorumSet → List NodeId
  | [] => []
  | q :: qs => containedNodesWithDuplicates q ++ containedNodesWithDuplicatesList qs
end

/-- `contained_nodes` (src/core_types/quorum_set.rs:21-23). -/
def containedNodes (q : QuorumSet) : NodeSet := ofList q.containedNodesWithDuplicates

/-- `contains_duplicates` (src/core_types/quorum_set.rs:25-29). -/
def containsDuplicates (q : QuorumSet) : Bool :=
  let nodesVec := q.containedNodesWithDuplicates
  let nodesSet := ofList nodesVec
  nodesVec.length != nodesSet.card

mutual
/-- `is_quorum_slice` (src/core_types/quorum_set.rs:30-49). -/
def isQuorumSlice (S : NodeSet) : QuorumSet → Bool
  | ⟨t, vs, qs⟩ =>
    if t = 0 then false -- badly configured quorum set
    else
      let foundValidatorMatches := ((vs.filter (fun x => decide (x ∈ S))).take t).length
      let foundInnerQuorumSetMatches :=
        ((filterSlices S qs).take (t - foundValidatorMatches)).length
      foundValidatorMatches + foundInnerQuorumSetMatches == t
/-- `inner_quorum_sets.iter().filter(|x| x.is_quorum_slice(node_set))` (lines 41-43). -/
def filterSlices (S : NodeSet) : List QuorumSet → List QuorumSet
  | [] => []
  | q :: qs => if isQuorumSlice S q then q :: filterSlices S qs else filterSlices S qs
end

/-- The shared tail of `to_quorum_slices`, `to_blocking_sets` and `to_splitting_sets`
(src/core_types/quorum_set.rs:64-81, src/analysis/blocking_sets.rs:140-157,
src/analysis/splitting_sets.rs:178-195): all unions of one member of each of `k` chosen groups. -/
def combineGroups (k : ℕ) (groups : List (List NodeSet)) : List NodeSet :=
  ((combinations k groups).map (fun groupCombination =>
    (multiCartesianProduct groupCombination).map unionAll)).flatten

mutual
/-- `to_quorum_slices` (src/core_types/quorum_set.rs:52-82). -/
def toQuorumSlices : QuorumSet → List NodeSet
  | ⟨t, vs, qs⟩ =>
    combineGroups t (vs.map (fun v => [({v} : NodeSet)]) ++ toQuorumSlicesList qs)
/-- `inner_quorum_sets.iter().map(|qset| qset.to_quorum_slices())` (lines 60-62). -/
def toQuorumSlicesList : List QuorumSet → List (List NodeSet)
  | [] => []
  | q :: qs => toQuorumSlices q :: toQuorumSlicesList qs
end

end QuorumSet
end FA
