import Verif.Model.Preprocessing

/-!
# Operations on lists of node sets: src/analysis/sets.rs
-/

namespace FA

/-- `involved_nodes` (src/analysis/sets.rs:17-23). -/
def involvedNodes (nodeSets : List NodeSet) : NodeSet := unionAll nodeSets

/-- The slow check of `all_intersect` (src/analysis/sets.rs:9-13): every set is compared with all
later ones. -/
def allIntersectSlow : List NodeSet → Bool
  | [] => true
  | x :: xs => xs.all (fun y => !decide (Disjoint x y)) && allIntersectSlow xs

/-- `all_intersect` (src/analysis/sets.rs:3-15). -/
def allIntersect (nodeSets : List NodeSet) : Bool :=
  let maxSize := (involvedNodes nodeSets).card
  if nodeSets.all (fun x => decide (x.card > maxSize / 2)) then true
  else allIntersectSlow nodeSets

/-- `Vec::dedup`: removes consecutive equal elements. -/
def dedupAdj : List NodeSet → List NodeSet
  | [] => []
  | [x] => [x]
  | x :: y :: l => if x = y then dedupAdj (y :: l) else x :: dedupAdj (y :: l)

/-- The maximum of a list of numbers, 0 if empty (`.max().unwrap_or(0)`). -/
def maxD (l : List ℕ) : ℕ := l.foldl max 0

/-- Sorting node sets into buckets by size (src/analysis/sets.rs:85-88):
`buckets_by_len[node_set.len()].push(node_set)`. -/
def intoBuckets (nodeSets : List NodeSet) (buckets : List (List NodeSet)) : List (List NodeSet) :=
  nodeSets.foldl (fun bs s => bs.modify s.card (fun b => b ++ [s])) buckets

/-- `remove_non_minimal_node_sets_from_buckets` (src/analysis/sets.rs:134-156): the state is
`minimal_node_sets`; within a bucket, survivors are collected separately and appended afterwards. -/
def minimalFromBuckets (buckets : List (List NodeSet)) : List NodeSet :=
  buckets.foldl (fun minimal bucket =>
    minimal ++ bucket.filter (fun s => minimal.all (fun x => !decide (x ⊆ s)))) []

/-- `remove_non_minimal_node_sets` (src/analysis/sets.rs:77-99). -/
def removeNonMinimalNodeSets (nodeSets : List NodeSet) : List NodeSet :=
  let nodeSets := dedupAdj (sortLex nodeSets)
  let maxLenUpperBound := maxD (nodeSets.map Finset.card) + 1
  minimalFromBuckets (intoBuckets nodeSets (List.replicate maxLenUpperBound []))

/-- `remove_non_minimal_x` (src/analysis/sets.rs:101-123). -/
def removeNonMinimalX (nodeSets : List NodeSet) (isMinimal : NodeSet → Bool) : List NodeSet :=
  nodeSets.foldl (fun minimal s => if isMinimal s then minimal ++ [s] else minimal) []

/-- The consensus clusters computed by `find_sets` (src/analysis/sets.rs:41-66): strongly connected
components of the satisfiable nodes that contain a quorum. -/
def consensusClusters (env : Env) (f : Fbas) : List NodeSet :=
  let allNodes := ofList (List.range f.nodes.length)
  let satisfiable := (f.findSatisfiableNodes allNodes).1
  (f.partitionIntoSccs env satisfiable).filter (fun s => f.containsQuorum s)

/-- `find_sets` (src/analysis/sets.rs:37-74). -/
def findSets {R : Type} (env : Env) (f : Fbas)
    (finder : List NodeSet → Fbas → Except Panic (List R)) : Except Panic (List R) :=
  finder (consensusClusters env f) f

/-- `find_minimal_sets` (src/analysis/sets.rs:26-35); the `debug_assert` is ignored. -/
def findMinimalSets (env : Env) (f : Fbas)
    (finder : List NodeSet → Fbas → Except Panic (List NodeSet)) : Except Panic (List NodeSet) :=
  match findSets env f finder with
  | .error e => .error e
  | .ok sets => .ok (sortLen (sortLex sets))

end FA
