import Verif.Model.Checked

/-!
# Node ranking with floating-point numbers: src/analysis/preprocessing.rs:18-21, 86-131

`Model/Checked.lean` contains the index accesses of these functions but leaves the order open; here the
scores are rounded after every operation and the comparisons are modelled, too.

An `f64` is a rational number, or `none` if it is not finite (infinite or NaN; the two are not
distinguished). `rnd` is the rounding of an exact result.
-/

namespace FA.Ranking
open FA

/-- `a + b` -/
def add (rnd : ℚ → Option ℚ) : Option ℚ → Option ℚ → Option ℚ
  | some a, some b => rnd (a + b)
  | _, _ => none

/-- `a / b` -/
def div (rnd : ℚ → Option ℚ) : Option ℚ → Option ℚ → Option ℚ
  | some a, some b => if b = 0 then none else rnd (a / b)
  | _, _ => none

/-- `scores[trusted_node_id] += last_scores[node_id] / l` (src/analysis/preprocessing.rs:109). -/
def addScore (rnd : ℚ → Option ℚ) (last : List (Option ℚ)) (nodeId : NodeId) (l : Option ℚ)
    (scores : List (Option ℚ)) (trusted : NodeId) : Except Panic (List (Option ℚ)) := do
  let s ← getE last nodeId
  modifyE scores trusted (fun x => add rnd x (div rnd s l))

/-- The loop over the nodes in `rank_nodes` (src/analysis/preprocessing.rs:100-111);
`trusted_nodes.len() as RankScore` rounds. -/
def rankNode (rnd : ℚ → Option ℚ) (f : Fbas) (nodesSet : NodeSet) (last scores : List (Option ℚ))
    (nodeId : NodeId) : Except Panic (List (Option ℚ)) := do
  let node ← getE f.nodes nodeId
  let trusted := node.quorumSet.containedNodes
  foldE (addScore rnd last nodeId (rnd trusted.card)) scores
    ((elems trusted).filter (fun id => decide (id ∈ nodesSet)))

/-- The outer loop of `rank_nodes` (src/analysis/preprocessing.rs:96-112), with the remaining number of
runs. -/
def rankLoop (rnd : ℚ → Option ℚ) (f : Fbas) (nodes : List NodeId) :
    ℕ → List (Option ℚ) → Except Panic (List (Option ℚ))
  | 0, scores => .ok scores
  | runs + 1, last => do
    let scores ← foldE (rankNode rnd f (ofList nodes) last)
      (List.replicate f.nodes.length (some 0)) nodes
    rankLoop rnd f nodes runs scores

/-- `rank_nodes` (src/analysis/preprocessing.rs:86-123; the log message is left out). -/
def rankNodes (rnd : ℚ → Option ℚ) (f : Fbas) (nodes : List NodeId) :
    Except Panic (List (Option ℚ)) :=
  if nodes.length = (ofList nodes).card then
    rankLoop rnd f nodes 100
      (List.replicate f.nodes.length (div rnd (some 1) (rnd nodes.length)))
  else .error .assertion

/-- `Fbas::rank_nodes` (src/analysis/preprocessing.rs:18-21). -/
def rankAllNodes (rnd : ℚ → Option ℚ) (f : Fbas) : Except Panic (List (Option ℚ)) :=
  rankNodes rnd f (List.range f.nodes.length)

/-- `scores[*x]` in a comparison (src/analysis/preprocessing.rs:129). Simplified: `partial_cmp` returns
`None` only for NaN, here also for infinite scores. -/
def scoreOf (scores : List (Option ℚ)) (x : NodeId) : Except Panic ℚ := do
  match ← getE scores x with
  | none => .error .unwrapNone
  | some s => .ok s

/-- `sort_by_rank` (src/analysis/preprocessing.rs:126-131). `sort_by` is a stable sort; it compares
every element if there are at least two. -/
def sortByRank (rnd : ℚ → Option ℚ) (f : Fbas) (nodes : List NodeId) :
    Except Panic (List NodeId) := do
  let scores ← rankNodes rnd f nodes
  if nodes.length ≤ 1 then .ok nodes
  else
    let keys ← mapE (scoreOf scores) nodes
    .ok (((nodes.zip keys).mergeSort (fun p q => decide (q.2 ≤ p.2))).map Prod.fst)

end FA.Ranking

namespace FA.F64

/-- Rounding of a positive number in IEEE 754 binary64 (`f64`): the last bit has at least the value
`2^-1074`; `none` if the result would be `2^1024` or more. -/
def finitePos (x : ℚ) : Option ℚ :=
  let u := pow2 (max (exponent x - 52) (-1074))
  let r := nearestInt (x / u) * u
  if r < pow2 1024 then some r else none

/-- Rounding to a finite `f64`, ties to even. -/
def finite (x : ℚ) : Option ℚ :=
  if x = 0 then some 0 else if 0 < x then finitePos x else (finitePos (-x)).map (- ·)

end FA.F64
