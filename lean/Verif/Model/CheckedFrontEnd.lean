import Verif.Model.Checked
import Verif.Model.FrontEnd

/-!
# The caching front end on top of the checked analysis: src/analysis/front_end.rs

The same as `Model/FrontEnd.lean`, except that the functions of `Model/Checked.lean` are called, so that
index accesses outside `fbas.nodes` and (if `dbg`) failing debug assertions are visible as panics.
-/

namespace FA.Checked.Analysis
open FA FA.Analysis

/-- `Analysis::new` (src/analysis/front_end.rs:20-40). -/
def new (env : Env) (f : Fbas) : Except Panic Analysis := do
  let relevant ← relevantNodes env f
  let r ← f.shrunken relevant
  .ok ⟨f, r.1, r.2, none, none, none, none⟩

mutual
/-- `minimal_quorums_shrunken` (src/analysis/front_end.rs:113-120). -/
def minimalQuorumsShrunken (dbg : Bool) (env : Env) : ℕ → Borrows → Analysis →
    Except Panic (List NodeSet × Analysis)
  | 0, _, _ => .error .fuel
  | d + 1, b, a =>
    cachedComputation (·.mq) (fun r a => { a with mq := some r })
      (fromFbasShrunken (findMinimalQuorums dbg env)) true (shrinkIdSpaceToTopTier dbg env d b) a
/-- `minimal_blocking_sets_shrunken` (src/analysis/front_end.rs:121-128). -/
def minimalBlockingSetsShrunken (dbg : Bool) (env : Env) : ℕ → Borrows → Analysis →
    Except Panic (List NodeSet × Analysis)
  | 0, _, _ => .error .fuel
  | d + 1, b, a =>
    cachedComputation (·.mbs) (fun r a => { a with mbs := some r })
      (fromFbasShrunken (findMinimalBlockingSets dbg env)) true (shrinkIdSpaceToTopTier dbg env d b) a
/-- `top_tier_shrunken` (src/analysis/front_end.rs:144-152). -/
def topTierShrunken (dbg : Bool) (env : Env) : ℕ → Borrows → Analysis →
    Except Panic (NodeSet × Analysis)
  | 0, _, _ => .error .fuel
  | d + 1, b, a => do
    let r ← (if a.mq.isSome || a.mbs.isNone then minimalQuorumsShrunken dbg env d b a
      else minimalBlockingSetsShrunken dbg env d b a)
    .ok (FA.involvedNodes r.1, r.2)
/-- `shrink_id_space_to_top_tier` (src/analysis/front_end.rs:206-234). -/
def shrinkIdSpaceToTopTier (dbg : Bool) (env : Env) : ℕ → Borrows → Analysis →
    Except Panic Analysis
  | 0, _, _ => .error .fuel
  | d + 1, b, a => do
    let r ← topTierShrunken dbg env d { b with sm := true } a
    shrinkToTopTier b r.1 r.2
end

/-- `has_quorum_intersection_from_shrunken` (src/analysis/front_end.rs:102-112). -/
def hasQuorumIntersectionFromShrunken (dbg : Bool) (env : Env) (b : Borrows) (a : Analysis) :
    Except Panic (Bool × Analysis) :=
  cachedComputation (·.hqi) (fun r a => { a with hqi := some r })
    (fun a => do
      let r ← minimalQuorumsShrunken dbg env depth b a
      .ok (!r.1.isEmpty && allIntersect r.1, r.2))
    false (shrinkIdSpaceToTopTier dbg env depth b) a

/-- The computation inside `minimal_splitting_sets_shrunken` (src/analysis/front_end.rs:133-140). -/
def splittingComputation (dbg : Bool) (env : Env) (b : Borrows) (minimalQuorums : List NodeSet)
    (a : Analysis) : Except Panic (List NodeSet × Analysis) := do
  let r ← hasQuorumIntersectionFromShrunken dbg env { b with fbas := true } a
  if r.1 then
    let l ← findMinimalSplittingSets dbg env a.fbasShrunken minimalQuorums
    .ok (l, r.2)
  else .ok ([∅], r.2)

/-- `minimal_splitting_sets_shrunken` (src/analysis/front_end.rs:129-143). -/
def minimalSplittingSetsShrunken (dbg : Bool) (env : Env) (b : Borrows) (a : Analysis) :
    Except Panic (List NodeSet × Analysis) := do
  let r ← minimalQuorumsShrunken dbg env depth b a
  cachedComputation (·.mss) (fun r a => { a with mss := some r })
    (splittingComputation dbg env b r.1) false (shrinkIdSpaceToTopTier dbg env depth b) r.2

/-- `satisfiable_nodes` (src/analysis/front_end.rs:47-49). -/
def satisfiableNodes (a : Analysis) : Except Panic SetResult := do
  let s ← Checked.satisfiableNodes a.fbasOriginal
  SetResult.new s none

/-- `unsatisfiable_nodes` (src/analysis/front_end.rs:52-54). -/
def unsatisfiableNodes (a : Analysis) : Except Panic SetResult := do
  let s ← Checked.unsatisfiableNodes a.fbasOriginal
  SetResult.new s none

/-- `has_quorum_intersection` (src/analysis/front_end.rs:57-59). -/
def hasQuorumIntersection (dbg : Bool) (env : Env) (a : Analysis) : Except Panic (Bool × Analysis) :=
  hasQuorumIntersectionFromShrunken dbg env free a

/-- The match in `has_quorum_intersection_via_alternative_check` (src/analysis/front_end.rs:63-72). -/
def alternativeCheckResult (a : Analysis) :
    Option (List NodeSet) → Except Panic (Bool × Option SetVecResult)
  | none => .ok (true, none)
  | some quorums => do
    let q₀ ← getE quorums 0
    let q₁ ← getE quorums 1
    if Disjoint q₀ q₁ then .ok (false, some (a.makeShrunkenSetVecResult quorums))
    else .error .assertion

/-- `has_quorum_intersection_via_alternative_check` (src/analysis/front_end.rs:61-73). -/
def alternativeCheck (dbg : Bool) (env : Env) (a : Analysis) :
    Except Panic (Bool × Option SetVecResult) := do
  let r ← findNonintersectingQuorums dbg env a.fbasShrunken
  alternativeCheckResult a r

/-- `minimal_quorums` (src/analysis/front_end.rs:75-77). -/
def minimalQuorums (dbg : Bool) (env : Env) (a : Analysis) :
    Except Panic (SetVecResult × Analysis) := do
  let r ← minimalQuorumsShrunken dbg env depth free a
  .ok (r.2.makeShrunkenSetVecResult r.1, r.2)

/-- `minimal_blocking_sets` (src/analysis/front_end.rs:79-81). -/
def minimalBlockingSets (dbg : Bool) (env : Env) (a : Analysis) :
    Except Panic (SetVecResult × Analysis) := do
  let r ← minimalBlockingSetsShrunken dbg env depth free a
  .ok (r.2.makeShrunkenSetVecResult r.1, r.2)

/-- `minimal_splitting_sets` (src/analysis/front_end.rs:83-85). -/
def minimalSplittingSets (dbg : Bool) (env : Env) (a : Analysis) :
    Except Panic (SetVecResult × Analysis) := do
  let r ← minimalSplittingSetsShrunken dbg env free a
  .ok (r.2.makeShrunkenSetVecResult r.1, r.2)

/-- `top_tier` (src/analysis/front_end.rs:88-90). -/
def topTier (dbg : Bool) (env : Env) (a : Analysis) : Except Panic (SetResult × Analysis) := do
  let r ← topTierShrunken dbg env depth free a
  let s ← r.2.makeShrunkenSetResult r.1
  .ok (s, r.2)

/-- `symmetric_top_tier` (src/analysis/front_end.rs:93-95). -/
def symmetricTopTier (env : Env) (a : Analysis) : Except Panic (Option QuorumSet) :=
  findSymmetricTopTier env a.fbasOriginal

/-- `symmetric_clusters` (src/analysis/front_end.rs:98-100). -/
def symmetricClusters (env : Env) (a : Analysis) : Except Panic (List QuorumSet) :=
  findSymmetricClusters env a.fbasOriginal

/-- Unwrapping the result of the alternative check. -/
def answerVerdict (a : Analysis) : Bool × Option SetVecResult → Except Panic (Answer × Analysis)
  | (v, none) => .ok (.verdict v none, a)
  | (v, some r) => do
    let l ← r.unwrap
    .ok (.verdict v (some l), a)

/-- One call, followed by unwrapping the result. -/
def call (dbg : Bool) (env : Env) (a : Analysis) : Call → Except Panic (Answer × Analysis)
  | .allNodes => a.allNodes.map (fun r => (.set r.unwrap, a))
  | .satisfiableNodes => (satisfiableNodes a).map (fun r => (.set r.unwrap, a))
  | .unsatisfiableNodes => (unsatisfiableNodes a).map (fun r => (.set r.unwrap, a))
  | .hasQuorumIntersection => (hasQuorumIntersection dbg env a).map (fun r => (.bool r.1, r.2))
  | .alternativeCheck => do
    let r ← alternativeCheck dbg env a
    answerVerdict a r
  | .minimalQuorums => answerSets (minimalQuorums dbg env a)
  | .minimalBlockingSets => answerSets (minimalBlockingSets dbg env a)
  | .minimalSplittingSets => answerSets (minimalSplittingSets dbg env a)
  | .topTier => (topTier dbg env a).map (fun r => (.set r.1.unwrap, r.2))
  | .symmetricTopTier => (symmetricTopTier env a).map (fun q => (.qset q, a))
  | .symmetricClusters => (symmetricClusters env a).map (fun l => (.qsets l, a))

/-- A sequence of calls on one object; returns the object. -/
def calls (dbg : Bool) (env : Env) : List Call → Analysis → Except Panic Analysis
  | [], a => .ok a
  | c :: cs, a => do
    let r ← call dbg env a c
    calls dbg env cs r.2

/-- The answer to `c` after the calls `history` on a new object. -/
def answerAfter (dbg : Bool) (env : Env) (f : Fbas) (history : List Call) (c : Call) :
    Except Panic Answer := do
  let a ← new env f
  let a' ← calls dbg env history a
  (call dbg env a' c).map Prod.fst

end FA.Checked.Analysis
