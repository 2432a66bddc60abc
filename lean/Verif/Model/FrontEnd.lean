import Verif.Model.Results
import Verif.Model.Quorums
import Verif.Model.Blocking
import Verif.Model.Splitting

/-!
# The caching front end: src/analysis/front_end.rs

`Analysis` uses interior mutability; here every method takes the object and returns the result
together with the updated object. Shared borrows of the two non-cache `RefCell`s that are held by
callers further up the stack are passed down (`Borrows`), so that a mutation while borrowed is
visible as a panic. (Borrows of the caches never span a call.)
-/

namespace FA

/-- `struct Analysis` (src/analysis/front_end.rs:9-17). -/
structure Analysis where
  fbasOriginal : Fbas
  fbasShrunken : Fbas
  shrinkManager : ShrinkManager
  hqi : Option Bool
  mq : Option (List NodeSet)
  mbs : Option (List NodeSet)
  mss : Option (List NodeSet)

/-- Whether `fbas_shrunken` resp. `shrink_manager` are borrowed by a caller. -/
structure Borrows where
  fbas : Bool
  sm : Bool

namespace Analysis

/-- `Analysis::new` (src/analysis/front_end.rs:20-40). -/
def new (env : Env) (f : Fbas) : Except Panic Analysis :=
  match f.shrunken (f.relevantNodes env) with
  | .error e => .error e
  | .ok (fs, sm) => .ok ⟨f, fs, sm, none, none, none, none⟩

/-- `cached_computation` (src/analysis/front_end.rs:172-203). The cache is given by getter and
setter; `shrink` is `shrink_id_space_to_top_tier`. -/
def cachedComputation {R : Type} (get : Analysis → Option R) (set : R → Analysis → Analysis)
    (computation : Analysis → Except Panic (R × Analysis)) (resultDefinesTopTier : Bool)
    (shrink : Analysis → Except Panic Analysis) (a : Analysis) : Except Panic (R × Analysis) :=
  match get a with
  | some r => .ok (r, a)
  | none =>
    let shouldShrink := if resultDefinesTopTier then a.mq.isNone && a.mbs.isNone else false
    match computation a with
    | .error e => .error e
    | .ok (result, a₁) =>
      match (if shouldShrink then shrink (set result a₁) else .ok (set result a₁)) with
      | .error e => .error e
      | .ok a₂ =>
        match get a₂ with
        | none => .error .unwrapNone
        | some r => .ok (r, a₂)

/-- A computation that only reads `fbas_shrunken` (`cached_computation_from_fbas_shrunken`,
src/analysis/front_end.rs:154-171). -/
def fromFbasShrunken {R : Type} (computation : Fbas → Except Panic R) (a : Analysis) :
    Except Panic (R × Analysis) :=
  match computation a.fbasShrunken with
  | .error e => .error e
  | .ok r => .ok (r, a)

/-- `Option<Vec<NodeIdSet>>::map(|x| new.reshrink_sets(x, old))`
(src/analysis/front_end.rs:223-228). -/
def reshrinkCache (new old : ShrinkManager) (cache : Option (List NodeSet)) :
    Except Panic (Option (List NodeSet)) :=
  match cache with
  | none => .ok none
  | some l =>
    match new.reshrinkSets l old with
    | .error e => .error e
    | .ok l' => .ok (some l')

/-- `shrink_id_space_to_top_tier` (src/analysis/front_end.rs:206-234), given the result of
`top_tier_shrunken`. -/
def shrinkToTopTier (b : Borrows) (topTierShrunken : NodeSet) (a : Analysis) :
    Except Panic Analysis :=
  match unshrinkSet a.shrinkManager.unshrinkTable topTierShrunken with
  | .error e => .error e
  | .ok topTierOriginal =>
    match a.fbasOriginal.shrunken topTierOriginal with
    | .error e => .error e
    | .ok (newFbas, newSm) =>
      if a.mq.isNone || a.mbs.isNone then
        match reshrinkCache newSm a.shrinkManager a.mq with
        | .error e => .error e
        | .ok mq =>
          match reshrinkCache newSm a.shrinkManager a.mbs with
          | .error e => .error e
          | .ok mbs =>
            if b.fbas || b.sm then .error .borrow
            else .ok { a with fbasShrunken := newFbas, shrinkManager := newSm, mq := mq, mbs := mbs }
      else .error .assertion

mutual
/-- `minimal_quorums_shrunken` (src/analysis/front_end.rs:113-120). The first argument bounds the
depth of the mutual recursion. -/
def minimalQuorumsShrunken (env : Env) : ℕ → Borrows → Analysis →
    Except Panic (List NodeSet × Analysis)
  | 0, _, _ => .error .fuel
  | d + 1, b, a =>
    cachedComputation (·.mq) (fun r a => { a with mq := some r })
      (fromFbasShrunken (findMinimalQuorums env)) true (shrinkIdSpaceToTopTier env d b) a
/-- `minimal_blocking_sets_shrunken` (src/analysis/front_end.rs:121-128). -/
def minimalBlockingSetsShrunken (env : Env) : ℕ → Borrows → Analysis →
    Except Panic (List NodeSet × Analysis)
  | 0, _, _ => .error .fuel
  | d + 1, b, a =>
    cachedComputation (·.mbs) (fun r a => { a with mbs := some r })
      (fromFbasShrunken (findMinimalBlockingSets env)) true (shrinkIdSpaceToTopTier env d b) a
/-- `top_tier_shrunken` (src/analysis/front_end.rs:144-152). -/
def topTierShrunken (env : Env) : ℕ → Borrows → Analysis → Except Panic (NodeSet × Analysis)
  | 0, _, _ => .error .fuel
  | d + 1, b, a =>
    if a.mq.isSome || a.mbs.isNone then
      match minimalQuorumsShrunken env d b a with
      | .error e => .error e
      | .ok (l, a') => .ok (FA.involvedNodes l, a')
    else
      match minimalBlockingSetsShrunken env d b a with
      | .error e => .error e
      | .ok (l, a') => .ok (FA.involvedNodes l, a')
/-- `shrink_id_space_to_top_tier` (src/analysis/front_end.rs:206-234). `top_tier_shrunken` is called
while `shrink_manager` is borrowed (lines 208-211). -/
def shrinkIdSpaceToTopTier (env : Env) : ℕ → Borrows → Analysis → Except Panic Analysis
  | 0, _, _ => .error .fuel
  | d + 1, b, a =>
    match topTierShrunken env d { b with sm := true } a with
    | .error e => .error e
    | .ok (topTier, a') => shrinkToTopTier b topTier a'
end

/-- Depth of the mutual recursion (it is never exhausted). -/
def depth : ℕ := 8

/-- Nothing borrowed. -/
def free : Borrows := ⟨false, false⟩

/-- `has_quorum_intersection_from_shrunken` (src/analysis/front_end.rs:102-112). -/
def hasQuorumIntersectionFromShrunken (env : Env) (b : Borrows) (a : Analysis) :
    Except Panic (Bool × Analysis) :=
  cachedComputation (·.hqi) (fun r a => { a with hqi := some r })
    (fun a =>
      match minimalQuorumsShrunken env depth b a with
      | .error e => .error e
      | .ok (quorums, a') => .ok (!quorums.isEmpty && allIntersect quorums, a'))
    false (shrinkIdSpaceToTopTier env depth b) a

/-- `minimal_splitting_sets_shrunken` (src/analysis/front_end.rs:129-143). The computation runs while
`fbas_shrunken` is borrowed (line 166). -/
def minimalSplittingSetsShrunken (env : Env) (b : Borrows) (a : Analysis) :
    Except Panic (List NodeSet × Analysis) :=
  match minimalQuorumsShrunken env depth b a with
  | .error e => .error e
  | .ok (minimalQuorums, a₁) =>
    cachedComputation (·.mss) (fun r a => { a with mss := some r })
      (fun a =>
        match hasQuorumIntersectionFromShrunken env { b with fbas := true } a with
        | .error e => .error e
        | .ok (true, a') =>
          match findMinimalSplittingSets env a.fbasShrunken minimalQuorums with
          | .error e => .error e
          | .ok l => .ok (l, a')
        | .ok (false, a') => .ok ([∅], a'))
      false (shrinkIdSpaceToTopTier env depth b) a₁

/-! Public methods -/

/-- `make_shrunken_set_result` (src/analysis/front_end.rs:239-241). -/
def makeShrunkenSetResult (a : Analysis) (payload : NodeSet) : Except Panic SetResult :=
  SetResult.new payload (some a.shrinkManager)

/-- `make_shrunken_set_vec_result` (src/analysis/front_end.rs:242-244). -/
def makeShrunkenSetVecResult (a : Analysis) (payload : List NodeSet) : SetVecResult :=
  SetVecResult.new payload (some a.shrinkManager)

/-- `all_nodes` (src/analysis/front_end.rs:42-44). -/
def allNodes (a : Analysis) : Except Panic SetResult := SetResult.new a.fbasOriginal.allNodes none

/-- `satisfiable_nodes` (src/analysis/front_end.rs:47-49). -/
def satisfiableNodes (a : Analysis) : Except Panic SetResult :=
  SetResult.new a.fbasOriginal.satisfiableNodes none

/-- `unsatisfiable_nodes` (src/analysis/front_end.rs:52-54). -/
def unsatisfiableNodes (a : Analysis) : Except Panic SetResult :=
  SetResult.new a.fbasOriginal.unsatisfiableNodes none

/-- `has_quorum_intersection` (src/analysis/front_end.rs:57-59). -/
def hasQuorumIntersection (env : Env) (a : Analysis) : Except Panic (Bool × Analysis) :=
  hasQuorumIntersectionFromShrunken env free a

/-- `has_quorum_intersection_via_alternative_check` (src/analysis/front_end.rs:61-73). -/
def alternativeCheck (env : Env) (a : Analysis) : Except Panic (Bool × Option SetVecResult) :=
  match findNonintersectingQuorums env a.fbasShrunken with
  | .error e => .error e
  | .ok none => .ok (true, none)
  | .ok (some quorums) =>
    match quorums[0]?, quorums[1]? with
    | some q₀, some q₁ =>
      if Disjoint q₀ q₁ then .ok (false, some (a.makeShrunkenSetVecResult quorums))
      else .error .assertion
    | _, _ => .error .outOfBounds

/-- `minimal_quorums` (src/analysis/front_end.rs:75-77). -/
def minimalQuorums (env : Env) (a : Analysis) : Except Panic (SetVecResult × Analysis) :=
  match minimalQuorumsShrunken env depth free a with
  | .error e => .error e
  | .ok (l, a') => .ok (a'.makeShrunkenSetVecResult l, a')

/-- `minimal_blocking_sets` (src/analysis/front_end.rs:79-81). -/
def minimalBlockingSets (env : Env) (a : Analysis) : Except Panic (SetVecResult × Analysis) :=
  match minimalBlockingSetsShrunken env depth free a with
  | .error e => .error e
  | .ok (l, a') => .ok (a'.makeShrunkenSetVecResult l, a')

/-- `minimal_splitting_sets` (src/analysis/front_end.rs:83-85). -/
def minimalSplittingSets (env : Env) (a : Analysis) : Except Panic (SetVecResult × Analysis) :=
  match minimalSplittingSetsShrunken env free a with
  | .error e => .error e
  | .ok (l, a') => .ok (a'.makeShrunkenSetVecResult l, a')

/-- `top_tier` (src/analysis/front_end.rs:88-90). -/
def topTier (env : Env) (a : Analysis) : Except Panic (SetResult × Analysis) :=
  match topTierShrunken env depth free a with
  | .error e => .error e
  | .ok (s, a') =>
    match a'.makeShrunkenSetResult s with
    | .error e => .error e
    | .ok r => .ok (r, a')

/-- `symmetric_top_tier` (src/analysis/front_end.rs:93-95). -/
def symmetricTopTier (env : Env) (a : Analysis) : Except Panic (Option QuorumSet) :=
  findSymmetricTopTier env a.fbasOriginal

/-- `symmetric_clusters` (src/analysis/front_end.rs:98-100). -/
def symmetricClusters (env : Env) (a : Analysis) : Except Panic (List QuorumSet) :=
  findSymmetricClusters env a.fbasOriginal

/-! Call sequences -/

/-- The public methods of `Analysis`. -/
inductive Call where
  | allNodes
  | satisfiableNodes
  | unsatisfiableNodes
  | hasQuorumIntersection
  | alternativeCheck
  | minimalQuorums
  | minimalBlockingSets
  | minimalSplittingSets
  | topTier
  | symmetricTopTier
  | symmetricClusters
deriving DecidableEq

/-- What a caller can learn from a call: the returned value; results holding sets are unwrapped. -/
inductive Answer where
  | bool (b : Bool)
  | set (s : NodeSet)
  | sets (l : List NodeSet)
  | verdict (b : Bool) (witness : Option (List NodeSet))
  | qset (q : Option QuorumSet)
  | qsets (l : List QuorumSet)
deriving DecidableEq

/-- Unwrapping a result of type `NodeIdSetVecResult`. -/
def answerSets (r : Except Panic (SetVecResult × Analysis)) : Except Panic (Answer × Analysis) :=
  match r with
  | .error e => .error e
  | .ok (r, a) =>
    match r.unwrap with
    | .error e => .error e
    | .ok l => .ok (.sets l, a)

/-- One call, followed by unwrapping the result. -/
def call (env : Env) (a : Analysis) : Call → Except Panic (Answer × Analysis)
  | .allNodes => a.allNodes.map (fun r => (.set r.unwrap, a))
  | .satisfiableNodes => a.satisfiableNodes.map (fun r => (.set r.unwrap, a))
  | .unsatisfiableNodes => a.unsatisfiableNodes.map (fun r => (.set r.unwrap, a))
  | .hasQuorumIntersection => (a.hasQuorumIntersection env).map (fun r => (.bool r.1, r.2))
  | .alternativeCheck =>
    match a.alternativeCheck env with
    | .error e => .error e
    | .ok (v, none) => .ok (.verdict v none, a)
    | .ok (v, some r) =>
      match r.unwrap with
      | .error e => .error e
      | .ok l => .ok (.verdict v (some l), a)
  | .minimalQuorums => answerSets (a.minimalQuorums env)
  | .minimalBlockingSets => answerSets (a.minimalBlockingSets env)
  | .minimalSplittingSets => answerSets (a.minimalSplittingSets env)
  | .topTier => (a.topTier env).map (fun r => (.set r.1.unwrap, r.2))
  | .symmetricTopTier => (a.symmetricTopTier env).map (fun q => (.qset q, a))
  | .symmetricClusters => (a.symmetricClusters env).map (fun l => (.qsets l, a))

/-- A sequence of calls on one object; returns the object. -/
def calls (env : Env) : List Call → Analysis → Except Panic Analysis
  | [], a => .ok a
  | c :: cs, a =>
    match a.call env c with
    | .error e => .error e
    | .ok (_, a') => calls env cs a'

/-- The answer to `c` after the calls `history` on a new object. -/
def answerAfter (env : Env) (f : Fbas) (history : List Call) (c : Call) : Except Panic Answer :=
  match Analysis.new env f with
  | .error e => .error e
  | .ok a =>
    match calls env history a with
    | .error e => .error e
    | .ok a' => (a'.call env c).map Prod.fst

end Analysis
end FA
