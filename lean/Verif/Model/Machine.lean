import Verif.Model.FrontEnd
import Verif.Model.Io

/-!
# Arithmetic on machine words

The other model files use unbounded natural numbers. Here the functions of the analysis that compute
with thresholds are repeated with machine arithmetic (`usize`). Overflows panic (debug builds) or wrap
around (release builds); the profile is a parameter, like the size of a word.

Numbers that are not computed from thresholds (lengths of vectors, indices) are bounded by the
available memory. The only functions that compute with thresholds are `is_quorum_slice`,
`blocking_threshold`, `splitting_threshold` and `is_slice_intersection`.
-/

namespace FA.Machine
open FA

/-- The type `usize`: number of values, and whether overflows panic. -/
structure Word where
  size : ℕ
  panics : Bool

namespace Word

/-- Outcome of an operation whose exact result is `n`. -/
def fit (w : Word) (n : ℕ) : Except Panic ℕ :=
  if n < w.size then .ok n else if w.panics then .error .overflow else .ok (n % w.size)

/-- `a + b`. -/
def add (w : Word) (a b : ℕ) : Except Panic ℕ := w.fit (a + b)

/-- `a * b`. -/
def mul (w : Word) (a b : ℕ) : Except Panic ℕ := w.fit (a * b)

/-- `a - b`. -/
def sub (w : Word) (a b : ℕ) : Except Panic ℕ :=
  if b ≤ a then .ok (a - b) else if w.panics then .error .overflow else .ok (a + w.size - b)

/-- `usize` on 64 bit platforms in release builds. -/
def release64 : Word := ⟨2 ^ 64, false⟩

/-- `usize` on 64 bit platforms in debug builds. -/
def debug64 : Word := ⟨2 ^ 64, true⟩

end Word

mutual
/-- `is_quorum_slice` (src/core_types/quorum_set.rs:30-49). -/
def isQuorumSlice (w : Word) (S : NodeSet) : QuorumSet → Except Panic Bool
  | ⟨t, vs, qs⟩ =>
    if t = 0 then .ok false
    else do
      let foundValidatorMatches := ((vs.filter (fun x => decide (x ∈ S))).take t).length
      let left ← w.sub t foundValidatorMatches
      let foundInnerQuorumSetMatches ← countSlices w S qs left
      let sum ← w.add foundValidatorMatches foundInnerQuorumSetMatches
      .ok (sum == t)
/-- `inner_quorum_sets.iter().filter(|x| x.is_quorum_slice(node_set)).take(k).count()` (lines 40-45);
iteration ends after `k` matches. -/
def countSlices (w : Word) (S : NodeSet) : List QuorumSet → ℕ → Except Panic ℕ
  | [], _ => .ok 0
  | _ :: _, 0 => .ok 0
  | q :: qs, k + 1 => do
    if ← isQuorumSlice w S q then
      let n ← countSlices w S qs k
      .ok (n + 1)
    else countSlices w S qs (k + 1)
end

/-- `blocking_threshold` (src/analysis/blocking_sets.rs:159-165). -/
def blockingThreshold (w : Word) (q : QuorumSet) : Except Panic ℕ := do
  let n ← w.add q.validators.length q.inner.length
  if n ≥ q.threshold then
    let n ← w.add q.validators.length q.inner.length
    let d ← w.sub n q.threshold
    w.add d 1
  else .ok 0

mutual
/-- `to_blocking_sets` (src/analysis/blocking_sets.rs:128-158). -/
def toBlockingSets (w : Word) : QuorumSet → Except Panic (List NodeSet)
  | ⟨t, vs, qs⟩ => do
    let inner ← toBlockingSetsList w qs
    let k ← blockingThreshold w ⟨t, vs, qs⟩
    .ok (QuorumSet.combineGroups k (vs.map (fun v => [({v} : NodeSet)]) ++ inner))
/-- `inner_quorum_sets.iter().map(|qset| qset.to_blocking_sets())` (lines 135-139). -/
def toBlockingSetsList (w : Word) : List QuorumSet → Except Panic (List (List NodeSet))
  | [] => .ok []
  | q :: qs => do
    let s ← toBlockingSets w q
    let l ← toBlockingSetsList w qs
    .ok (s :: l)
end

/-- `splitting_threshold` (src/analysis/splitting_sets.rs:204-210). -/
def splittingThreshold (w : Word) (q : QuorumSet) : Except Panic ℕ := do
  let double ← w.mul 2 q.threshold
  let n ← w.add q.validators.length q.inner.length
  if double > n then
    let double ← w.mul 2 q.threshold
    let n ← w.add q.validators.length q.inner.length
    w.sub double n
  else .ok 0

mutual
/-- `QuorumSet::is_slice_intersection` (src/analysis/splitting_sets.rs:134-154). -/
def isSliceIntersection (w : Word) (S : NodeSet) : QuorumSet → Except Panic Bool
  | ⟨t, vs, qs⟩ => do
    let st ← splittingThreshold w ⟨t, vs, qs⟩
    if st = 0 then .ok true
    else
      let foundValidatorMatches := ((vs.filter (fun x => decide (x ∈ S))).take st).length
      let left ← w.sub st foundValidatorMatches
      let foundInnerQuorumSetMatches ← countSliceIntersections w S qs left
      let sum ← w.add foundValidatorMatches foundInnerQuorumSetMatches
      .ok (sum == st)
/-- `inner_quorum_sets.iter().filter(|x| x.is_slice_intersection(node_set)).take(k).count()`
(lines 145-150). -/
def countSliceIntersections (w : Word) (S : NodeSet) : List QuorumSet → ℕ → Except Panic ℕ
  | [], _ => .ok 0
  | _ :: _, 0 => .ok 0
  | q :: qs, k + 1 => do
    if ← isSliceIntersection w S q then
      let n ← countSliceIntersections w S qs k
      .ok (n + 1)
    else countSliceIntersections w S qs (k + 1)
end

/-- The check "to see if we aren't really a 1-quorum quorum set"
(src/analysis/splitting_sets.rs:196-202). -/
def dropIfOneQuorum (w : Word) (q : QuorumSet) (potential : List NodeSet) :
    Except Panic (List NodeSet) :=
  match potential with
  | [s] => do if ← isQuorumSlice w s q then .ok [] else .ok [s]
  | l => .ok l

mutual
/-- `to_splitting_sets` (src/analysis/splitting_sets.rs:166-203). -/
def toSplittingSets (w : Word) : QuorumSet → Except Panic (List NodeSet)
  | ⟨t, vs, qs⟩ => do
    let inner ← toSplittingSetsList w qs
    let k ← splittingThreshold w ⟨t, vs, qs⟩
    dropIfOneQuorum w ⟨t, vs, qs⟩
      (QuorumSet.combineGroups k (vs.map (fun v => [({v} : NodeSet)]) ++ inner))
/-- `inner_quorum_sets.iter().map(|qset| qset.to_splitting_sets())` (lines 173-177). -/
def toSplittingSetsList (w : Word) : List QuorumSet → Except Panic (List (List NodeSet))
  | [] => .ok []
  | q :: qs => do
    let s ← toSplittingSets w q
    let l ← toSplittingSetsList w qs
    .ok (s :: l)
end

/-- `to_minimal_splitting_sets` (src/analysis/splitting_sets.rs:156-163). -/
def toMinimalSplittingSets (w : Word) (q : QuorumSet) : Except Panic (List NodeSet) := do
  let splittingSets ← toSplittingSets w q
  .ok (if q.containsDuplicates then removeNonMinimalNodeSets splittingSets else splittingSets)

/-- `selection.iter().all(|x| fbas.nodes[x].is_slice_intersection(available))`
(src/analysis/splitting_sets.rs:225-227); iteration ends at the first `false`. -/
def allSliceIntersections (w : Word) (f : Fbas) (available : NodeSet) :
    List NodeId → Except Panic Bool
  | [] => .ok true
  | x :: xs => do
    if ← isSliceIntersection w available (f.qset x) then allSliceIntersections w f available xs
    else .ok false

/-- `has_potential` (src/analysis/splitting_sets.rs:224-228). -/
def hasPotential (w : Word) (f : Fbas) (selection available : NodeSet) : Except Panic Bool :=
  allSliceIntersections w f available (elems selection)

/-- `is_quorum_intersection` (src/analysis/splitting_sets.rs:213-221). -/
def isQuorumIntersection (w : Word) (f : Fbas) (selection : NodeSet)
    (relevantQuorumParts : List NodeSet) : Except Panic Bool :=
  if selection = ∅ then .ok false
  else do
    if ← hasPotential w f selection selection then .ok (!allIntersect relevantQuorumParts)
    else .ok false

/-- `splitting_sets_finder_step` (src/analysis/splitting_sets.rs:65-126). -/
def msStep (w : Word) (f : Fbas) : ℕ → List NodeSet → Bool → MsState → Except Panic MsState
  | 0, _, _, st => .ok st
  | fuel + 1, parts, selectionChanged, st =>
    if parts.length < 2 then .ok st
    else do
      let found ← cond selectionChanged (isQuorumIntersection w f st.selection parts) (.ok false)
      if found then .ok { st with found := st.found ++ [st.selection] }
      else
        match st.unprocessed with
        | [] => .ok st
        | x :: rest => do
          let st := { st with unprocessed := rest, selection := insert x st.selection }
          let partsWithSelect :=
            (parts.filter (fun q => decide (x ∈ q))).map (fun q => q.erase x)
          let st ← msStep w f fuel partsWithSelect true st
          let st := { st with selection := st.selection.erase x, available := st.available.erase x }
          let partsForAvailable :=
            parts.filter (fun (q : NodeSet) => !decide (Disjoint q st.available))
          let potential ← hasPotential w f st.selection st.available
          let st ← cond potential (msStep w f fuel partsForAvailable false st) (.ok st)
          .ok { st with unprocessed := x :: st.unprocessed, available := insert x st.available }

/-- The loop over the clusters in `minimal_splitting_sets_finder`
(src/analysis/splitting_sets.rs:24-63). -/
def minimalSplittingSetsFinderLoop (w : Word) (env : Env) (f : Fbas) (minimalQuorums : List NodeSet) :
    List NodeSet → List NodeSet → Except Panic (List NodeSet)
  | [], found => .ok found
  | nodes :: clusters, found => do
    match ← findSymmetricClusterInConsensusCluster f nodes with
    | some q =>
      let l ← toMinimalSplittingSets w q
      minimalSplittingSetsFinderLoop w env f minimalQuorums clusters (found ++ l)
    | none =>
      let unprocessed := env.rank f (elems nodes)
      let st ← msStep w f (unprocessed.length + 1) minimalQuorums true
        { unprocessed, selection := ∅, available := ofList unprocessed, found := [] }
      minimalSplittingSetsFinderLoop w env f minimalQuorums clusters
        (found ++ removeNonMinimalNodeSets st.found)

/-- `minimal_splitting_sets_finder` (src/analysis/splitting_sets.rs:19-64). -/
def minimalSplittingSetsFinder (w : Word) (env : Env) (minimalQuorums : List NodeSet)
    (clusters : List NodeSet) (f : Fbas) : Except Panic (List NodeSet) :=
  minimalSplittingSetsFinderLoop w env f minimalQuorums clusters []

/-- `find_minimal_splitting_sets` (src/analysis/splitting_sets.rs:7-17). -/
def findMinimalSplittingSets (w : Word) (env : Env) (f : Fbas) (minimalQuorums : List NodeSet) :
    Except Panic (List NodeSet) :=
  findMinimalSets env f (minimalSplittingSetsFinder w env minimalQuorums)

/-! ### `Analysis`

All other methods only use functions that are not affected by overflows (C75). -/

open FA.Analysis in
/-- `minimal_splitting_sets_shrunken` (src/analysis/front_end.rs:129-143). -/
def minimalSplittingSetsShrunken (w : Word) (env : Env) (b : Borrows) (a : Analysis) :
    Except Panic (List NodeSet × Analysis) :=
  match minimalQuorumsShrunken env depth b a with
  | .error e => .error e
  | .ok (minimalQuorums, a₁) =>
    cachedComputation (·.mss) (fun r a => { a with mss := some r })
      (fun a =>
        match hasQuorumIntersectionFromShrunken env { b with fbas := true } a with
        | .error e => .error e
        | .ok (true, a') =>
          match findMinimalSplittingSets w env a.fbasShrunken minimalQuorums with
          | .error e => .error e
          | .ok l => .ok (l, a')
        | .ok (false, a') => .ok ([∅], a'))
      false (shrinkIdSpaceToTopTier env depth b) a₁

/-- `minimal_splitting_sets` (src/analysis/front_end.rs:83-85). -/
def minimalSplittingSets (w : Word) (env : Env) (a : Analysis) :
    Except Panic (SetVecResult × Analysis) :=
  match minimalSplittingSetsShrunken w env Analysis.free a with
  | .error e => .error e
  | .ok (l, a') => .ok (a'.makeShrunkenSetVecResult l, a')

open FA.Analysis in
/-- One call, followed by unwrapping the result. -/
def call (w : Word) (env : Env) (a : Analysis) : Call → Except Panic (Answer × Analysis)
  | .minimalSplittingSets => answerSets (minimalSplittingSets w env a)
  | c => a.call env c

open FA.Analysis in
/-- A sequence of calls on one object; returns the object. -/
def calls (w : Word) (env : Env) : List Call → Analysis → Except Panic Analysis
  | [], a => .ok a
  | c :: cs, a =>
    match call w env a c with
    | .error e => .error e
    | .ok (_, a') => calls w env cs a'

open FA.Analysis in
/-- The answer to `c` after the calls `history` on a new object. -/
def answerAfter (w : Word) (env : Env) (f : Fbas) (history : List Call) (c : Call) :
    Except Panic Answer :=
  match Analysis.new env f with
  | .error e => .error e
  | .ok a =>
    match calls w env history a with
    | .error e => .error e
    | .ok a' => (call w env a' c).map Prod.fst

/-! ### Loading -/

mutual
/-- `QuorumSet::from_raw` (src/io/core_types.rs:106-127): thresholds that do not fit into a `usize`
become `usize::MAX` (line 125). -/
def fromRaw (w : Word) (pkToId : Map PublicKey NodeId) : RawQuorumSet → QuorumSet
  | ⟨t, vs, qs⟩ =>
    ⟨if t < w.size then t else w.size - 1, sortIds (vs.filterMap pkToId.get?),
      QuorumSet.sortQs (fromRawList w pkToId qs)⟩
/-- The `map` over the inner quorum sets (src/io/core_types.rs:113-117). -/
def fromRawList (w : Word) (pkToId : Map PublicKey NodeId) : List RawQuorumSet → List QuorumSet
  | [] => []
  | q :: qs => fromRaw w pkToId q :: fromRawList w pkToId qs
end

/-- `Fbas::from_raw` (src/io/core_types.rs:47-62). -/
def fbasFromRaw (w : Word) (r : RawFbas) : Fbas :=
  let pkToId := Fbas.rawIds r
  ⟨r.map (fun n => ⟨n.publicKey, fromRaw w pkToId n.quorumSet⟩), pkToId⟩

end FA.Machine
