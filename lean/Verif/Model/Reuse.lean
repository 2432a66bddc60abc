import Verif.Model.FrontEnd
import Verif.Model.Json

/-!
# Reusing results: examples/results_reuse.rs

The paths of the two files, and the failing and evil nodes, are parameters here. A printed line is
represented by a tag and the values in it. If the program panics, the model does not give the lines
that were already printed.
-/

namespace FA.Reuse
open FA

/-- `struct CustomResultsStruct` (examples/results_reuse.rs:110-116). -/
structure Results where
  minimalBlockingSets : SetVecResult
  minimalSplittingSets : SetVecResult
  topTier : SetResult
  hasQuorumIntersection : Bool
deriving DecidableEq

/-- `do_analysis` (examples/results_reuse.rs:100-108). -/
def doAnalysis (env : Env) (f : Fbas) : Except Panic Results := do
  let a ← Analysis.new env f
  let (mbs, a) ← a.minimalBlockingSets env
  let (mss, a) ← a.minimalSplittingSets env
  let (topTier, a) ← a.topTier env
  let (hasQuorumIntersection, _) ← a.hasQuorumIntersection env
  .ok ⟨mbs, mss, topTier, hasQuorumIntersection⟩

/-- `PartialEq for Fbas` (src/core_types/fbas.rs:128-132): only the nodes are compared. (`Hash`, lines
113-117, hashes the nodes, so that equal FBASs have equal hashes.) -/
def sameNodes (f g : Fbas) : Bool := decide (f.nodes = g.nodes)

/-- `HashMap<Fbas, CustomResultsStruct>` (examples/results_reuse.rs:33). -/
abbrev Cache := List (Fbas × Results)

/-- `HashMap::get` with the equality of FBASs. -/
def Cache.get : Cache → Fbas → Option Results
  | [], _ => none
  | e :: cache, f => if sameNodes e.1 f then some e.2 else Cache.get cache f

/-- The use of the cache (examples/results_reuse.rs:34-40). -/
def cached (env : Env) (cache : Cache) (f : Fbas) : Except Panic (Results × Cache) :=
  match cache.get f with
  | some r => .ok (r, cache)
  | none => do
    let r ← doAnalysis env f
    .ok (r, (f, r) :: cache)

/-- A printed line (examples/results_reuse.rs:26-29, 54, 63-67, 78-81, 90, 92-95). -/
inductive Line where
  /-- "SHA3 hash of FBAS in standard form (when converted to JSON): {}" -/
  | hash (h : String)
  /-- "Example smallest minimal blocking set: {:?}" -/
  | smallestBlockingSet (names : List PublicKey)
  /-- "In the worst case, {} nodes across {} organizations are enough to compromise liveness." -/
  | worstCase (nodes organizations : ℕ)
  /-- "After removing failing nodes, {} more node failures can cause a loss in liveness." -/
  | moreFailures (n : ℕ)
  /-- "The FBAS lacks quorum intersection despite evil nodes!" -/
  | lacksIntersection
  /-- "{} more nodes need to become evil for safety to become endangered." -/
  | moreEvil (n : ℕ)
deriving DecidableEq

/-- `PART 2: post-analysis` (examples/results_reuse.rs:42-97). -/
def postAnalysis (f : Fbas) (r : Results) (organizations : Json) (failing : List String)
    (evil : List NodeId) : Except Panic (List Line) := do
  let mbs := r.minimalBlockingSets
  let pretty ← mbs.intoPrettyVecVec f none
  match pretty with
  | [] => .error .outOfBounds
  | first :: _ =>
    let organizations ← Groupings.organizationsFromJson organizations f
    let merged ← mbs.mergedByGroup organizations
    let mbsByOrgs := merged.minimalSets
    let remaining ← mbs.withoutNodesPretty failing f none
    let remainingMbs := remaining.minimalSets
    let remaining ← r.minimalSplittingSets.withoutNodes evil
    let remainingMss := remaining.minimalSets
    .ok [.smallestBlockingSet first, .worstCase mbs.min mbsByOrgs.min, .moreFailures remainingMbs.min,
      if remainingMss.containsEmptySet then .lacksIntersection else .moreEvil remainingMss.min]

/-- `main` (examples/results_reuse.rs:15-98), with a cache that may contain results of earlier runs
(the example starts with an empty one); `nodes` and `organizations` are the contents of the files and
`hash` stands for the hexadecimal SHA3-256 hash of the text written for a JSON value. -/
def main (env : Env) (hash : Json → String) (cache : Cache) (nodes organizations : Json)
    (failing : List String) (evil : List NodeId) : Except Panic (List Line × Cache) := do
  let f ← Fbas.fromJson nodes
  let f ← f.toStandardForm env
  let (r, cache) ← cached env cache f
  let lines ← postAnalysis f r organizations failing evil
  .ok (.hash (hash f.toJson) :: lines, cache)

end FA.Reuse
