import Verif.Model.Symmetric

/-!
# Minimal quorums and quorum intersection: src/analysis/quorums.rs

The recursive search functions thread their `&mut` arguments explicitly as a state; recursion is on
a fuel argument that bounds the recursion depth (`unprocessed.length + 1` is always enough because
every recursive call pops a node; C90 proves that more fuel makes no difference).
-/

namespace FA

/-- `selection_satisfiable` (src/analysis/quorums.rs:210-214). -/
def selectionSatisfiable (f : Fbas) (selection available : NodeSet) : Bool :=
  (elems selection).all (fun x => f.nodeIsQuorumSlice x available)

/-- The loop of `is_minimal_for_quorum` (src/analysis/quorums.rs:237-243); `tester` is restored after
every iteration. -/
def minimalForQuorumLoop (f : Fbas) : List NodeId → NodeSet → Bool
  | [], _ => true
  | x :: xs, tester =>
    let tester := tester.erase x
    if f.containsQuorum tester then false
    else minimalForQuorumLoop f xs (insert x tester)

/-- `is_minimal_for_quorum` (src/analysis/quorums.rs:234-245). -/
def isMinimalForQuorum (f : Fbas) (quorum : NodeSet) : Bool :=
  minimalForQuorumLoop f (elems quorum) quorum

/-- The `&mut` arguments of `minimal_quorums_finder_step`. -/
structure MqState where
  unprocessed : List NodeId
  selection : NodeSet
  available : NodeSet
  found : List NodeSet

/-- `minimal_quorums_finder_step` (src/analysis/quorums.rs:59-95). -/
def mqStep (f : Fbas) : ℕ → Bool → MqState → MqState
  | 0, _, st => st
  | fuel + 1, selectionChanged, st =>
    if selectionChanged && f.isQuorum st.selection then
      if isMinimalForQuorum f st.selection then { st with found := st.found ++ [st.selection] }
      else st
    else
      match st.unprocessed with
      | [] => st
      | x :: rest =>
        let st := { st with unprocessed := rest, selection := insert x st.selection }
        let st := mqStep f fuel true st
        let st := { st with selection := st.selection.erase x, available := st.available.erase x }
        let st :=
          if selectionSatisfiable f st.selection st.available then mqStep f fuel false st else st
        { st with unprocessed := x :: st.unprocessed, available := insert x st.available }

/-- `QuorumSet::to_minimal_quorums` (src/analysis/quorums.rs:99-106). -/
def QuorumSet.toMinimalQuorums (q : QuorumSet) (f : Fbas) : List NodeSet :=
  let quorums := q.toQuorumSlices
  if q.containsDuplicates then removeNonMinimalX quorums (isMinimalForQuorum f) else quorums

/-- `minimal_quorums_finder` (src/analysis/quorums.rs:29-58): loop over the clusters, with
`found_quorums` as state. -/
def minimalQuorumsFinderLoop (env : Env) (f : Fbas) :
    List NodeSet → List NodeSet → Except Panic (List NodeSet)
  | [], found => .ok found
  | nodes :: clusters, found =>
    match findSymmetricClusterInConsensusCluster f nodes with
    | .error e => .error e
    | .ok (some q) => minimalQuorumsFinderLoop env f clusters (found ++ q.toMinimalQuorums f)
    | .ok none =>
      let unprocessed := env.rank f (elems nodes)
      let st := mqStep f (unprocessed.length + 1) true
        { unprocessed, selection := ∅, available := ofList unprocessed, found }
      minimalQuorumsFinderLoop env f clusters st.found

/-- `minimal_quorums_finder` (src/analysis/quorums.rs:29-58). -/
def minimalQuorumsFinder (env : Env) (clusters : List NodeSet) (f : Fbas) :
    Except Panic (List NodeSet) :=
  minimalQuorumsFinderLoop env f clusters []

/-- `find_minimal_quorums` (src/analysis/quorums.rs:4-9). -/
def findMinimalQuorums (env : Env) (f : Fbas) : Except Panic (List NodeSet) :=
  findMinimalSets env f (minimalQuorumsFinder env)

/-- The `&mut` arguments of `nonintersecting_quorums_finder_step`. -/
structure NqState where
  unprocessed : List NodeId
  selection : NodeSet
  available : NodeSet
  antiselection : NodeSet

/-- `nonintersecting_quorums_finder_step` (src/analysis/quorums.rs:149-208). The state is returned
as left behind by the call, including the unrestored state of early returns. -/
def nqStep (f : Fbas) : ℕ → ℕ → Bool → NqState → Option (NodeSet × NodeSet) × NqState
  | 0, _, _, st => (none, st)
  | fuel + 1, picksLeft, selectionChanged, st =>
    if selectionChanged && f.isQuorum st.selection then
      let potentialComplement := (f.findSatisfiableNodes st.antiselection).1
      if potentialComplement ≠ ∅ then (some (st.selection, potentialComplement), st)
      else (none, st)
    else if picksLeft = 0 then (none, st)
    else
      match st.unprocessed with
      | [] => (none, st)
      | x :: rest =>
        let st := { st with
          unprocessed := rest
          selection := insert x st.selection
          antiselection := st.antiselection.erase x }
        match nqStep f fuel (picksLeft - 1) true st with
        | (some r, st) => (some r, st)
        | (none, st) =>
          let st := { st with
            selection := st.selection.erase x
            antiselection := insert x st.antiselection
            available := st.available.erase x }
          let r :=
            if selectionSatisfiable f st.selection st.available
            then nqStep f fuel picksLeft false st else (none, st)
          match r with
          | (some r, st) => (some r, st)
          | (none, st) =>
            (none, { st with
              unprocessed := x :: st.unprocessed
              available := insert x st.available })

/-- `nonintersecting_quorums_finder` (src/analysis/quorums.rs:109-148), with its assertions. -/
def nonintersectingQuorumsFinder (env : Env) (clusters : List NodeSet) (f : Fbas) :
    Except Panic (List NodeSet) :=
  if clusters.length > 1 then
    .ok (clusters.map (fun nodes => (f.findSatisfiableNodes nodes).1))
  else
    let nodes := clusters.head?.getD ∅
    let unprocessed := env.rank f (elems nodes)
    let available := ofList unprocessed
    let picksLeft := unprocessed.length / 2
    match nqStep f (unprocessed.length + 1) picksLeft true
        { unprocessed, selection := ∅, available, antiselection := available } with
    | (some (a, b), _) =>
      if f.isQuorum a && f.isQuorum b then
        if Disjoint a b then .ok [a, b] else .error .assertion
      else .error .assertion
    | (none, st) => if f.isQuorum st.available then .ok [st.available] else .error .assertion

/-- `find_nonintersecting_quorums` (src/analysis/quorums.rs:14-27). -/
def findNonintersectingQuorums (env : Env) (f : Fbas) : Except Panic (Option (List NodeSet)) :=
  match findSets env f (nonintersectingQuorumsFinder env) with
  | .error e => .error e
  | .ok quorums => .ok (if quorums.length < 2 then none else some quorums)

end FA
