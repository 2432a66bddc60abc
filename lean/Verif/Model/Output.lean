import Verif.Model.Json
import Verif.Model.FrontEnd

/-!
# Output of results: src/io/results.rs

Strings are represented by the JSON values that they encode (`serde_json::to_string` and
`serde_json::to_string_pretty` are not part of the model); `true`, `false` and numbers are printed in the
same way by `to_string`.
-/

namespace FA

mutual
/-- `Serialize for QuorumSet` (derived, src/core_types/quorum_set.rs:4-12); empty lists are skipped. -/
def QuorumSet.toJson : QuorumSet → Json
  | ⟨t, vs, qs⟩ =>
    .obj ([("threshold", .nat t)] ++
      (if vs.isEmpty then [] else [("validators", .arr (vs.map .nat))]) ++
      (if qs.isEmpty then [] else [("innerQuorumSets", .arr (QuorumSet.toJsonList qs))]))
/-- The elements of `inner_quorum_sets`. -/
def QuorumSet.toJsonList : List QuorumSet → List Json
  | [] => []
  | q :: qs => QuorumSet.toJson q :: QuorumSet.toJsonList qs
end

/-- `struct PrettyQuorumSet` (src/io/results.rs:4-11): the same fields and attributes as
`RawQuorumSet`. -/
abbrev PrettyQuorumSet := RawQuorumSet

mutual
/-- The nesting depth of a quorum set. -/
def QuorumSet.height : QuorumSet → ℕ
  | ⟨_, _, qs⟩ => QuorumSet.heightList qs + 1
/-- The largest nesting depth in a list. -/
def QuorumSet.heightList : List QuorumSet → ℕ
  | [] => 0
  | q :: qs => max (QuorumSet.height q) (QuorumSet.heightList qs)
end

/-- The names of nodes (src/io/results.rs:132-136, 160-164). -/
def toNames (ids : List NodeId) (f : Fbas) (g : Option Groupings) : Except Panic (List PublicKey) :=
  match g with
  | some g => toGroupingNames ids f g
  | none => toPublicKeys ids f

/-- The first step of `into_pretty_quorum_set` (src/io/results.rs:122-126). -/
def mergeOpt (g : Option Groupings) (q : QuorumSet) : Except Panic QuorumSet :=
  match g with
  | some g => g.mergeQuorumSet q
  | none => .ok q

/-- `into_pretty_quorum_set` (src/io/results.rs:117-151). The inner quorum sets of the *merged* quorum
set are passed to the recursive calls, which merge them again. The first argument bounds the depth of the
recursion. -/
def QuorumSet.prettyLoop (f : Fbas) (g : Option Groupings) :
    ℕ → QuorumSet → Except Panic PrettyQuorumSet
  | 0, _ => .error .fuel
  | n + 1, q =>
    match mergeOpt g q with
    | .error e => .error e
    | .ok q' =>
      match toNames q'.validators f g with
      | .error e => .error e
      | .ok names =>
        match mapE (QuorumSet.prettyLoop f g n) q'.inner with
        | .error e => .error e
        | .ok inner => .ok ⟨q'.threshold, names, inner⟩

/-- `into_pretty_quorum_set` (src/io/results.rs:117-151). The depth is never exhausted. -/
def QuorumSet.intoPretty (f : Fbas) (g : Option Groupings) (q : QuorumSet) :
    Except Panic PrettyQuorumSet := QuorumSet.prettyLoop f g q.height q

/-- The types with `AnalysisResult` (src/io/results.rs:24-115). -/
inductive Value where
  | bool (b : Bool)
  | nat (n : ℕ)
  | qset (q : QuorumSet)
  | qsets (l : List QuorumSet)
  | set (r : SetResult)
  | sets (r : SetVecResult)

namespace Value

/-- A list of lists of IDs. -/
def idLists (l : List (List NodeId)) : Json := .arr (l.map (fun v => .arr (v.map .nat)))

/-- `into_id_string` (src/io/results.rs:34, 44, 54, 66, 81, 101). -/
def idJson : Value → Except Panic Json
  | .bool b => .ok (.bool b)
  | .nat n => .ok (.nat n)
  | .qset q => .ok q.toJson
  | .qsets l => .ok (.arr (l.map QuorumSet.toJson))
  | .set r => .ok (.arr (r.intoVec.map .nat))
  | .sets r =>
    match r.intoVecVec with
    | .error e => .error e
    | .ok l => .ok (idLists l)

/-- `into_pretty_string` (src/io/results.rs:26-28, 57-59, 69-75, 84-86, 104-106). -/
def prettyJson (f : Fbas) (g : Option Groupings) : Value → Except Panic Json
  | .bool b => .ok (.bool b)
  | .nat n => .ok (.nat n)
  | .qset q =>
    match q.intoPretty f g with
    | .error e => .error e
    | .ok p => .ok p.toJson
  | .qsets l =>
    match mapE (QuorumSet.intoPretty f g) l with
    | .error e => .error e
    | .ok ps => .ok (.arr (ps.map RawQuorumSet.toJson))
  | .set r =>
    match r.intoPrettyVec f g with
    | .error e => .error e
    | .ok names => .ok (.arr (names.map .str))
  | .sets r =>
    match r.intoPrettyVecVec f g with
    | .error e => .error e
    | .ok l => .ok (.arr (l.map (fun names => .arr (names.map .str))))

/-- The output of `describe` as JSON. -/
def descriptionJson : ℕ × ℕ × (ℕ × ℕ × ℚ) × List ℕ → Json
  | (len, distinct, (min, max, mean), histogram) =>
    .arr [.nat len, .nat distinct, .arr [.nat min, .nat max, .rat mean], .arr (histogram.map .nat)]

/-- `into_describe_string` (src/io/results.rs:37, 47, 60, 76, 87, 107). -/
def describeJson : Value → Except Panic Json
  | .bool b => .ok (.bool b)
  | .nat n => .ok (.nat n)
  | .qset q => .ok q.toJson
  | .qsets l => .ok (.arr (l.map QuorumSet.toJson))
  | .set r => .ok (.nat r.len)
  | .sets r =>
    match r.describe with
    | .error e => .error e
    | .ok d => .ok (descriptionJson d)

end Value
end FA
