import Verif.Model.Preprocessing
import Verif.Model.Shrinking
import Mathlib.Data.String.Basic

/-!
# Conversion from and to the JSON structures: src/io/core_types.rs; standard form
(src/analysis/preprocessing.rs:34-44)

This file starts from the raw structures; for their JSON representation see `Verif/Model/Json.lean`.
-/

namespace FA

/-- `struct RawQuorumSet` (src/io/core_types.rs:17-24). -/
structure RawQuorumSet where
  threshold : ℕ
  validators : List PublicKey
  inner : List RawQuorumSet

/-- `struct RawNode` (src/io/core_types.rs:6-16); `geoData` is the `country_name` of `RawGeoData`
(lines 25-29), if there is a `RawGeoData`. -/
structure RawNode where
  publicKey : PublicKey
  quorumSet : RawQuorumSet
  isp : Option String
  geoData : Option (Option String)

/-- `struct RawFbas` (src/io/core_types.rs:4-5). -/
abbrev RawFbas := List RawNode

mutual
/-- `QuorumSet::from_raw` (src/io/core_types.rs:106-127). On 64 bit platforms the conversion of the
threshold from `u64` to `usize` is the identity. -/
def QuorumSet.fromRaw (pkToId : Map PublicKey NodeId) : RawQuorumSet → QuorumSet
  | ⟨t, vs, qs⟩ =>
    ⟨t, sortIds (vs.filterMap pkToId.get?), QuorumSet.sortQs (QuorumSet.fromRawList pkToId qs)⟩
/-- The `map` over the inner quorum sets (src/io/core_types.rs:113-117). -/
def QuorumSet.fromRawList (pkToId : Map PublicKey NodeId) : List RawQuorumSet → List QuorumSet
  | [] => []
  | q :: qs => QuorumSet.fromRaw pkToId q :: QuorumSet.fromRawList pkToId qs
end

/-- The name of a validator in `QuorumSet::to_raw` (src/io/core_types.rs:137-140). -/
def Fbas.rawName (f : Fbas) (v : NodeId) : PublicKey :=
  match f.nodes[v]? with
  | some node => node.publicKey
  | none => "missing #" ++ toString v

mutual
/-- `QuorumSet::to_raw` (src/io/core_types.rs:128-148). -/
def QuorumSet.toRaw (f : Fbas) : QuorumSet → RawQuorumSet
  | ⟨t, vs, qs⟩ => ⟨t, vs.map f.rawName, QuorumSet.toRawList f qs⟩
/-- The `map` over the inner quorum sets (src/io/core_types.rs:142-146). -/
def QuorumSet.toRawList (f : Fbas) : List QuorumSet → List RawQuorumSet
  | [] => []
  | q :: qs => QuorumSet.toRaw f q :: QuorumSet.toRawList f qs
end

/-- `Node::from_raw` (src/io/core_types.rs:90-95). -/
def Node.fromRaw (pkToId : Map PublicKey NodeId) (n : RawNode) : Node :=
  ⟨n.publicKey, QuorumSet.fromRaw pkToId n.quorumSet⟩

/-- `Node::to_raw` (src/io/core_types.rs:96-103). -/
def Node.toRaw (f : Fbas) (n : Node) : RawNode := ⟨n.publicKey, n.quorumSet.toRaw f, none, none⟩

namespace Fbas

/-- The map `pk_to_id` of `Fbas::from_raw` (src/io/core_types.rs:50-54); for repeated public keys the
last position counts. -/
def rawIds (r : RawFbas) : Map PublicKey NodeId :=
  Map.collect (r.zipIdx.map (fun p => (p.1.publicKey, p.2)))

/-- `Fbas::from_raw` (src/io/core_types.rs:47-62). -/
def fromRaw (r : RawFbas) : Fbas :=
  let pkToId := rawIds r
  ⟨r.map (Node.fromRaw pkToId), pkToId⟩

/-- `Fbas::to_raw` (src/io/core_types.rs:63-65). -/
def toRaw (f : Fbas) : RawFbas := f.nodes.map (Node.toRaw f)

/-- `sort_by_cached_key(|n| n.public_key.clone())` (src/analysis/preprocessing.rs:39-41), a stable
sort. Rust compares strings bytewise, Lean by code points; for UTF-8 this is the same order. -/
def sortByKey (r : RawFbas) : RawFbas := r.insertionSort (fun a b => a.publicKey ≤ b.publicKey)

/-- `to_standard_form` (src/analysis/preprocessing.rs:34-44). -/
def toStandardForm (env : Env) (f : Fbas) : Except Panic Fbas :=
  match f.shrunken (f.relevantNodes env) with
  | .error e => .error e
  | .ok (shrunkenSelf, _) => .ok (fromRaw (sortByKey shrunkenSelf.toRaw))

end Fbas
end FA
