import Verif.Model.IoGroupings
import Mathlib.Data.Rat.Defs

/-!
# JSON values, and what the `serde` attributes of the raw structures mean for them:
src/io/core_types.rs:1-45, src/io/groupings.rs:1-34

The text of a JSON document (`serde_json`'s tokenizer and printer) is not part of the model, which starts
from JSON values. All errors are the same here (the callers only use `expect`).

What `#[derive(Deserialize)]` generates for a struct (`serde` 1, `serde_json` 1):
* from an object: the entries are visited in order; entries with unknown names are ignored; an entry for
  a field that already has a value is an error; afterwards, fields without a value get the default value
  (`#[serde(default)]`), `None` (type `Option`), or are an error;
* from an array: one element per field, in the order of the declaration; missing elements are only
  allowed for fields with `#[serde(default)]`; additional elements are an error;
* anything else is an error.
-/

namespace FA

/-- A JSON value. `rat` are the numbers that are not natural numbers. -/
inductive Json where
  | null
  | bool (b : Bool)
  | nat (n : ℕ)
  | rat (q : ℚ)
  | str (s : String)
  | arr (l : List Json)
  | obj (l : List (String × Json))

namespace Json

/-- Deserializing `u64`. -/
def u64? : Json → Option ℕ
  | .nat n => if n < 2 ^ 64 then some n else none
  | _ => none

/-- Deserializing `String`. -/
def str? : Json → Option String
  | .str s => some s
  | _ => none

/-- Deserializing `Option<String>`. -/
def optStr? : Json → Option (Option String)
  | .null => some none
  | .str s => some (some s)
  | _ => none

/-- Deserializing the elements of a `Vec`. -/
def elems? {α : Type} (g : Json → Option α) : List Json → Option (List α)
  | [] => some []
  | j :: l =>
    match g j with
    | none => none
    | some a =>
      match elems? g l with
      | none => none
      | some as => some (a :: as)

/-- Deserializing `Vec<T>`. -/
def vec? {α : Type} (g : Json → Option α) : Json → Option (List α)
  | .arr l => elems? g l
  | _ => none

end Json

/-! ## `RawQuorumSet` (src/io/core_types.rs:17-24) -/

/-- `RawQuorumSet::default()` (derived, src/io/core_types.rs:17). -/
def RawQuorumSet.default : RawQuorumSet := ⟨0, [], []⟩

/-- The values of the fields found so far. -/
structure RawQuorumSet.Slots where
  threshold : Option ℕ
  validators : Option (List PublicKey)
  inner : Option (List RawQuorumSet)

/-- After all entries of an object are visited. -/
def RawQuorumSet.Slots.finish (s : RawQuorumSet.Slots) : Option RawQuorumSet :=
  match s.threshold, s.validators with
  | some t, some vs => some ⟨t, vs, s.inner.getD []⟩
  | _, _ => none

mutual
/-- Deserializing `RawQuorumSet`. -/
def RawQuorumSet.fromJson : Json → Option RawQuorumSet
  | .obj l =>
    match RawQuorumSet.fromEntries l ⟨none, none, none⟩ with
    | none => none
    | some s => s.finish
  | .arr [t, vs] =>
    match t.u64?, vs.vec? Json.str? with
    | some t, some vs => some ⟨t, vs, []⟩
    | _, _ => none
  | .arr [t, vs, qs] =>
    match t.u64?, vs.vec? Json.str?, RawQuorumSet.fromJsonVec qs with
    | some t, some vs, some qs => some ⟨t, vs, qs⟩
    | _, _, _ => none
  | _ => none
/-- Visiting the entries of an object. -/
def RawQuorumSet.fromEntries :
    List (String × Json) → RawQuorumSet.Slots → Option RawQuorumSet.Slots
  | [], s => some s
  | (name, j) :: l, s =>
    if name = "threshold" then
      match s.threshold, j.u64? with
      | none, some t => RawQuorumSet.fromEntries l { s with threshold := some t }
      | _, _ => none
    else if name = "validators" then
      match s.validators, j.vec? Json.str? with
      | none, some vs => RawQuorumSet.fromEntries l { s with validators := some vs }
      | _, _ => none
    else if name = "innerQuorumSets" then
      match s.inner, RawQuorumSet.fromJsonVec j with
      | none, some qs => RawQuorumSet.fromEntries l { s with inner := some qs }
      | _, _ => none
    else RawQuorumSet.fromEntries l s
/-- Deserializing `Vec<RawQuorumSet>`. -/
def RawQuorumSet.fromJsonVec : Json → Option (List RawQuorumSet)
  | .arr l => RawQuorumSet.fromJsonList l
  | _ => none
/-- Deserializing the elements of a `Vec<RawQuorumSet>`. -/
def RawQuorumSet.fromJsonList : List Json → Option (List RawQuorumSet)
  | [] => some []
  | j :: l =>
    match RawQuorumSet.fromJson j, RawQuorumSet.fromJsonList l with
    | some q, some qs => some (q :: qs)
    | _, _ => none
end

mutual
/-- Serializing `RawQuorumSet`; empty `inner_quorum_sets` are skipped. -/
def RawQuorumSet.toJson : RawQuorumSet → Json
  | ⟨t, vs, qs⟩ =>
    .obj ([("threshold", .nat t), ("validators", .arr (vs.map .str))] ++
      (if qs.isEmpty then [] else [("innerQuorumSets", .arr (RawQuorumSet.toJsonList qs))]))
/-- Serializing the elements of `inner_quorum_sets`. -/
def RawQuorumSet.toJsonList : List RawQuorumSet → List Json
  | [] => []
  | q :: qs => RawQuorumSet.toJson q :: RawQuorumSet.toJsonList qs
end

/-! ## `RawGeoData`, `RawNode`, `RawFbas` (src/io/core_types.rs:4-16, 25-29) -/

/-- Visiting the entries of an object for `RawGeoData`. -/
def geoFromEntries : List (String × Json) → Option (Option String) → Option (Option (Option String))
  | [], s => some s
  | (name, j) :: l, s =>
    if name = "countryName" then
      match s, j.optStr? with
      | none, some c => geoFromEntries l (some c)
      | _, _ => none
    else geoFromEntries l s

/-- Deserializing `RawGeoData`; the result is its `country_name`. -/
def geoFromJson : Json → Option (Option String)
  | .obj l =>
    match geoFromEntries l none with
    | none => none
    | some c => some (c.getD none)
  | .arr [c] => c.optStr?
  | _ => none

/-- Deserializing `Option<RawGeoData>`. -/
def optGeoFromJson : Json → Option (Option (Option String))
  | .null => some none
  | j =>
    match geoFromJson j with
    | none => none
    | some c => some (some c)

/-- The values of the fields of a `RawNode` found so far. -/
structure RawNode.Slots where
  publicKey : Option PublicKey
  quorumSet : Option RawQuorumSet
  isp : Option (Option String)
  geoData : Option (Option (Option String))

/-- After all entries of an object are visited. -/
def RawNode.Slots.finish (s : RawNode.Slots) : Option RawNode :=
  match s.publicKey with
  | some pk => some ⟨pk, s.quorumSet.getD RawQuorumSet.default, s.isp.getD none, s.geoData.getD none⟩
  | none => none

/-- Visiting the entries of an object. -/
def RawNode.fromEntries : List (String × Json) → RawNode.Slots → Option RawNode.Slots
  | [], s => some s
  | (name, j) :: l, s =>
    if name = "publicKey" then
      match s.publicKey, j.str? with
      | none, some pk => RawNode.fromEntries l { s with publicKey := some pk }
      | _, _ => none
    else if name = "quorumSet" then
      match s.quorumSet, RawQuorumSet.fromJson j with
      | none, some q => RawNode.fromEntries l { s with quorumSet := some q }
      | _, _ => none
    else if name = "isp" then
      match s.isp, j.optStr? with
      | none, some isp => RawNode.fromEntries l { s with isp := some isp }
      | _, _ => none
    else if name = "geoData" then
      match s.geoData, optGeoFromJson j with
      | none, some g => RawNode.fromEntries l { s with geoData := some g }
      | _, _ => none
    else RawNode.fromEntries l s

/-- Deserializing `RawNode`. -/
def RawNode.fromJson : Json → Option RawNode
  | .obj l =>
    match RawNode.fromEntries l ⟨none, none, none, none⟩ with
    | none => none
    | some s => s.finish
  | .arr [pk, q, isp, geo] =>
    match pk.str?, RawQuorumSet.fromJson q, isp.optStr?, optGeoFromJson geo with
    | some pk, some q, some isp, some geo => some ⟨pk, q, isp, geo⟩
    | _, _, _, _ => none
  | _ => none

/-- Serializing `Option<String>`. -/
def optStrToJson : Option String → Json
  | none => .null
  | some s => .str s

/-- Serializing `RawNode`; `isp` and `geo_data` are skipped if they are `None`. -/
def RawNode.toJson (n : RawNode) : Json :=
  .obj ([("publicKey", .str n.publicKey), ("quorumSet", n.quorumSet.toJson)] ++
    (match n.isp with
      | none => []
      | some s => [("isp", .str s)]) ++
    (match n.geoData with
      | none => []
      | some c => [("geoData", .obj [("countryName", optStrToJson c)])]))

/-- Deserializing `RawFbas`, a newtype struct: its content is deserialized. -/
def RawFbas.fromJson (j : Json) : Option RawFbas := j.vec? RawNode.fromJson

/-- Serializing `RawFbas`. -/
def RawFbas.toJson (r : RawFbas) : Json := .arr (r.map RawNode.toJson)

namespace Fbas

/-- `Fbas::from_json_str` (src/io/core_types.rs:32-34, `Deserialize for Fbas`, lines 79-87). -/
def fromJson (j : Json) : Except Panic Fbas :=
  match RawFbas.fromJson j with
  | none => .error .explicit
  | some r => .ok (fromRaw r)

/-- `Fbas::to_json_string` (src/io/core_types.rs:41-43, `Serialize for Fbas`, lines 71-78). -/
def toJson (f : Fbas) : Json := RawFbas.toJson f.toRaw

end Fbas

/-! ## `RawGrouping`, `RawGroupings` (src/io/groupings.rs:3-9) -/

/-- The values of the fields of a `RawGrouping` found so far. -/
structure RawGrouping.Slots where
  name : Option String
  validators : Option (List PublicKey)

/-- After all entries of an object are visited. -/
def RawGrouping.Slots.finish (s : RawGrouping.Slots) : Option RawGrouping :=
  match s.name, s.validators with
  | some n, some vs => some ⟨n, vs⟩
  | _, _ => none

/-- Visiting the entries of an object. -/
def RawGrouping.fromEntries : List (String × Json) → RawGrouping.Slots → Option RawGrouping.Slots
  | [], s => some s
  | (name, j) :: l, s =>
    if name = "name" then
      match s.name, j.str? with
      | none, some n => RawGrouping.fromEntries l { s with name := some n }
      | _, _ => none
    else if name = "validators" then
      match s.validators, j.vec? Json.str? with
      | none, some vs => RawGrouping.fromEntries l { s with validators := some vs }
      | _, _ => none
    else RawGrouping.fromEntries l s

/-- Deserializing `RawGrouping`. -/
def RawGrouping.fromJson : Json → Option RawGrouping
  | .obj l =>
    match RawGrouping.fromEntries l ⟨none, none⟩ with
    | none => none
    | some s => s.finish
  | .arr [n, vs] =>
    match n.str?, vs.vec? Json.str? with
    | some n, some vs => some ⟨n, vs⟩
    | _, _ => none
  | _ => none

/-- Serializing `RawGrouping`. -/
def RawGrouping.toJson (g : RawGrouping) : Json :=
  .obj [("name", .str g.name), ("validators", .arr (g.validators.map .str))]

namespace Groupings

/-- `Groupings::organizations_from_json_str` (src/io/groupings.rs:17-22) and `Groupings::from_json_str`
(lines 11-16). -/
def organizationsFromJson (j : Json) (f : Fbas) : Except Panic Groupings :=
  match j.vec? RawGrouping.fromJson with
  | none => .error .explicit
  | some gs => Groupings.fromRaw gs f

/-- `Groupings::isps_from_json_str` (src/io/groupings.rs:23-28). -/
def ispsFromJson (order : List String → List String) (j : Json) (f : Fbas) :
    Except Panic Groupings :=
  match RawFbas.fromJson j with
  | none => .error .explicit
  | some r => Groupings.ispsFromRaw order r f

/-- `Groupings::countries_from_json_str` (src/io/groupings.rs:29-34). -/
def countriesFromJson (order : List String → List String) (j : Json) (f : Fbas) :
    Except Panic Groupings :=
  match RawFbas.fromJson j with
  | none => .error .explicit
  | some r => Groupings.countriesFromRaw order r f

/-- `Serialize for Groupings` (src/io/groupings.rs:65-72). -/
def toJson (g : Groupings) (f : Fbas) : Except Panic Json :=
  match g.toRaw f with
  | .error e => .error e
  | .ok gs => .ok (.arr (gs.map RawGrouping.toJson))

end Groupings
end FA
