import Verif.Model.Io
import Verif.Model.Groupings

/-!
# Reading and writing groupings: src/io/groupings.rs
-/

namespace FA

/-- `struct RawGrouping` (src/io/groupings.rs:5-9). -/
structure RawGrouping where
  name : String
  validators : List PublicKey
deriving DecidableEq, Repr

/-- `String::len()`: the number of bytes. -/
def byteLen (l : List Char) : ℕ := (l.map Char.utf8Size).sum

/-- `String::split_off(at)`: panics if `at` is not on a boundary between characters. -/
def splitOff : List Char → ℕ → Except Panic (List Char × List Char)
  | [], n => if n = 0 then .ok ([], []) else .error .outOfBounds
  | c :: l, n =>
    if n = 0 then .ok ([], c :: l)
    else if c.utf8Size ≤ n then
      match splitOff l (n - c.utf8Size) with
      | .error e => .error e
      | .ok (a, b) => .ok (c :: a, b)
    else .error .outOfBounds

/-- `remove_special_chars_from_grouping_name` (src/io/groupings.rs:168-174). For an empty string
`name.len() - 1` overflows, which panics (or, without overflow checks, gives a position beyond the
end, for which `split_off` panics). -/
def removeSpecialChars (name : String) : Except Panic String :=
  let name := name.toList.filter (fun c => c != ',')
  if byteLen name = 0 then .error .outOfBounds
  else
    match splitOff name (byteLen name - 1) with
    | .error e => .error e
    | .ok (name, maybeFullstop) =>
      .ok (String.ofList (name ++ maybeFullstop.filter (fun c => c != '.')))

/-- One iteration of the first loop of `isps_from_raw_nodes` (src/io/groupings.rs:102-114) and of
`countries_from_raw_nodes` (lines 135-149), where `name` is the ISP or country of the node with public
key `pk`. -/
def groupStep (m : Map String (List PublicKey)) (pk : PublicKey) (name : String) :
    Except Panic (Map String (List PublicKey)) :=
  match removeSpecialChars name with
  | .error e => .error e
  | .ok name =>
    let m := if (m.get? name).isNone then m.insert name [] else m
    match m.get? name with
    | none => .error .unwrapNone
    | some l => .ok (m.insert name (l ++ [pk]))

/-- The first loop of `isps_from_raw_nodes` and of `countries_from_raw_nodes`; `key` selects the ISP or
country of a node. -/
def groupLoop (key : RawNode → Option String) :
    List RawNode → Map String (List PublicKey) → Except Panic (Map String (List PublicKey))
  | [], m => .ok m
  | n :: r, m =>
    match key n with
    | none => groupLoop key r m
    | some name =>
      match groupStep m n.publicKey name with
      | .error e => .error e
      | .ok m => groupLoop key r m

/-- The common part of `isps_from_raw_nodes` (src/io/groupings.rs:98-130) and
`countries_from_raw_nodes` (lines 131-165). `order` is the unspecified order in which a `HashMap` lists
its keys. -/
def groupsFromRawNodes (order : List String → List String) (key : RawNode → Option String)
    (r : RawFbas) : Except Panic (List RawGrouping) :=
  match groupLoop key r [] with
  | .error e => .error e
  | .ok m =>
    let names := (order (m.map Prod.fst)).insertionSort (· ≤ ·)
    .ok (names.filterMap (fun name => (m.get? name).map (fun vs => ⟨name, vs⟩)))

/-- `isps_from_raw_nodes` (src/io/groupings.rs:98-130). -/
def ispsFromRawNodes (order : List String → List String) (r : RawFbas) :
    Except Panic (List RawGrouping) := groupsFromRawNodes order RawNode.isp r

/-- The country name of a node (src/io/groupings.rs:136-137). -/
def RawNode.country (n : RawNode) : Option String :=
  match n.geoData with
  | some geodata => geodata
  | none => none

/-- `countries_from_raw_nodes` (src/io/groupings.rs:131-165). -/
def countriesFromRawNodes (order : List String → List String) (r : RawFbas) :
    Except Panic (List RawGrouping) := groupsFromRawNodes order RawNode.country r

/-- `Grouping::from_raw` (src/io/groupings.rs:74-84). -/
def Grouping.fromRaw (pkToId : Map PublicKey NodeId) (g : RawGrouping) : Grouping :=
  ⟨g.name, g.validators.filterMap pkToId.get?⟩

/-- `Grouping::to_raw` (src/io/groupings.rs:85-94); indexing may panic. -/
def Grouping.toRaw (f : Fbas) (g : Grouping) : Except Panic RawGrouping :=
  match toPublicKeys g.validators f with
  | .error e => .error e
  | .ok vs => .ok ⟨g.name, vs⟩

/-- `Groupings::from_raw` (src/io/groupings.rs:47-55), which is also what `organizations_from_json_str`
(lines 17-22) does after parsing. -/
def Groupings.fromRaw (gs : List RawGrouping) (f : Fbas) : Except Panic Groupings :=
  Groupings.new (gs.map (Grouping.fromRaw f.pkToId)) f

/-- `Groupings::to_raw` (src/io/groupings.rs:56-63). -/
def Groupings.toRaw (g : Groupings) (f : Fbas) : Except Panic (List RawGrouping) :=
  mapE (Grouping.toRaw f) g.groupings

/-- `isps_from_json_str` (src/io/groupings.rs:23-28), after parsing. -/
def Groupings.ispsFromRaw (order : List String → List String) (r : RawFbas) (f : Fbas) :
    Except Panic Groupings :=
  match ispsFromRawNodes order r with
  | .error e => .error e
  | .ok gs => Groupings.fromRaw gs f

/-- `countries_from_json_str` (src/io/groupings.rs:29-34), after parsing. -/
def Groupings.countriesFromRaw (order : List String → List String) (r : RawFbas) (f : Fbas) :
    Except Panic Groupings :=
  match countriesFromRawNodes order r with
  | .error e => .error e
  | .ok gs => Groupings.fromRaw gs f

end FA
