import Verif.Conformance.Core
import Verif.Model.Output
import Verif.Model.AsRel
import Verif.Ref.Json

/-!
# The unit tests of the project, replayed on the model (input and output)

See `Verif/Conformance/Core.lean`. JSON documents are given as JSON values.
-/

namespace FA.Conformance
open FA Ref

/-- A JSON array of strings. -/
abbrev strs (l : List String) : Json := .arr (l.map .str)

/-- The JSON value of a quorum set without inner quorum sets. -/
abbrev flatJson (t : ℕ) (vs : List String) : Json :=
  .obj [("threshold", .nat t), ("validators", strs vs)]

/-- The JSON value of a node. -/
abbrev nodeJson (name : String) (rest : List (String × Json)) : Json :=
  .obj (("publicKey", .str name) :: rest)

/-- The JSON value of an organization. -/
abbrev orgJson (name : String) (vs : List String) : Json :=
  .obj [("name", .str name), ("validators", strs vs)]

abbrev SDF1 : String := "GCGB2S2KGYARPVIA37HYZXVRM2YZUEXA6S33ZU5BUDC6THSB62LZSTYH"
abbrev SDF2 : String := "GABMKJM6I25XI4K7U6XWMULOUQIQ27BCTMLS6BYYSOWKTBUXVRJSXHYQ"
abbrev SDF3 : String := "GCM6QMP3DLRPTAZW2UZPCPX2LF3SXWXKPMP3GKFZBDSF3QZGV2G5QSTK"
abbrev KEYBASE : String := "GCWJKM4EGTGJUVSWUJDPCQEOEP5LHSOFKSA4HALBTOO4T4H3HCHOM6UX"

/-- The public keys and quorum sets of an FBAS. -/
def contents (f : Fbas) : List (PublicKey × QuorumSet) :=
  f.nodes.map (fun n => (n.publicKey, n.quorumSet))

/-! ## src/io/core_types.rs -/

-- from_json_to_fbas
example : okEq (do
    let f ← Fbas.fromJson (.arr [
      nodeJson SDF1 [("quorumSet", .obj [("threshold", .nat 1), ("validators", .arr []),
        ("innerQuorumSets", .arr [.obj [("threshold", .nat 2), ("validators", strs [SDF1, SDF2, SDF3]),
          ("innerQuorumSets", .arr [])]])])],
      nodeJson SDF2 [("quorumSet", flatJson 3 [SDF1, SDF2, SDF3]), ("aFieldWeIgnore", .nat 42)],
      nodeJson SDF3 []])
    .ok (contents f))
    [(SDF1, ⟨1, [], [⟨2, [0, 1, 2], []⟩]⟩), (SDF2, ⟨3, [0, 1, 2], []⟩), (SDF3, QuorumSet.empty)] = true := by
  decide +kernel
-- from_json_ignores_unknown_public_keys
example : okEq (do
    let f ← Fbas.fromJson (.arr [
      nodeJson SDF1 [("quorumSet", flatJson 2 [SDF1, SDF2, SDF3])],
      nodeJson SDF2 []])
    .ok (f.nodes.map Node.quorumSet)) [⟨2, [0, 1], []⟩, QuorumSet.empty] = true := by decide +kernel
-- from_json_keeps_inactive_nodes
example : okEq (do
    let f ← Fbas.fromJson (.arr [
      nodeJson "GCGB2" [("active", .bool false)], nodeJson "GCM6Q" [("active", .bool true)],
      nodeJson "GABMK" []])
    .ok (f.nodes.map Node.publicKey)) ["GCGB2", "GCM6Q", "GABMK"] = true := by decide +kernel
-- to_json_and_back_results_in_identical_fbas
example : okEq (do
    let f ← Fbas.newGenericUnconfigured 7
    let f' ← Fbas.fromJson f.toJson
    .ok (decide (f.nodes = f'.nodes) &&
      (List.range 8).all (fun i => decide (f.getNodeId ("n" ++ toString i) = f'.getNodeId ("n" ++ toString i)))))
    true = true := by decide +kernel
-- can_serizalize_quorum_sets_with_unknown_nodes
example : same ((flat 2 [0, 1]).toRaw Fbas.new).toJson (flatJson 2 ["missing #0", "missing #1"]) = true := by
  decide +kernel

/-! ## src/analysis/preprocessing.rs (standard form) -/

/-- The standard form of an FBAS. -/
noncomputable def standardForm (env : Env) (j : Json) : Except Panic (List (PublicKey × QuorumSet)) := do
  let f ← Fbas.fromJson j
  let f' ← f.toStandardForm env
  .ok (contents f')

/-- The FBAS of `toy_standard_form_fbas`. -/
abbrev toy : List (PublicKey × QuorumSet) := [("n0", flat 2 [0, 1]), ("n1", flat 2 [0, 1])]

-- to_standard_form_no_change
example : okEq (standardForm (refEnv 2) (.arr [nodeJson "n0" [("quorumSet", flatJson 2 ["n0", "n1"])],
    nodeJson "n1" [("quorumSet", flatJson 2 ["n0", "n1"])]])) toy = true := by decide +kernel
-- to_standard_form_reorders
example : okEq (standardForm (refEnv 2) (.arr [nodeJson "n1" [("quorumSet", flatJson 2 ["n0", "n1"])],
    nodeJson "n0" [("quorumSet", flatJson 2 ["n0", "n1"])]])) toy = true := by decide +kernel
-- to_standard_form_filters_unsatisfiable
example : okEq (standardForm (refEnv 3) (.arr [nodeJson "n0" [("quorumSet", flatJson 2 ["n0", "n1"])],
    nodeJson "n1" [("quorumSet", flatJson 2 ["n0", "n1"])],
    nodeJson "n2" [("quorumSet", flatJson 2 ["n2", "n3"])]])) toy = true := by decide +kernel
-- to_standard_form_filters_edge_nodes
example : okEq (standardForm (refEnv 3) (.arr [nodeJson "n0" [("quorumSet", flatJson 2 ["n0", "n1"])],
    nodeJson "n1" [("quorumSet", flatJson 2 ["n0", "n1"])],
    nodeJson "n2" [("quorumSet", flatJson 2 ["n0", "n1"])]])) toy = true := by decide +kernel

/-! ## src/io/groupings.rs, src/analysis/merge_by_group.rs, src/analysis/results.rs, src/io/results.rs -/

/-- Names and members of the groups. -/
def groupsOf (r : Except Panic Groupings) : Except Panic (List (String × List NodeId)) := do
  let g ← r
  .ok (g.groupings.map (fun x => (x.name, x.validators)))

/-- The geographical data of a node. -/
abbrev geo (code name : String) : String × Json :=
  ("geoData", .obj [("countryCode", .str code), ("countryName", .str name)])

-- read_isps_from_nodes_json_str (for two orders of the hash map)
example : ∀ order ∈ [id, List.reverse], okEq (groupsOf (do
    let j := Json.arr [
      nodeJson "GCGB2" [("active", .bool true), ("isp", .str "Google.com")],
      nodeJson "GCM6Q" [("active", .bool true), ("isp", .str "StackOverflow")],
      nodeJson "GCHAR" [("active", .bool true), ("isp", .str "Hetzner")],
      nodeJson "GABMK" [("active", .bool true), ("isp", .str "Google.com")]]
    Groupings.ispsFromJson order j (← Fbas.fromJson j)))
    [("Google.com", [0, 3]), ("Hetzner", [2]), ("StackOverflow", [1])] = true := by decide +kernel
-- read_countries_from_nodes_json_str
example : ∀ order ∈ [id, List.reverse], okEq (groupsOf (do
    let j := Json.arr [
      nodeJson "GCGB2" [("active", .bool true), geo "AA" "Absurdistan"],
      nodeJson "GCM6Q" [("active", .bool true), geo "WA" "Wakanda"],
      nodeJson "GCHAR" [("active", .bool true), geo "TI" "Timbuktu"],
      nodeJson "GABMK" [("active", .bool true), geo "TI" "Timbuktu"]]
    Groupings.countriesFromJson order j (← Fbas.fromJson j)))
    [("Absurdistan", [0]), ("Timbuktu", [2, 3]), ("Wakanda", [1])] = true := by decide +kernel
-- missing_ctry_key_in_json_doesnt_panic
example : ∀ order ∈ [id, List.reverse], okEq (groupsOf (do
    let j := Json.arr [
      nodeJson "GCGB2" [("geoData", .obj [("countryName", .str "Wakanda")])],
      nodeJson "GCM6Q" [("geoData", .obj [("countryName", .str "Absurdistan")])],
      nodeJson "GABMK" []]
    Groupings.countriesFromJson order j (← Fbas.fromJson j)))
    [("Absurdistan", [1]), ("Wakanda", [0])] = true := by decide +kernel
-- special_chars_filtered_from_json_str
example : ∀ order ∈ [id, List.reverse], okEq (groupsOf (do
    let j := Json.arr [
      nodeJson "GCGB2" [("isp", .str "Google.com")], nodeJson "GCM6Q" [("isp", .str "Google.com.")],
      nodeJson "GCHAR" [("isp", .str "Amazon.com Inc,")], nodeJson "GCARK" [("isp", .str "Google.com,")],
      nodeJson "GABMK" [("isp", .str "Amazon.com, Inc.")]]
    Groupings.ispsFromJson order j (← Fbas.fromJson j)))
    [("Amazon.com Inc", [2, 4]), ("Google.com", [0, 1, 3])] = true := by decide +kernel

/-- The FBAS of several tests. -/
abbrev people : Json :=
  .arr [nodeJson "Jim" [], nodeJson "Jon" [], nodeJson "Alex" [], nodeJson "Bob" []]

/-- The organizations of several tests. -/
abbrev mafia : Json := .arr [orgJson "J Mafia" ["Jim", "Jon"]]

/-- Some sets. -/
abbrev someSets : SetVecResult := .new [{0, 1}, {0, 2}, {3}] none

-- merge_node_sets_by_organization
example : okEq (do
    let f ← Fbas.fromJson (.arr [nodeJson SDF1 [], nodeJson SDF2 [], nodeJson KEYBASE []])
    let orgs ← Groupings.organizationsFromJson (.arr [.obj [
      ("id", .str "266107f8966d45eedce41fee2581326d"), ("name", .str "Stellar Development Foundation"),
      ("validators", strs [SDF3, SDF1, SDF2])]]) f
    orgs.mergeNodeSets [{0}, {1, 2}]) [{0}, {0, 2}] = true := by decide +kernel
-- merge_node_sets_by_isp
example : okEq (do
    let j := Json.arr [nodeJson SDF1 [("isp", .str "Hetzner Gmbh")],
      nodeJson SDF2 [("isp", .str "Hetzner Gmbh")], nodeJson KEYBASE [("isp", .str "Microsoft")]]
    let f ← Fbas.fromJson j
    let isps ← Groupings.ispsFromJson id j f
    isps.mergeNodeSets [{0}, {1, 2}]) [{0}, {0, 2}] = true := by decide +kernel
-- remove_nodes_by_pretty_name
example : okEq (do
    let f ← Fbas.fromJson (.arr [nodeJson "Alex" [], nodeJson "Bob" []])
    let r ← (SetVecResult.new [{0, 1}, {3}] none).withoutNodesPretty ["Bob", "Helen the non-existent"] f none
    r.unwrap) [{0}, {3}] = true := by decide +kernel
-- remove_nodes_by_pretty_name_and_org
example : okEq (do
    let f ← Fbas.fromJson people
    let orgs ← Groupings.organizationsFromJson mafia f
    let r ← someSets.withoutNodesPretty ["J Mafia", "Bob", "Helen the non-existent"] f (some orgs)
    r.unwrap) [∅, {2}, ∅] = true := by decide +kernel
-- merge_results_by_organization
example : okEq (do
    let f ← Fbas.fromJson people
    let orgs ← Groupings.organizationsFromJson
      (.arr [orgJson "J Mafia" ["Jim", "Jon"], orgJson "B Mafia" ["Bob"]]) f
    let r ← someSets.mergedByGroup orgs
    r.unwrap) [{0}, {0, 2}, {3}] = true := by decide +kernel
-- merge_results_by_country
example : okEq (do
    let j := Json.arr [nodeJson "Jim" [("geoData", .obj [("countryName", .str "Oceania,")])],
      nodeJson "Jon" [("geoData", .obj [("countryName", .str "Oceania")])],
      nodeJson "Alex" [("geoData", .obj [("countryName", .str "Eastasia")])], nodeJson "Bob" []]
    let f ← Fbas.fromJson j
    let countries ← Groupings.countriesFromJson id j f
    let r ← someSets.mergedByGroup countries
    r.unwrap) [{0}, {0, 2}, {3}] = true := by decide +kernel
-- into_pretty_vec_keeps_original_order
example : okEq (do
    let f ← Fbas.fromJson people
    let r ← SetResult.new {0, 3} none
    r.intoPrettyVec f none) ["Jim", "Bob"] = true := by decide +kernel
-- into_pretty_vec_vec_keeps_original_order
example : okEq (do
    let f ← Fbas.fromJson people
    (SetVecResult.new [{0, 3}, {1}] none).intoPrettyVecVec f none) [["Jim", "Bob"], ["Jon"]] = true := by
  decide +kernel
-- into_pretty_vec_vec_works_with_orgs
example : okEq (do
    let f ← Fbas.fromJson people
    let orgs ← Groupings.organizationsFromJson mafia f
    (SetVecResult.new [{0, 3}, {1}] none).intoPrettyVecVec f (some orgs)) [["J Mafia", "Bob"], ["J Mafia"]]
    = true := by decide +kernel

/-! ## src/io/graph.rs -/

-- parse_as_rel_line
example : okEq (Graph.getEdgeFromAsRelLine "1|2|0|bgp".toList) (some (1, 2, true)) = true := by
  decide +kernel
-- parses_as_rel_file_contents
example : okEq (do
    let g ← Graph.fromAsRelString
      "# such lines are ignored\n1|2|0|bgp\n2|4|-1|mlp\n4|5|-1|wedontcare\n4|1|0|bgp".toList
    .ok g.outlinks) [[], [2, 4], [1], [], [1, 2], [4]] = true := by decide +kernel
-- parses_as_rel_file_contents_without_duplicates
example : okEq (do
    let g ← Graph.fromAsRelString "1|2|0|bgp\n2|1|0|bgp".toList
    .ok g.outlinks) [[], [2], [1]] = true := by decide +kernel
-- to_as_rel_string_sets_graph_header_correctly
example : okEq ((Graph.newFullMesh 2).toAsRelString (some "blup".toList)) "# blup\n0|1|0\n".toList
    = true := by decide +kernel
-- to_as_rel_string_sets_marks_directed_links_correctly
example : okEq ((⟨[[1], [2], [1]]⟩ : Graph).toAsRelString none) "0|1|-1\n1|2|0\n".toList = true := by
  decide +kernel

end FA.Conformance
