import Verif.SpecOutput
import Verif.Model.Output
import Verif.Model.Tool

/-!
# What the command line tool prints

Specification of the results printed by the tool, independent of `Verif/Model/Tool.lean` (only the type of
the command line options is used). `describe` and
`pretty` are the options of these names; `gs` are the groups by which nodes are merged.
-/

namespace FA.Spec
open FA

/-- How a list of sets is shown. -/
def ShowsSets (describe pretty : Bool) (gs : List Grouping) (f : Fbas) (L : List NodeSet) (j : Json) :
    Prop :=
  if describe then Summary L j
  else ∃ js, j = .arr js ∧
    if pretty then List.Forall₂ (ListsNames (ShownAs gs f)) L js else List.Forall₂ ListsIds L js

/-- How a single set is shown (also with `describe`). -/
def ShowsSet (pretty : Bool) (gs : List Grouping) (f : Fbas) (S : NodeSet) (j : Json) : Prop :=
  if pretty then ListsNames (ShownAs gs f) S j else ListsIds S j

/-- How a list of quorum sets is shown (also with `describe`). -/
def ShowsQSets (pretty : Bool) (gs : List Grouping) (f : Fbas) (L : List QuorumSet) (j : Json) : Prop :=
  ∃ js, j = .arr js ∧
    if pretty then
      List.Forall₂ (fun q j => ∃ p : RawQuorumSet, ShowsQSet (ShownAs gs f) q p ∧ j = p.toJson) L js
    else List.Forall₂ ListsQSet L js

/-- `L` lists the minimal sets of groups that have the property `P` together; a group is represented by
its first member. Without groups, these are the minimal sets of nodes with `P`. -/
def MinimalGroupSets (gs : List Grouping) (f : Fbas) (P : NodeSet → Prop) (L : List NodeSet) : Prop :=
  ∀ G, G ∈ L ↔ Minimal (fun G => (∀ x ∈ G, Representative gs f x) ∧ P (expand gs f G)) G

/-- `T` consists of the representatives of the groups of the nodes with `P`. -/
def GroupsOf (gs : List Grouping) (f : Fbas) (P : NodeId → Prop) (T : NodeSet) : Prop :=
  ∀ y, y ∈ T ↔ Representative gs f y ∧ ∃ x, P x ∧ SameGroup gs x y

/-- The set contains a quorum. -/
def ContainsQuorum (f : Fbas) (S : NodeSet) : Prop := ∃ Q, IsQuorum f Q ∧ Q ⊆ S

/-! ## Options -/

open Tool

/-- Nodes are merged by country. -/
def ByCountry (opts : Options) : Prop := opts.ctryMerge = true ∧ opts.nodesPath = true

/-- Nodes are merged by ISP. -/
def ByIsp (opts : Options) : Prop :=
  opts.ctryMerge = false ∧ opts.ispMerge = true ∧ opts.nodesPath = true

/-- Nodes are merged by organization, and the organizations are described by `j`. -/
def ByOrg (opts : Options) (j : Json) : Prop :=
  opts.ctryMerge = false ∧ opts.ispMerge = false ∧ opts.organizations = some j

/-- The alternative check is used. -/
def UsesAlternative (opts : Options) : Prop := opts.dontCheck = false ∧ opts.alternativeCheck = true

/-- `-q`, `-b`, `-s` or `-a`. -/
def WantsQuorums (opts : Options) : Prop := opts.all = true ∨ opts.minimalQuorums = true
def WantsBlocking (opts : Options) : Prop := opts.all = true ∨ opts.minimalBlockingSets = true
def WantsSplitting (opts : Options) : Prop := opts.all = true ∨ opts.minimalSplittingSets = true

/-- The minimal blocking sets are not the first thing that is computed: minimal quorums are also asked
for, or the (usual) check of quorum intersection is made. -/
def QuorumsFirst (opts : Options) : Prop :=
  WantsQuorums opts ∨ (opts.dontCheck = false ∧ opts.alternativeCheck = false)

/-- The minimal blocking sets are the first thing that is computed from the FBAS. -/
def BlockingSetsFirst (opts : Options) : Prop := WantsBlocking opts ∧ ¬ QuorumsFirst opts

end FA.Spec
