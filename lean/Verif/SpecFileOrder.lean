import Verif.SpecTool
import Verif.SpecRaw

/-!
# Specification: the same network in another order

Inputs that describe the same network with nodes in another order, and what it means that printed
results are the same.
-/

namespace FA.Spec
open FA

/-- `r'` lists the nodes of `r` in another order, with the same public keys, ISPs and countries; quorum
sets may also be reordered. -/
def SameNetwork (r r' : RawFbas) : Prop :=
  ∃ l : RawFbas, r.Perm l ∧
    List.Forall₂ (fun a b => a.publicKey = b.publicKey ∧ SameQSet a.quorumSet b.quorumSet ∧
      a.isp = b.isp ∧ a.geoData.join = b.geoData.join) l r'

/-- Both list the same names, in any order. -/
def SameNames (j j' : Json) : Prop :=
  ∃ names names' : List String, j = .arr (names.map .str) ∧ j' = .arr (names'.map .str) ∧
    names.Perm names'

/-- Both list the same sets of names, in any order. -/
def SameSetsOfNames (j j' : Json) : Prop :=
  ∃ js js' l : List Json, j = .arr js ∧ j' = .arr js' ∧ js.Perm l ∧ List.Forall₂ SameNames l js'

/-- Both list the same quorum sets, with names of nodes: all lists, also within the quorum sets, may be in
another order. -/
def SameQSetsOfNames (j j' : Json) : Prop :=
  ∃ ps ps' l : List RawQuorumSet, j = .arr (ps.map RawQuorumSet.toJson) ∧
    j' = .arr (ps'.map RawQuorumSet.toJson) ∧ ps.Perm l ∧ List.Forall₂ SameQSet l ps'

/-- The results `j` and `j'` printed with the name `name` say the same: numbers and verdicts are equal;
descriptions of lists of sets are equal; and with names of nodes (`pretty`), the same sets of names are listed.
Not covered: IDs (without `pretty`), symmetric clusters (see `SameQSetsOfNames`) and examples for nonintersecting quorums. -/
def SaysTheSame (opts : Tool.Options) (name : String) (j j' : Json) : Prop :=
  (name ∈ ["nodes_total", "nodes_total_merged", "has_quorum_intersection"] → j' = j) ∧
  (name ∈ ["minimal_quorums", "minimal_blocking_sets", "minimal_splitting_sets"] →
    if opts.describe = true then j' = j else opts.pretty = true → SameSetsOfNames j j') ∧
  (name = "top_tier" → opts.pretty = true → SameNames j j')

end FA.Spec
