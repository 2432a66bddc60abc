import Verif.Model.Groupings
import Verif.Spec

/-!
# Specification of groups
-/

namespace FA.Spec
open FA

/-- `x` and `y` are the same node or members of a common group. -/
def SameGroup (gs : List Grouping) (x y : NodeId) : Prop :=
  x = y ∨ ∃ org ∈ gs, x ∈ org.validators ∧ y ∈ org.validators

/-- Groups are disjoint: two groups that share a member have the same member list. -/
def DisjointGroups (gs : List Grouping) : Prop :=
  ∀ a ∈ gs, ∀ b ∈ gs, ∀ x ∈ a.validators, x ∈ b.validators → a.validators = b.validators

/-- All members are nodes of the FBAS. -/
def MembersExist (gs : List Grouping) (f : Fbas) : Prop :=
  ∀ org ∈ gs, ∀ v ∈ org.validators, v < f.nodes.length

/-- `x` is the first member of its group or not in any group. -/
def Representative (gs : List Grouping) (f : Fbas) (x : NodeId) : Prop :=
  x < f.nodes.length ∧ ∀ org ∈ gs, x ∈ org.validators → org.validators.head? = some x

open Classical in
/-- All nodes of the groups of the nodes in `G`. -/
noncomputable def expand (gs : List Grouping) (f : Fbas) (G : NodeSet) : NodeSet :=
  (Finset.range f.nodes.length).filter (fun y => ∃ x ∈ G, SameGroup gs x y)

/-- All nodes listed by `q` are in the same group. -/
def OneGroup (gs : List Grouping) (q : QuorumSet) : Prop :=
  ∀ x y, Mentions q x → Mentions q y → SameGroup gs x y

/-- Thresholds are between 1 and the number of entries, and the quorum set does not mix validators of
a single group with inner quorum sets that span several groups: if there is an inner quorum set that
spans several groups, then the validators and the inner quorum sets with nodes of just one group
together have nodes of different groups (or do not exist). -/
inductive GroupShaped (gs : List Grouping) : QuorumSet → Prop
  | intro (q : QuorumSet) (hpos : 1 ≤ q.threshold)
      (hle : q.threshold ≤ q.validators.length + q.inner.length)
      (hmix : ∀ q' ∈ q.inner, ¬ OneGroup gs q' →
        ∀ x, (x ∈ q.validators ∨ ∃ p ∈ q.inner, OneGroup gs p ∧ Mentions p x) →
        ∃ y, (y ∈ q.validators ∨ ∃ p ∈ q.inner, OneGroup gs p ∧ Mentions p y) ∧
          ¬ SameGroup gs x y)
      (hi : ∀ q' ∈ q.inner, GroupShaped gs q') : GroupShaped gs q

/-- On every level there are no validators or two different ones; in the outermost level also a single
validator with threshold 1 is allowed. -/
inductive Unmergeable : QuorumSet → Prop
  | intro (q : QuorumSet) (hv : (q.threshold = 1 ∧ q.validators.length = 1) ∨
        ∀ v ∈ q.validators, ∃ w ∈ q.validators, w ≠ v)
      (hl : ∀ q' ∈ q.inner, q'.validators.length ≠ 1)
      (hi : ∀ q' ∈ q.inner, Unmergeable q') : Unmergeable q

end FA.Spec
