import Verif.Model.Fbas
import Mathlib.Order.Minimal
import Mathlib.Logic.Relation

/-!
# Specification

What the analysed notions mean, independently of how the code computes them. Only the data types
`QuorumSet` and `Fbas` are taken from the model.
-/

namespace FA.Spec
open FA

/-- `Slice S q`: the node set `S` is a quorum slice for `q`. One can pick `threshold` many entries of
`q` (entries are positions in the validator list or in the list of inner quorum sets) so that all
picked validators are in `S` and all picked inner quorum sets are satisfied by `S`. A threshold of 0
is never satisfied. -/
inductive Slice (S : NodeSet) : QuorumSet → Prop
  | intro (q : QuorumSet) (vs : List NodeId) (qs : List QuorumSet)
      (hvs : vs.Sublist q.validators) (hqs : qs.Sublist q.inner)
      (hin : ∀ v ∈ vs, v ∈ S) (hsat : ∀ q' ∈ qs, Slice S q')
      (hpos : 1 ≤ q.threshold) (hlen : vs.length + qs.length = q.threshold) : Slice S q

/-- `Mentions q x`: the quorum set `q` lists the node `x`, at any nesting depth. -/
inductive Mentions : QuorumSet → NodeId → Prop
  | validator {q : QuorumSet} {x : NodeId} : x ∈ q.validators → Mentions q x
  | inner {q q' : QuorumSet} {x : NodeId} : q' ∈ q.inner → Mentions q' x → Mentions q x

/-- Node `x` exists and has quorum set `q`. -/
def HasQSet (f : Fbas) (x : NodeId) (q : QuorumSet) : Prop :=
  ∃ node, f.nodes[x]? = some node ∧ node.quorumSet = q

/-- A quorum: a non-empty set of nodes that contains a slice for each of its members. -/
def IsQuorum (f : Fbas) (Q : NodeSet) : Prop :=
  Q.Nonempty ∧ ∀ x ∈ Q, ∃ q, HasQSet f x q ∧ Slice Q q

/-- A minimal quorum: no proper subset is a quorum. -/
def IsMinQuorum (f : Fbas) (Q : NodeSet) : Prop := Minimal (IsQuorum f) Q

/-- The FBAS has at least one quorum and every two quorums share a node. -/
def QuorumIntersection (f : Fbas) : Prop :=
  (∃ Q, IsQuorum f Q) ∧
    ∀ Q₁ Q₂, IsQuorum f Q₁ → IsQuorum f Q₂ → ∃ x, x ∈ Q₁ ∧ x ∈ Q₂

/-- A blocking set: it shares a node with every quorum. -/
def Blocking (f : Fbas) (B : NodeSet) : Prop := ∀ Q, IsQuorum f Q → ∃ x, x ∈ Q ∧ x ∈ B

/-- A minimal blocking set. -/
def IsMinBlocking (f : Fbas) (B : NodeSet) : Prop := Minimal (Blocking f) B

/-- A splitting set: it contains the intersection of two different minimal quorums. -/
def Splitting (f : Fbas) (S : NodeSet) : Prop :=
  ∃ Q₁ Q₂, IsMinQuorum f Q₁ ∧ IsMinQuorum f Q₂ ∧ Q₁ ≠ Q₂ ∧ Q₁ ∩ Q₂ ⊆ S

/-- A minimal splitting set. -/
def IsMinSplitting (f : Fbas) (S : NodeSet) : Prop := Minimal (Splitting f) S

/-- Top tier: nodes that are part of a minimal quorum. -/
def InTopTier (f : Fbas) (x : NodeId) : Prop := ∃ Q, IsMinQuorum f Q ∧ x ∈ Q

/-- Node `x` lists node `y` in its quorum set. -/
def Trusts (f : Fbas) (x y : NodeId) : Prop := ∃ q, HasQSet f x q ∧ Mentions q y

/-- Reachability in the trust graph. -/
def Reaches (f : Fbas) : NodeId → NodeId → Prop := Relation.ReflTransGen (Trusts f)

/-- All quorum sets only mention existing nodes. -/
def WF (f : Fbas) : Prop := ∀ x y, Trusts f x y → y < f.nodes.length

/-- No node is listed twice in the quorum set (at any depth): all validator lists have no
duplicates and different entries mention disjoint sets of nodes. -/
inductive DupFree : QuorumSet → Prop
  | intro (q : QuorumSet) (hv : q.validators.Nodup)
      (hvi : ∀ q' ∈ q.inner, ∀ x, Mentions q' x → x ∉ q.validators)
      (hii : q.inner.Pairwise (fun a b => ∀ x, Mentions a x → ¬ Mentions b x))
      (hi : ∀ q' ∈ q.inner, DupFree q') : DupFree q

/-- All thresholds (at any depth) are at least 1 and at most the number of entries. -/
inductive Sane : QuorumSet → Prop
  | intro (q : QuorumSet) (hpos : 1 ≤ q.threshold)
      (hle : q.threshold ≤ q.validators.length + q.inner.length)
      (hi : ∀ q' ∈ q.inner, Sane q') : Sane q

/-- At all depths more than half of the entries are needed, and there is a choice: either not all
entries are needed or there are inner quorum sets (which offer a choice themselves). -/
inductive Majority : QuorumSet → Prop
  | intro (q : QuorumSet) (hmaj : q.validators.length + q.inner.length < 2 * q.threshold)
      (hle : q.threshold ≤ q.validators.length + q.inner.length)
      (hchoice : q.threshold < q.validators.length + q.inner.length ∨ q.inner ≠ [])
      (hi : ∀ q' ∈ q.inner, Majority q') : Majority q

/-- `q` describes a symmetric cluster: all nodes it lists have exactly `q` as quorum set, and they
contain a quorum. -/
def SymCluster (f : Fbas) (q : QuorumSet) : Prop :=
  (∀ x, Mentions q x → HasQSet f x q) ∧ ∃ Q, IsQuorum f Q ∧ ∀ x ∈ Q, Mentions q x


/-- The order in which lists of node sets are reported: smaller sets first; sets of equal size in
lexicographic order, i.e. the first node ID that is in only one of the two sets is in the earlier
one. -/
def Before (a b : NodeSet) : Prop :=
  a.card < b.card ∨ (a.card = b.card ∧ ∃ x ∈ a, x ∉ b ∧ ∀ y < x, (y ∈ a ↔ y ∈ b))

end FA.Spec
