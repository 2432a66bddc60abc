import Verif.Spec

/-!
# Specification of attacks on safety
-/

namespace FA.Spec
open FA

/-- The nodes in `Q` can agree on something if the nodes in `S` behave arbitrarily (e.g. pretend to agree
without regard to their own quorum sets). Only nodes outside of `S` count, as they follow their
quorum sets. -/
def QuorumDespite (f : Fbas) (S Q : NodeSet) : Prop :=
  Q.Nonempty ∧ (∀ x ∈ Q, x ∉ S) ∧ ∀ x ∈ Q, ∃ q, HasQSet f x q ∧ Slice (Q ∪ S) q

/-- If the nodes in `S` behave arbitrarily, then two groups of other nodes can come to different
decisions. -/
def Endangers (f : Fbas) (S : NodeSet) : Prop :=
  ∃ Q₁ Q₂, QuorumDespite f S Q₁ ∧ QuorumDespite f S Q₂ ∧ ∀ x ∈ Q₁, x ∉ Q₂

/-- If the nodes in `S` take part in two decisions at a time (but regard their own quorum sets in
each of them), then two groups of other nodes can come to different decisions. -/
def CanFork (f : Fbas) (S : NodeSet) : Prop :=
  ∃ Q₁ Q₂, IsQuorum f Q₁ ∧ IsQuorum f Q₂ ∧ (∃ x ∈ Q₁, x ∉ S) ∧ (∃ x ∈ Q₂, x ∉ S) ∧
    ∀ x ∈ Q₁, x ∈ Q₂ → x ∈ S

end FA.Spec
