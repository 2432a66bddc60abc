import Verif.Spec

/-!
# Specification: networks with a uniform core
-/

namespace FA.Spec
open FA

/-- All nodes in `K` have the same quorum set `q`, "`t` of the nodes in `K`" with `1 ≤ t ≤ |K|`, and every
quorum contains a node in `K`. There may be other nodes, with any quorum sets, as long as they cannot form a
quorum without a node in `K`. -/
structure UniformCore (f : Fbas) (K : NodeSet) (q : QuorumSet) : Prop where
  members : ∀ x ∈ K, HasQSet f x q
  flat : q.inner = []
  once : q.validators.Nodup
  lists : ∀ y, y ∈ q.validators ↔ y ∈ K
  pos : 1 ≤ q.threshold
  le : q.threshold ≤ K.card
  needed : ∀ Q, IsQuorum f Q → ∃ x, x ∈ Q ∧ x ∈ K

/-- `L` lists all sets of `k` nodes in `K`, each of them once. -/
def AllOfSize (K : NodeSet) (k : ℕ) (L : List NodeSet) : Prop :=
  L.Nodup ∧ ∀ S, S ∈ L ↔ S ⊆ K ∧ S.card = k

end FA.Spec
