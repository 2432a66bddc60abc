import Verif.Spec

/-!
# Specification: networks with a tidy top tier
-/

namespace FA.Spec
open FA

/-- Nodes in the top tier list only nodes in the top tier and no node twice, and require at least one and
not more than all entries (at all nesting depths). Nothing is required of other nodes. -/
def TidyTopTier (f : Fbas) : Prop :=
  ∀ x q, InTopTier f x → HasQSet f x q → DupFree q ∧ Sane q ∧ ∀ y, Mentions q y → InTopTier f y

/-- Inner quorum sets of nodes in the top tier require a majority and offer a choice. -/
def MajoritiesInside (f : Fbas) : Prop :=
  ∀ x q, InTopTier f x → HasQSet f x q → ∀ q' ∈ q.inner, Majority q'

end FA.Spec
