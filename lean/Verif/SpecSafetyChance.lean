import Mathlib.Data.Finset.Card
import Verif.Spec

/-!
# Specification: networks in which nodes choose whom to trust, all with the same threshold
-/

namespace FA.Spec
open FA

/-- Each member of the group trusts at least `t` members, if node `x` trusts the nodes in `V x`. -/
def SelfSufficient {n : ℕ} (t : ℕ) (V : Fin n → Finset NodeId) (A : Finset NodeId) : Prop :=
  A.Nonempty ∧ ∀ x ∈ A, ∃ h : x < n, t ≤ (V ⟨x, h⟩ ∩ A).card

/-- The network does not split: every two such groups have a common member. -/
def AllMeet {n : ℕ} (t : ℕ) (V : Fin n → Finset NodeId) : Prop :=
  ∀ A B, SelfSufficient t V A → SelfSufficient t V B → ∃ x, x ∈ A ∧ x ∈ B

end FA.Spec
