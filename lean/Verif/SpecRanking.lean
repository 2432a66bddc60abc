import Verif.Spec
import Mathlib.Algebra.BigOperators.Group.Finset.Basic
import Mathlib.Data.Set.Card
import Mathlib.Algebra.Field.Rat
import Mathlib.Algebra.Order.Ring.Rat

/-!
# Specification: ranking of nodes
-/

namespace FA.Spec
open FA

/-- What is assumed about the rounding of nonnegative results: small integers are exact, and the error
is at most half a unit in the last place (`2^-53` relative, or `2^-1075` for tiny numbers). -/
structure HalfUlp (rnd : ℚ → Option ℚ) : Prop where
  int : ∀ n : ℕ, n ≤ 2 ^ 53 → rnd (n : ℚ) = some (n : ℚ)
  near : ∀ x : ℚ, 0 ≤ x → x ≤ 4 →
    ∃ y, rnd x = some y ∧ 0 ≤ y ∧ |y - x| ≤ x / 2 ^ 53 + 1 / 2 ^ 1075

open Classical in
/-- The share of the score of `i` that goes to `j`: nodes divide their score equally among all nodes
they list; only nodes in `S` receive something. -/
noncomputable def trustShare (f : Fbas) (S : Finset NodeId) (i j : NodeId) : ℚ :=
  if j ∈ S ∧ Trusts f i j then 1 / ({y | Trusts f i y}.ncard : ℚ) else 0

/-- The exact score of a node after `k` steps of page rank (without dampening) among the nodes in `S`.
-/
noncomputable def trustRank (f : Fbas) (S : Finset NodeId) : ℕ → NodeId → ℚ
  | 0, _ => 1 / (S.card : ℚ)
  | k + 1, j => ∑ i ∈ S, trustRank f S k i * trustShare f S i j

end FA.Spec
