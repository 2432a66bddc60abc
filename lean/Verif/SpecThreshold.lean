import Mathlib.Algebra.Order.Field.Rat
import Mathlib.Algebra.Field.Rat
import Mathlib.Algebra.Order.AbsoluteValue.Basic

/-!
# Specification: thresholds
-/

namespace FA.Spec

/-- `y` is the floating-point number with 53 significant bits that is next to `x`; half way between two
neighbours it is the even one. -/
structure RoundsTo (x y : ℚ) : Prop where
  representable : ∃ m k : ℤ, |m| ≤ 2 ^ 53 ∧ y = m * (2 : ℚ) ^ k
  nearest : ∀ m k : ℤ, |m| ≤ 2 ^ 53 → |y - x| ≤ |(m : ℚ) * (2 : ℚ) ^ k - x|
  even : ∀ m k : ℤ, 2 ^ 52 ≤ m → m < 2 ^ 53 → x = (m + 1 / 2) * (2 : ℚ) ^ k →
    y = (if m % 2 = 0 then m else m + 1 : ℤ) * (2 : ℚ) ^ k

/-- `t` is the threshold for `n` validators: the smallest number of more than two thirds; with a given
fraction, the smallest positive number that is not below the product as computed with `f64`. -/
def ThresholdFor : Option ℚ → ℕ → ℕ → Prop
  | none, n, t => ∀ u : ℕ, t ≤ u ↔ n = 0 ∨ 2 * n < 3 * u
  | some r, n, t => ∃ n' y, RoundsTo n n' ∧ RoundsTo (r * n') y ∧ ∀ u : ℕ, t ≤ u ↔ 1 ≤ u ∧ y ≤ u

end FA.Spec
