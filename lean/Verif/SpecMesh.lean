import Verif.SpecGraph

/-!
# Specification of tiered meshes with empty tiers
-/

namespace FA.Spec
open FA

/-- The sum of the sizes after the last empty tier. -/
def runSum (sizes : List ℕ) : ℕ := (sizes.reverse.takeWhile (0 < ·)).sum

/-- `x` gets a number of tier `t` if numbering starts again at 0 after every empty tier. -/
def Numbered (sizes : List ℕ) (t x : ℕ) : Prop :=
  t < sizes.length ∧ runSum (sizes.take t) ≤ x ∧ x < runSum (sizes.take t) + sizes.getD t 0

instance (sizes : List ℕ) (t x : ℕ) : Decidable (Numbered sizes t x) := by
  unfold Numbered; infer_instance

/-- Tier `t` makes `x` link to `y`: `x` is in this tier, and `y` is another node of it, or in the tier
directly above. -/
def TierConnects (sizes : List ℕ) (t x y : ℕ) : Prop :=
  Numbered sizes t x ∧ ((x ≠ y ∧ Numbered sizes t y) ∨ (0 < t ∧ Numbered sizes (t - 1) y))

instance (sizes : List ℕ) (t x y : ℕ) : Decidable (TierConnects sizes t x y) := by
  unfold TierConnects; infer_instance

/-- Every nonempty tier is the first nonempty one, or directly follows a nonempty one, or consists of one
node and has no node in the tiers next to it. -/
def TiersKept (sizes : List ℕ) : Prop :=
  ∀ pre a suf, sizes = pre ++ a :: suf → 0 < a →
    pre.sum = 0 ∨ (∃ b, pre.getLast? = some b ∧ 0 < b) ∨ (a = 1 ∧ ∀ b, suf.head? = some b → b = 0)

end FA.Spec
