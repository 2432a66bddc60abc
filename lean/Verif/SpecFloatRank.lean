import Verif.SpecGraph

/-!
# Specification: rank scores of graphs with floating-point numbers
-/

namespace FA.Spec
open FA

/-- `rnd` rounds numbers of moderate size like `f64` does: with a relative error of at most `1 / 2^53`,
or an absolute one of half the smallest positive number, and never from a number that is not negative
to a negative one. -/
structure Accurate (rnd : ℚ → ℚ) : Prop where
  nonneg : ∀ x : ℚ, 0 ≤ x → x ≤ 4 → 0 ≤ rnd x
  near : ∀ x : ℚ, |x| ≤ 4 → |rnd x - x| ≤ |x| / 2 ^ 53 + 1 / 2 ^ 1075

/-- No node has more than `D` incoming links, and the numbers of nodes, links and steps are small
enough for the errors not to add up to more than one. -/
structure Moderate (g : Graph) (D : ℕ) : Prop where
  range : LinksInRange g
  links : ∀ j < g.outlinks.length, linksInto g j ≤ D
  nodes : g.outlinks.length ≤ 2 ^ 32
  bound : D ≤ 2 ^ 32
  steps : (max (2 * g.outlinks.length) 1000 + 1) * (5 * (D + 1)) ≤ 2 ^ 53

/-- The total of all errors after `k` steps is at most this. -/
def rankError (D k : ℕ) : ℚ := (k + 1) * (5 * (D + 1)) / 2 ^ 53

end FA.Spec
