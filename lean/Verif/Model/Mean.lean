import Verif.Model.Results
import Verif.Model.Graph

/-!
# Mean set sizes with floating-point numbers

`SetVecResult.mean` is exact. Here, `mean` is computed with `f64`, as the code does.
-/

namespace FA

/-- `mean` (src/analysis/results.rs:119-126), with `f64`: the sum and the number of sets are converted, and
then divided; each of the three steps rounds. Simplified: the sum of sizes does not overflow. -/
def SetVecResult.meanF64 (r : SetVecResult) : ℚ :=
  if r.nodeSets.isEmpty then 0
  else F64.round (F64.round ((r.nodeSets.map Finset.card).sum : ℕ) / F64.round (r.nodeSets.length : ℕ))

end FA
