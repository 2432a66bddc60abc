import Verif.SpecRaw

/-!
# Specification of failed nodes in the input
-/

namespace FA.Spec
open FA

/-- The input without the nodes that have failed (they are still listed in quorum sets). -/
def withoutFailed (r : RawFbas) (failed : List PublicKey) : RawFbas :=
  r.filter (fun n => decide (n.publicKey ∉ failed))

/-- None of the nodes has failed. -/
def NoneFailed (failed : List PublicKey) (P : Finset PublicKey) : Prop := ∀ p ∈ P, p ∉ failed

end FA.Spec
