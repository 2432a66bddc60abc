import Verif.SpecRaw

/-!
# Specification of networks that do not depend on each other
-/

namespace FA.Spec
open FA

/-- No node of `r` lists a node of `r'`, and vice versa. -/
def Unrelated (r r' : RawFbas) : Prop :=
  ∀ n ∈ r, ∀ m ∈ r', ¬ RawMentions n.quorumSet m.publicKey ∧ ¬ RawMentions m.quorumSet n.publicKey

/-- A minimal quorum in a raw FBAS. -/
def RawMinQuorum (r : RawFbas) (P : Finset PublicKey) : Prop := Minimal (RawQuorum r) P

/-- A set of public keys that shares one with every quorum, and has no proper subset that does. -/
def RawMinBlocking (r : RawFbas) (B : Finset PublicKey) : Prop :=
  Minimal (fun B => ∀ P, RawQuorum r P → ∃ p, p ∈ P ∧ p ∈ B) B

end FA.Spec
