import Verif.Spec

/-!
# Specification: numbers that fit into machine words
-/

namespace FA.Spec

/-- A condition that holds for a quorum set and for everything nested in it. -/
inductive Everywhere (P : QuorumSet → Prop) : QuorumSet → Prop
  | intro (q : QuorumSet) : P q → (∀ q' ∈ q.inner, Everywhere P q') → Everywhere P q

/-- Representable with `size` machine words: thresholds are machine words, and the entries fit into
memory. -/
def Representable (size : ℕ) : QuorumSet → Prop :=
  Everywhere (fun q => q.threshold < size ∧ q.validators.length + q.inner.length + 1 < size)

/-- The entries fit into memory. -/
def EntriesFit (size : ℕ) : QuorumSet → Prop :=
  Everywhere (fun q => q.validators.length + q.inner.length + 1 < size)

/-- Thresholds can be doubled. -/
def HalfFits (size : ℕ) : QuorumSet → Prop := Everywhere (fun q => 2 * q.threshold < size)

end FA.Spec
