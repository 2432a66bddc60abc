import Verif.Model.FbasOrder

/-!
# Specification: the order of quorum sets and FBASs
-/

namespace FA.Spec
open FA

/-- `a` comes before `b`: it has a lower threshold; or the same threshold and a validator list that comes first
lexicographically; or it differs only in the inner quorum sets, and their list comes first lexicographically. -/
inductive QSetBefore : QuorumSet → QuorumSet → Prop
  | threshold {a b : QuorumSet} (h : a.threshold < b.threshold) : QSetBefore a b
  | validators {a b : QuorumSet} (ht : a.threshold = b.threshold)
      (h : List.Lex (fun x y : ℕ => x < y) a.validators b.validators) : QSetBefore a b
  | inner {a b : QuorumSet} (ht : a.threshold = b.threshold) (hv : a.validators = b.validators)
      (h : List.Lex QSetBefore a.inner b.inner) : QSetBefore a b

/-- First public keys are compared, then quorum sets. -/
def NodeBefore (a b : Node) : Prop :=
  a.publicKey < b.publicKey ∨ (a.publicKey = b.publicKey ∧ QSetBefore a.quorumSet b.quorumSet)

/-- The order of FBASs is the lexicographic order of their node lists. -/
def FbasBefore (f g : Fbas) : Prop := List.Lex NodeBefore f.nodes g.nodes

end FA.Spec
