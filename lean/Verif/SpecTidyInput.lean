import Verif.SpecSeparate

/-!
# Specification: inputs with a tidy top tier, in terms of public keys
-/

namespace FA.Spec
open FA

/-- No public key is listed twice in a raw quorum set, at any depth; as `DupFree`. -/
inductive RawDupFree : RawQuorumSet → Prop
  | intro (q : RawQuorumSet) (hv : q.validators.Nodup)
      (hvi : ∀ q' ∈ q.inner, ∀ p, RawMentions q' p → p ∉ q.validators)
      (hii : q.inner.Pairwise (fun a b => ∀ p, RawMentions a p → ¬ RawMentions b p))
      (hi : ∀ q' ∈ q.inner, RawDupFree q') : RawDupFree q

/-- All thresholds are at least 1 and at most the number of entries; as `Sane`. -/
inductive RawSane : RawQuorumSet → Prop
  | intro (q : RawQuorumSet) (hpos : 1 ≤ q.threshold)
      (hle : q.threshold ≤ q.validators.length + q.inner.length)
      (hi : ∀ q' ∈ q.inner, RawSane q') : RawSane q

/-- More than half of the entries are needed, and there is a choice; as `Majority`. -/
inductive RawMajority : RawQuorumSet → Prop
  | intro (q : RawQuorumSet) (hmaj : q.validators.length + q.inner.length < 2 * q.threshold)
      (hle : q.threshold ≤ q.validators.length + q.inner.length)
      (hchoice : q.threshold < q.validators.length + q.inner.length ∨ q.inner ≠ [])
      (hi : ∀ q' ∈ q.inner, RawMajority q') : RawMajority q

/-- A node with this public key is part of a minimal quorum. -/
def RawInTopTier (r : RawFbas) (p : PublicKey) : Prop := ∃ P, RawMinQuorum r P ∧ p ∈ P

/-- There is a quorum, and every two quorums share a node. -/
def RawQuorumIntersection (r : RawFbas) : Prop :=
  (∃ P, RawQuorum r P) ∧ ∀ P P', RawQuorum r P → RawQuorum r P' → ∃ p, p ∈ P ∧ p ∈ P'

/-- A set of public keys that contains the intersection of two different minimal quorums, and has no
proper subset that does. -/
def RawMinSplitting (r : RawFbas) (S : Finset PublicKey) : Prop :=
  Minimal (fun S => ∃ P P', RawMinQuorum r P ∧ RawMinQuorum r P' ∧ P ≠ P' ∧ P ∩ P' ⊆ S) S

/-- Nodes in the top tier list only nodes in the top tier and no node twice, and require at least one and
not more than all entries, at all nesting depths. Nothing is required of other nodes. -/
def RawTidyTopTier (r : RawFbas) : Prop :=
  ∀ n ∈ r, RawInTopTier r n.publicKey →
    RawDupFree n.quorumSet ∧ RawSane n.quorumSet ∧ ∀ p, RawMentions n.quorumSet p → RawInTopTier r p

/-- Inner quorum sets of nodes in the top tier require a majority and offer a choice. -/
def RawMajoritiesInside (r : RawFbas) : Prop :=
  ∀ n ∈ r, RawInTopTier r n.publicKey → ∀ q ∈ n.quorumSet.inner, RawMajority q

end FA.Spec
