import Verif.Spec
import Mathlib.Data.Finset.Powerset
import Mathlib.Algebra.BigOperators.Group.Finset.Defs

/-!
# Specification: networks of organizations
-/

namespace FA.Spec
open FA

/-- All nodes that belong to one of the disjoint organizations `orgs` have the same quorum set `q`: as many
organizations as its threshold says must agree, where an organization `o` agrees if `need o` of its nodes do.
Every quorum contains a node of an organization. There may be other nodes, with any quorum sets, as long as
they cannot form a quorum on their own. -/
structure OrgCore (f : Fbas) (orgs : Finset NodeSet) (need : NodeSet → ℕ) (q : QuorumSet) : Prop where
  members : ∀ o ∈ orgs, ∀ x ∈ o, HasQSet f x q
  noValidators : q.validators = []
  flat : ∀ p ∈ q.inner, p.inner = [] ∧ p.validators.Nodup
  once : (q.inner.map fun p => p.validators.toFinset).Nodup
  lists : ∀ o, o ∈ orgs ↔ ∃ p ∈ q.inner, p.validators.toFinset = o
  agree : ∀ p ∈ q.inner, p.threshold = need p.validators.toFinset
  disjoint : ∀ o ∈ orgs, ∀ o' ∈ orgs, ∀ x, x ∈ o → x ∈ o' → o = o'
  sizes : ∀ o ∈ orgs, 1 ≤ need o ∧ need o ≤ o.card
  pos : 1 ≤ q.threshold
  le : q.threshold ≤ orgs.card
  needed : ∀ Q, IsQuorum f Q → ∃ o ∈ orgs, ∃ x ∈ o, x ∈ Q

/-- `S` consists of `need o` nodes of each of `k` organizations `o`. -/
def Picks (orgs : Finset NodeSet) (need : NodeSet → ℕ) (k : ℕ) (S : NodeSet) : Prop :=
  ∃ A ⊆ orgs, A.card = k ∧ (∀ o ∈ A, (S ∩ o).card = need o) ∧ ∀ x ∈ S, ∃ o ∈ A, x ∈ o

/-- `L` lists all sets of `need o` nodes of each of `k` organizations, each of them once. -/
def AllPicks (orgs : Finset NodeSet) (need : NodeSet → ℕ) (k : ℕ) (L : List NodeSet) : Prop :=
  L.Nodup ∧ ∀ S, S ∈ L ↔ Picks orgs need k S

/-- How many such sets there are. -/
def pickCount (orgs : Finset NodeSet) (need : NodeSet → ℕ) (k : ℕ) : ℕ :=
  ∑ A ∈ orgs.powersetCard k, ∏ o ∈ A, o.card.choose (need o)

end FA.Spec
