import Verif.SpecRaw
import Verif.Model.Reuse
import Verif.Model.IoGroupings
import Mathlib.Data.Sum.Basic
import Mathlib.Order.Bounds.Basic

/-!
# Specification of the numbers printed by examples/results_reuse.rs
-/

namespace FA.Spec
open FA

/-- The smallest number of nodes that, together with the nodes `F`, form a set with the property
`P`. -/
def Fewest (P : NodeSet → Prop) (F : NodeSet) (n : ℕ) : Prop :=
  IsLeast {n | ∃ X : NodeSet, X.card = n ∧ P (X ∪ F)} n

/-- The nodes with the given public keys. -/
def withKeys (f : Fbas) (keys : List PublicKey) : NodeSet :=
  (Finset.range f.nodes.length).filter (fun x => nameOf f x ∈ keys)

/-- The public keys of the nodes with the given IDs. -/
def keysOf (f : Fbas) (ids : List NodeId) : List PublicKey :=
  ids.filterMap (fun x => (f.nodes[x]?).map Node.publicKey)

/-- Organizations are disjoint: two organizations that share a validator have the same validators. -/
def DisjointOrganizations (gs : List RawGrouping) : Prop :=
  ∀ a ∈ gs, ∀ b ∈ gs, ∀ p ∈ a.validators, p ∈ b.validators → a.validators = b.validators

/-- Who runs the node with public key `p`: an organization, given by its validators, or nobody else. -/
def owner (gs : List RawGrouping) (p : PublicKey) : List PublicKey ⊕ PublicKey :=
  match gs.find? (fun g => decide (p ∈ g.validators)) with
  | some g => .inl g.validators
  | none => .inr p

/-- The smallest number of different owners of the nodes in a set with the property `P`. -/
def FewestOwners (gs : List RawGrouping) (f : Fbas) (P : NodeSet → Prop) (n : ℕ) : Prop :=
  IsLeast {n | ∃ X : NodeSet, P X ∧ (X.image (fun x => owner gs (nameOf f x))).card = n} n

/-- What the report says about an FBAS, when `failing` and `evil` are the nodes that are failing and
evil. -/
structure Report (f : Fbas) (gs : List RawGrouping) (failing evil : NodeSet)
    (first : List PublicKey) (n m k : ℕ) (last : Reuse.Line) : Prop where
  nodup : first.Nodup
  named : Named f (IsMinBlocking f) first.toFinset
  length : first.length = n
  nodes : Fewest (Blocking f) ∅ n
  organizations : FewestOwners gs f (Blocking f) m
  failures : Fewest (Blocking f) failing k
  safety : (last = Reuse.Line.lacksIntersection ∧ Splitting f evil) ∨
    ∃ c, last = Reuse.Line.moreEvil c ∧ ¬ Splitting f evil ∧
      (Fewest (Splitting f) evil c ∨ (c = 0 ∧ ∀ X, ¬ Splitting f X))

/-- `cache` was filled by finished runs (in environments `E`) that started with an empty cache. -/
inductive FilledByRuns (E : Env → Prop) : Reuse.Cache → Prop
  | empty : FilledByRuns E []
  | run {env : Env} {cache : Reuse.Cache} {lines : List Reuse.Line} {cache' : Reuse.Cache}
      (hash : Json → String) (nodes organizations : Json) (failing : List String) (evil : List NodeId)
      (h : FilledByRuns E cache) (hE : E env)
      (hm : Reuse.main env hash cache nodes organizations failing evil = .ok (lines, cache')) :
      FilledByRuns E cache'

end FA.Spec
