import Verif.Model.Graph
import Mathlib.Algebra.BigOperators.Group.Finset.Basic

/-!
# Specification: graphs
-/

namespace FA.Spec
open FA

/-- There is a link from `i` to `j`. -/
def Link (g : Graph) (i j : NodeId) : Prop := ∃ l, g.outlinks[i]? = some l ∧ j ∈ l

/-- All links lead to existing nodes. -/
def LinksInRange (g : Graph) : Prop := ∀ i j, Link g i j → j < g.outlinks.length

/-- Every link has a reverse link. -/
def Undirected (g : Graph) : Prop := ∀ i j, Link g i j → Link g j i

/-- No node links to itself and no link is listed twice. -/
def SimpleLinks (g : Graph) : Prop :=
  (∀ i, ¬ Link g i i) ∧ ∀ (i : NodeId) (l : List NodeId), g.outlinks[i]? = some l → l.Nodup

/-- The number of links into `j`. -/
def linksInto (g : Graph) (j : NodeId) : ℕ := (g.outlinks.map (fun l => l.count j)).sum

/-- The number of links. -/
def numLinks (g : Graph) : ℕ := (g.outlinks.map List.length).sum

/-- Node `x` belongs to tier `t` if the nodes are numbered consecutively. -/
def InTier (sizes : List ℕ) (t x : ℕ) : Prop :=
  t < sizes.length ∧ (sizes.take t).sum ≤ x ∧ x < (sizes.take (t + 1)).sum

/-- How often `i` links to `j`. -/
def linkCount (g : Graph) (i j : NodeId) : ℕ := (g.outlinks.getD i []).count j

/-- The number of links of `i`. -/
def outDegree (g : Graph) (i : NodeId) : ℕ := (g.outlinks.getD i []).length

/-- A step of page rank without dampening: every node hands on its score, divided equally among its
links. -/
def rankStep (g : Graph) (s : ℕ → ℚ) (j : NodeId) : ℚ :=
  ∑ i ∈ Finset.range g.outlinks.length, linkCount g i j * (s i / outDegree g i)

/-- The scores after `k` steps; initially all nodes have the same score. -/
def ranks (g : Graph) : ℕ → ℕ → ℚ
  | 0 => fun _ => 1 / g.outlinks.length
  | k + 1 => rankStep g (ranks g k)

/-- The scores change by less than `ε` in step `k`. -/
def Settled (g : Graph) (ε : ℚ) (k : ℕ) : Prop :=
  ∀ j < g.outlinks.length, |ranks g k j - ranks g (k - 1) j| < ε

/-- `h` is `g` with the nodes renamed by `π`. -/
structure Renamed (π : ℕ → ℕ) (g h : Graph) : Prop where
  size : h.outlinks.length = g.outlinks.length
  range : ∀ i < g.outlinks.length, π i < g.outlinks.length
  inj : ∀ i < g.outlinks.length, ∀ j < g.outlinks.length, π i = π j → i = j
  links : ∀ i < g.outlinks.length, ∀ j < g.outlinks.length, (Link h (π i) (π j) ↔ Link g i j)

end FA.Spec
