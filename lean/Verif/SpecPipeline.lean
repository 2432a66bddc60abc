import Verif.SpecTool
import Verif.SpecUniform

/-!
# Specification: simulated networks on the command line
-/

namespace FA.Spec
open FA Tool

/-- All quorum sets are flat and list no node twice. -/
def Plain (f : Fbas) : Prop := ∀ x q, HasQSet f x q → q.inner = [] ∧ q.validators.Nodup

/-- Nodes are not merged by country, ISP or organization. -/
def Unmerged (opts : Options) : Prop := ¬ ByCountry opts ∧ ¬ ByIsp opts ∧ ∀ j, ¬ ByOrg opts j

/-- Everything that is printed is right for a network `f` in which the nodes in `K` require `q.threshold` of
the nodes in `K`, and in which no quorum can do without nodes in `K`. -/
structure ReportsUniform (opts : Options) (f : Fbas) (K : NodeSet) (q : QuorumSet)
    (printed : List (String × Json)) : Prop where
  total : ∀ j, ("nodes_total", j) ∈ printed → j = .nat f.nodes.length
  clusters : ∀ j, ("symmetric_clusters", j) ∈ printed → ShowsQSets opts.pretty [] f [q] j
  quorums : ∀ j, ("minimal_quorums", j) ∈ printed → ∃ L, AllOfSize K q.threshold L ∧
    L.Pairwise Before ∧ ShowsSets opts.describe opts.pretty [] f L j
  intersection : ∀ j, ("has_quorum_intersection", j) ∈ printed →
    j = .bool (decide (K.card < 2 * q.threshold))
  disjoint : ∀ j, ("nonintersecting_quorums", j) ∈ printed → 2 * q.threshold ≤ K.card
  blocking : ∀ j, ("minimal_blocking_sets", j) ∈ printed → ∃ L,
    AllOfSize K (K.card - q.threshold + 1) L ∧ L.Pairwise Before ∧
      ShowsSets opts.describe opts.pretty [] f L j
  splitting : ∀ j, ("minimal_splitting_sets", j) ∈ printed → ∃ L,
    (2 * q.threshold ≤ K.card → L = [∅]) ∧
    (K.card < 2 * q.threshold → q.threshold = K.card → L = []) ∧
    (K.card < 2 * q.threshold → q.threshold < K.card →
      AllOfSize K (2 * q.threshold - K.card) L ∧ L.Pairwise Before) ∧
    ShowsSets opts.describe opts.pretty [] f L j
  topTier : ∀ j, ("top_tier", j) ∈ printed → ShowsSet opts.pretty [] f K j

end FA.Spec
