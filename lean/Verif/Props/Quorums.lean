import Verif.Lemmas.Canonical
import Verif.Lemmas.Order
import Verif.Props.Core

/-!
# C09-C11 and C13: minimal quorums, pairwise intersection
-/

namespace FA.Props
open FA Spec

/-! ## C09 -/

/-- C09: `find_minimal_quorums` never panics and returns exactly the minimal quorums. -/
theorem C09_minimal_quorums (env : Env) (f : Fbas) (hwf : WF f) :
    ∃ L, findMinimalQuorums env f = .ok L ∧ ∀ S, S ∈ L ↔ IsMinQuorum f S := by
  obtain ⟨L, h1, h2, _⟩ := findMinimalQuorums_spec env hwf
  exact ⟨L, h1, h2⟩

/-- Concrete case: neither symmetric nor connected. -/
example : WF fbasA ∧ findMinimalQuorums (Ref.refEnv 5) fbasA = .ok [{0, 1}, {0, 2}, {1, 2}] :=
  ⟨fbasA_wf, Ref.ok_of (by decide +kernel)⟩

#print axioms C09_minimal_quorums

/-! ## C10 -/

theorem before_of {l : List NodeSet} (h : l.Pairwise lenLexLe) (hn : l.Nodup) :
    l.Pairwise Before :=
  (List.Pairwise.and h hn).imp (fun h => lenLexLt_iff.1 h)

/-- C10 for FBASs in which no quorum set of a symmetric cluster lists a node twice: the result is
strictly increasing in the reporting order (in particular there are no repetitions).

Missing for the full statement: quorum sets of symmetric clusters that list a node more than once;
there the claim is false, see `C10_counterexample`. -/
theorem C10_canonical_partial (env : Env) (f : Fbas) (hwf : WF f)
    (hdup : ∀ q, SymCluster f q → DupFree q) :
    ∃ L, findMinimalQuorums env f = .ok L ∧ L.Pairwise Before := by
  obtain ⟨L, h1, _, h3, h4⟩ := findMinimalQuorums_spec env hwf
  exact ⟨L, h1, before_of h3 (h4 hdup)⟩

/-- C10, the order part, for all FBASs: later sets are never reported before earlier ones. -/
theorem C10_sorted (env : Env) (f : Fbas) (hwf : WF f) :
    ∃ L, findMinimalQuorums env f = .ok L ∧ L.Pairwise (fun a b => a = b ∨ Before a b) := by
  obtain ⟨L, h1, _, h3, _⟩ := findMinimalQuorums_spec env hwf
  refine ⟨L, h1, h3.imp (fun {a b} h => ?_)⟩
  by_cases e : a = b
  · exact .inl e
  · exact .inr (lenLexLt_iff.1 ⟨h, e⟩)

/-- A node that lists itself twice. -/
def fbasDup : Fbas := Ref.mkFbas [⟨1, [0, 0], []⟩]

theorem fbasDup_wf : WF fbasDup := Ref.wf_of (by decide +kernel)

/-- C10 is false in general: a minimal quorum is reported twice if a symmetric cluster's quorum set
lists a node twice (for every environment). -/
theorem C10_counterexample (env : Env) : WF fbasDup ∧
    findMinimalQuorums env fbasDup = .ok [{0}, {0}] := by
  refine ⟨fbasDup_wf, ?_⟩
  rw [findMinimalQuorums_env env (Ref.refEnv 1) fbasDup_wf]
  exact Ref.ok_of (by decide +kernel)

example : ∃ L, findMinimalQuorums (Ref.refEnv 5) fbasA = .ok L ∧
    L = [{0, 1}, {0, 2}, {1, 2}] := ⟨_, Ref.ok_of (by decide +kernel), rfl⟩

/-- `fbasA` has no symmetric clusters, so it meets the hypothesis of `C10_canonical_partial`. -/
example : ∀ q, SymCluster fbasA q → DupFree q := by
  intro q hq
  obtain ⟨K, hK, h1, h2⟩ := (consensusClusters_spec (Ref.refEnv 5) fbasA_wf).symCluster_mem hq
  have h3 : consensusClusters (Ref.refEnv 5) fbasA = [{0, 1, 2, 3}] := by decide +kernel
  rw [h3, List.mem_singleton] at hK
  subst hK
  exact absurd h1 (by
    have : findSymmetricClustersInNodeSet fbasA {0, 1, 2, 3} = [] := by decide +kernel
    rw [this]; simp)

#print axioms C10_canonical_partial
#print axioms C10_sorted
#print axioms C10_counterexample

/-! ## C11 (minimal quorums; see `Props/Blocking.lean` and `Props/Splitting.lean` for the others) -/

/-- C11: the list of minimal quorums does not depend on ranking or component order. -/
theorem C11_quorums (env₁ env₂ : Env) (f : Fbas) (hwf : WF f) :
    findMinimalQuorums env₁ f = findMinimalQuorums env₂ f := findMinimalQuorums_env env₁ env₂ hwf

example : WF fbasA ∧
    (Ref.refEnv 5).rank fbasA [0, 1, 2, 3] ≠ (Ref.refEnvRev 5).rank fbasA [0, 1, 2, 3] ∧
    findMinimalQuorums (Ref.refEnvRev 5) fbasA = .ok [{0, 1}, {0, 2}, {1, 2}] :=
  ⟨fbasA_wf, by decide +kernel, Ref.ok_of (by decide +kernel)⟩

#print axioms C11_quorums

/-! ## C13 -/

/-- C13: `all_intersect` is true iff any two sets at different positions share a node. -/
theorem C13_allIntersect (l : List NodeSet) :
    allIntersect l = true ↔
      ∀ i j (hi : i < l.length) (hj : j < l.length), i ≠ j → ∃ x, x ∈ l[i] ∧ x ∈ l[j] := by
  rw [allIntersect_iff, List.pairwise_iff_getElem]
  constructor
  · intro h i j hi hj hij
    rcases Nat.lt_or_gt_of_ne hij with hlt | hlt
    · exact h i j hi hj hlt
    · obtain ⟨x, h1, h2⟩ := h j i hj hi hlt
      exact ⟨x, h2, h1⟩
  · intro h i j hi hj hij
    exact h i j hi hj (Nat.ne_of_lt hij)

example : allIntersect [{0, 1, 2}, {1, 3}, {2, 3}] = true ∧
    allIntersect [{0, 1}, {1, 2}, {2, 3}] = false ∧ allIntersect [{0, 1}, {0, 1}] = true ∧
    allIntersect [∅] = true ∧ allIntersect [{0}, ∅] = false := by decide

#print axioms C13_allIntersect

end FA.Props
