import Verif.Props.FrontEndSound
import Verif.Props.Splitting
import Verif.Lemmas.SplittingExact

/-!
# C19: exactly when the reported splitting sets are the minimal splitting sets

`C19_minimal_splitting_sets_partial` gives a sufficient condition (inner quorum sets of symmetric
clusters need a majority of their entries and offer a choice). This file shows that the condition is
also necessary, apart from the trivial case of FBASs with one minimal quorum.
-/

namespace FA.Props

open Spec Analysis

/-- C19, exact criterion for `find_minimal_splitting_sets`: for FBASs with quorum intersection, whose
symmetric clusters list no node twice and have thresholds that can be met, the reported sets are the
minimal splitting sets iff all inner quorum sets of symmetric clusters need a majority and offer a
choice, or there is only one minimal quorum.

Missing: symmetric clusters that list a node twice or contain inner quorum sets that cannot be
satisfied (the claim is false for some of them and accidentally true for others). -/
theorem C19_exact_iff_partial (env : Env) (f : Fbas) (hwf : WF f) (hqi : QuorumIntersection f)
    (hsym : ∀ q, SymCluster f q → DupFree q ∧ Sane q) :
    ∃ M L, findMinimalQuorums env f = .ok M ∧ findMinimalSplittingSets env f M = .ok L ∧
      ((∀ S, S ∈ L ↔ IsMinSplitting f S) ↔
        (∀ q, SymCluster f q → ∀ q' ∈ q.inner, Majority q') ∨
          ∀ P Q, IsMinQuorum f P → IsMinQuorum f Q → P = Q) := by
  obtain ⟨M, hM, _⟩ := findMinimalQuorums_spec env hwf
  exact ⟨M, _, hM, findMinimalSplittingSets_eq env hwf M,
    splitting_exact_iff env env hwf hqi hsym hM (findMinimalSplittingSets_eq env hwf M)⟩

/-- C19, exact criterion for `Analysis::minimal_splitting_sets`: for well-shaped FBASs with quorum
intersection and after any sequence of earlier calls.

Missing: FBASs that are not well-shaped. -/
theorem C19_analysis_exact_iff_partial (env : Env) (f : Fbas) (hwf : WF f) (hqi : QuorumIntersection f)
    (hw : WellShaped env f) (history : List Call) :
    ∃ L, answerAfter env f history .minimalSplittingSets = .ok (.sets L) ∧
      ((∀ S, S ∈ L ↔ IsMinSplitting f S) ↔
        (∀ T : NodeSet, (∀ x, x ∈ T ↔ InTopTier f x) → ∀ f' sm, f.shrunken T = .ok (f', sm) →
          ∀ q, SymCluster f' q → ∀ q' ∈ q.inner, Majority q') ∨
        ∀ P Q, IsMinQuorum f P → IsMinQuorum f Q → P = Q) := by
  obtain ⟨fR, p, hR, hp, _, h⟩ := all_shaped (history := history) (c := .minimalSplittingSets) hwf hw
    (.inr hqi.1) (by simp)
  refine ⟨_, h _ rfl, ?_⟩
  obtain ⟨he, hn⟩ := hp.exact hwf hR
  have hc := Covers.of_topTier he.K
  have hqi' := (hp.is.quorumIntersection hc).2 hqi
  have hsym' := hw.topTier p.K he.K p.f' _ hp.sh
  have hdR : ∀ q, SymCluster fR q → DupFree q := by
    intro q hq
    obtain ⟨g, h1, h2⟩ := f.shrunken_ok (f.relevantNodes env)
    obtain ⟨h3, h4⟩ := hR.qset_eq h2
    exact (hw.relevant g _ h1 q (symCluster_congr h3 h4 q hq)).1
  obtain ⟨M, hM, hM2, hM3, hM4⟩ := findMinimalQuorums_spec env hp.is.wf
  have hMQ : M = p.Q := eq_of_lenLex hM3 he.sortedQ (hM4 (fun q hq => (hsym' q hq).1)) (hn hdR)
    (fun S => by rw [hM2, he.Q])
  have hs := hp.split
  rw [if_pos ((he.verdict hp.is).2 hqi), ← hMQ] at hs
  have key := splitting_exact_iff env env hp.is.wf hqi' hsym' hM hs
  constructor
  · intro hex
    have hex' : ∀ S, S ∈ p.S ↔ IsMinSplitting p.f' S := by
      intro S
      rw [hp.is.isMinSplitting hc]
      constructor
      · intro hS
        exact ⟨hp.good.S S hS, (hex _).1 (List.mem_map_of_mem hS)⟩
      · rintro ⟨hS, hm⟩
        obtain ⟨T, hT, hTS⟩ := List.mem_map.1 ((hex _).2 hm)
        rw [← unSet_injOn (hp.good.S T hT) hS hTS]
        exact hT
    rcases key.1 hex' with h1 | h1
    · left
      intro T hT f' sm hf' q hq
      have hTK : T = p.K := by
        ext x; rw [hT, he.K]
      subst hTK
      have hff := hp.sh
      rw [hf'] at hff
      obtain ⟨rfl, _⟩ := Prod.mk.inj (Except.ok.inj hff)
      exact h1 q hq
    · right
      intro P Q hP hQ
      have e1 : P ⊆ p.K := fun x hx => (he.K x).2 ⟨P, hP, hx⟩
      have e2 : Q ⊆ p.K := fun x hx => (he.K x).2 ⟨Q, hQ, hx⟩
      have := h1 (shrSet p.K P) (shrSet p.K Q)
        (hp.is.isMinQuorum.2 ⟨shrSet_subset _ _, by rwa [unSet_shrSet_of_subset e1]⟩)
        (hp.is.isMinQuorum.2 ⟨shrSet_subset _ _, by rwa [unSet_shrSet_of_subset e2]⟩)
      rw [← unSet_shrSet_of_subset e1, ← unSet_shrSet_of_subset e2, this]
  · intro hor
    refine he.minSplitting hp.is (key.2 ?_)
    rcases hor with h1 | h1
    · exact .inl (h1 p.K he.K p.f' _ hp.sh)
    · right
      intro P Q hP hQ
      have e1 := hp.is.isMinQuorum.1 hP
      have e2 := hp.is.isMinQuorum.1 hQ
      exact unSet_injOn e1.1 e2.1 (h1 _ _ e1.2 e2.2)

theorem fbasSplitLarge_sym {q : QuorumSet} (hq : SymCluster fbasSplitLarge q) :
    DupFree q ∧ Sane q := by
  rw [symCluster_unique (N := 5) (q₀ := qSplitLarge) fbasSplitLarge_wf (by decide +kernel) hq]
  refine ⟨Ref.dupFree_of (by decide), .intro _ (by decide) (by decide) ?_⟩
  simp only [qSplitLarge, List.mem_cons, List.not_mem_nil, or_false]
  rintro q' rfl
  exact .intro _ (by decide) (by decide) (by simp)

theorem fbasSplitLarge_cluster : SymCluster fbasSplitLarge qSplitLarge := by
  obtain ⟨L, h1, h2, _⟩ := C22_symmetric_clusters (Ref.refEnv 5) fbasSplitLarge fbasSplitLarge_wf
  have h3 : findSymmetricClusters (Ref.refEnv 5) fbasSplitLarge = .ok [qSplitLarge] :=
    Ref.ok_of (by decide +kernel)
  rw [h3] at h1
  exact (h2 _).1 (by rw [← Except.ok.inj h1]; exact List.mem_singleton_self _)

/-- Concrete case (negative): the criterion fails for "3 of nodes 2, 3, 4 and one of nodes 0, 1", as
the inner quorum set needs no majority and there are two minimal quorums; and indeed the reported
sets are wrong. -/
example : WF fbasSplitLarge ∧ QuorumIntersection fbasSplitLarge ∧
    ¬ (∀ q, SymCluster fbasSplitLarge q → ∀ q' ∈ q.inner, Majority q') ∧
    (IsMinQuorum fbasSplitLarge {2, 3, 4} ∧ IsMinQuorum fbasSplitLarge {0, 2, 3}) ∧
    findMinimalSplittingSets (Ref.refEnv 5) fbasSplitLarge [] = .ok [{2, 3}, {2, 4}, {3, 4}] ∧
    IsMinSplitting fbasSplitLarge {2} := by
  refine ⟨fbasSplitLarge_wf, by decide +kernel, fun h => ?_, ⟨by decide +kernel, by decide +kernel⟩,
    Ref.ok_of (by decide +kernel), by decide +kernel⟩
  have := h _ fbasSplitLarge_cluster ⟨1, [0, 1], []⟩ (by simp [qSplitLarge])
  obtain ⟨_, h1, _⟩ := this
  exact absurd h1 (by decide)

/-- Concrete case (positive, nested): hypotheses and criterion hold for `fbasNested`. -/
example : WF fbasNested ∧ QuorumIntersection fbasNested ∧
    (∀ q, SymCluster fbasNested q → DupFree q ∧ Sane q) ∧
    ∀ q, SymCluster fbasNested q → ∀ q' ∈ q.inner, Majority q' := by
  have hin : ∀ q' ∈ qSplit.inner, Majority q' := by
    simp only [qSplit, List.mem_cons, List.not_mem_nil, or_false]
    rintro q' (rfl | rfl) <;> exact .intro _ (by decide) (by decide) (by decide) (by simp)
  refine ⟨fbasNested_wf, by decide +kernel, fun q hq => ?_, fun q hq => ?_⟩
  · rw [symCluster_unique (N := 7) (q₀ := qSplit) fbasNested_wf (by decide +kernel) hq]
    refine ⟨Ref.dupFree_of (by decide), .intro _ (by decide) (by decide) ?_⟩
    simp only [qSplit, List.mem_cons, List.not_mem_nil, or_false]
    rintro q' (rfl | rfl) <;> exact .intro _ (by decide) (by decide) (by simp)
  · rw [symCluster_unique (N := 7) (q₀ := qSplit) fbasNested_wf (by decide +kernel) hq]
    exact hin

/-- Concrete case for `Analysis`: hypotheses hold for `fbasFront`. -/
example : WF fbasFront ∧ QuorumIntersection fbasFront ∧ WellShaped (Ref.refEnv 5) fbasFront ∧
    answerAfter (Ref.refEnv 5) fbasFront [.hasQuorumIntersection] .minimalSplittingSets =
      .ok (.sets [{0, 1}, {0, 2}, {0, 4}]) ∧ IsMinSplitting fbasFront {0, 4} :=
  ⟨fbasFront_wf, by decide +kernel, fbasFront_shaped _, Ref.ok_of (by decide +kernel),
    by decide +kernel⟩

#print axioms C19_exact_iff_partial
#print axioms C19_analysis_exact_iff_partial

end FA.Props
