import Verif.Lemmas.Quorums
import Verif.Lemmas.Symmetric

/-! Exactness of `find_minimal_quorums`. -/

namespace FA
open Spec QuorumSet

theorem forall₂_exists_right {α β : Type} {R : α → β → Prop} {l : List α} {l' : List β}
    (h : List.Forall₂ R l l') {a : α} (ha : a ∈ l) : ∃ b ∈ l', R a b := by
  induction h with
  | nil => simp at ha
  | cons hab _ ih =>
    rcases List.mem_cons.1 ha with rfl | ha
    · exact ⟨_, by simp, hab⟩
    · obtain ⟨b, hb, hr⟩ := ih ha
      exact ⟨b, by simp [hb], hr⟩

theorem combineGroups_subset {k : ℕ} {groups : List (List NodeSet)} {U T : NodeSet}
    (h : ∀ g ∈ groups, ∀ s ∈ g, s ⊆ U) (hT : T ∈ combineGroups k groups) : T ⊆ U := by
  obtain ⟨_, gs, c, h1, _, hc, rfl⟩ := mem_combineGroups.1 hT
  rw [unionAll_subset]
  intro s hs
  obtain ⟨g, hg, hsg⟩ := forall₂_exists_right hc hs
  exact h g (h1.subset hg) s hsg

theorem toQuorumSlices_subset {q : QuorumSet} {T : NodeSet} (hT : T ∈ q.toQuorumSlices) :
    T ⊆ q.containedNodes := by
  induction q using QuorumSet.induct generalizing T with
  | h t vs qs ih =>
    rw [toQuorumSlices_eq] at hT
    refine combineGroups_subset ?_ hT
    intro g hg s hs
    rw [List.mem_append, List.mem_map, List.mem_map] at hg
    rcases hg with ⟨v, hv, rfl⟩ | ⟨q', hq', rfl⟩
    · rw [List.mem_singleton] at hs
      subst hs
      simp only [Finset.singleton_subset_iff, mem_containedNodes]
      exact .validator hv
    · intro x hx
      exact mem_containedNodes.2 (.inner hq' (mem_containedNodes.1 (ih q' hq' hs hx)))

theorem toQuorumSlices_slice {q : QuorumSet} {T : NodeSet} (hT : T ∈ q.toQuorumSlices) :
    Slice T q := (toQuorumSlices_generates q T).1 ⟨T, hT, Finset.Subset.refl _⟩

/-- For dup-free quorum sets the generated sets are exactly the minimal slices. -/
theorem mem_toQuorumSlices_iff_minimal {q : QuorumSet} (h : DupFree q) {T : NodeSet} :
    T ∈ q.toQuorumSlices ↔ Minimal (fun S => Slice S q) T := by
  rw [minimal_iff]
  constructor
  · intro hT
    refine ⟨toQuorumSlices_slice hT, fun S hS hST => ?_⟩
    obtain ⟨T', hT', hT'S⟩ := (toQuorumSlices_generates q S).2 hS
    have := (toQuorumSlices_good h).antichain T' hT' T hT (hT'S.trans hST)
    subst this
    exact Finset.Subset.antisymm hT'S hST
  · rintro ⟨hT, hmin⟩
    obtain ⟨T', hT', hT'T⟩ := (toQuorumSlices_generates q T).2 hT
    rw [hmin (toQuorumSlices_slice hT') hT'T]
    exact hT'

theorem mem_toMinimalQuorums {f : Fbas} {K : NodeSet} {q : QuorumSet} (hK : q.containedNodes = K)
    (hall : ∀ x ∈ K, f.qset x = q) {S : NodeSet} :
    S ∈ q.toMinimalQuorums f ↔ IsMinQuorum f S ∧ S ⊆ K := by
  have hquorum : ∀ T ∈ q.toQuorumSlices, IsQuorum f T ∧ T ⊆ K := by
    intro T hT
    have hTK : T ⊆ K := hK ▸ toQuorumSlices_subset hT
    exact ⟨(symmetric_quorum_iff hall hTK).2 (toQuorumSlices_slice hT), hTK⟩
  have hmem : IsMinQuorum f S ∧ S ⊆ K → S ∈ q.toQuorumSlices := by
    rintro ⟨hS, hSK⟩
    obtain ⟨T, hT, hTS⟩ := (toQuorumSlices_generates q S).2
      ((symmetric_quorum_iff hall hSK).1 hS.prop)
    rw [← hS.eq_of_subset (hquorum T hT).1 hTS]
    exact hT
  simp only [toMinimalQuorums]
  split
  next hdup =>
    rw [removeNonMinimalX_eq, List.mem_filter]
    constructor
    · rintro ⟨h1, h2⟩
      exact ⟨(isMinimalForQuorum_of_quorum (hquorum S h1).1).1 h2, (hquorum S h1).2⟩
    · intro h
      exact ⟨hmem h, (isMinimalForQuorum_of_quorum h.1.prop).2 h.1⟩
  next hdup =>
    rw [Bool.not_eq_true, containsDuplicates_iff, ← dupFree_iff] at hdup
    refine ⟨fun h => ⟨isMinQuorum_iff.2 ⟨(hquorum S h).1, fun P hP hPS => ?_⟩, (hquorum S h).2⟩,
      hmem⟩
    have hPq := (symmetric_quorum_iff hall (hPS.trans (hquorum S h).2)).1 hP
    exact (((minimal_iff.1 ((mem_toQuorumSlices_iff_minimal hdup).1 h)).2 hPq hPS)).symm

theorem toMinimalQuorums_nodup {f : Fbas} {q : QuorumSet} (h : DupFree q) :
    (q.toMinimalQuorums f).Nodup := by
  simp only [toMinimalQuorums]
  split
  · rw [removeNonMinimalX_eq]; exact (toQuorumSlices_good h).nodup.filter _
  · exact (toQuorumSlices_good h).nodup

theorem rank_elems (env : Env) (f : Fbas) (K : NodeSet) :
    (env.rank f (elems K)).Nodup ∧ (env.rank f (elems K)).toFinset = K := by
  have hp := env.rank_perm f (elems K)
  refine ⟨hp.nodup_iff.2 (elems_nodup K), ?_⟩
  rw [List.toFinset_eq_of_perm _ _ hp, toFinset_elems]

theorem minimalQuorumsFinderLoop_spec (env : Env) {f : Fbas} {Ks₀ : List NodeSet}
    (hKs : IsClusters f Ks₀) (Ks found : List NodeSet) (hsub : ∀ K ∈ Ks, K ∈ Ks₀)
    (hdis : Ks.Pairwise Disjoint) :
    ∃ L, minimalQuorumsFinderLoop env f Ks found = .ok (found ++ L) ∧
      (∀ S, S ∈ L ↔ IsMinQuorum f S ∧ ∃ K ∈ Ks, S ⊆ K) ∧
      ((∀ q, SymCluster f q → DupFree q) → L.Nodup) := by
  induction Ks generalizing found with
  | nil => exact ⟨[], by simp [minimalQuorumsFinderLoop], by simp, by simp⟩
  | cons K Ks ih =>
    rw [List.pairwise_cons] at hdis
    have hK := hsub K (by simp)
    have key : ∃ L₁, minimalQuorumsFinderLoop env f (K :: Ks) found =
        minimalQuorumsFinderLoop env f Ks (found ++ L₁) ∧
        (∀ S, S ∈ L₁ ↔ IsMinQuorum f S ∧ S ⊆ K) ∧
        ((∀ q, SymCluster f q → DupFree q) → L₁.Nodup) := by
      rw [minimalQuorumsFinderLoop]
      rcases hKs.findSymmetric hK with ⟨q, h1, _, h2, h3⟩ | ⟨h1, _⟩
      · rw [h1]
        exact ⟨q.toMinimalQuorums f, rfl, fun S => mem_toMinimalQuorums h2 h3,
          fun hd => toMinimalQuorums_nodup (hd q (hKs.symCluster_of_mem hK h2 h3))⟩
      · rw [h1]
        obtain ⟨hr1, hr2⟩ := rank_elems env f K
        obtain ⟨L, hL1, hL2, hL3⟩ := mqStep_start f (env.rank f (elems K)) hr1 found
        refine ⟨L, by dsimp only; rw [hL1], fun S => ?_, fun _ => hL2⟩
        rw [hL3, hr2]
    obtain ⟨L₁, h1, h2, h3⟩ := key
    obtain ⟨L₂, h4, h5, h6⟩ := ih (found ++ L₁) (fun K hK => hsub K (by simp [hK])) hdis.2
    refine ⟨L₁ ++ L₂, by rw [h1, h4, List.append_assoc], ?_, ?_⟩
    · intro S
      simp only [List.mem_append, h2, h5, List.mem_cons, exists_eq_or_imp]
      tauto
    · intro hd
      rw [List.nodup_append]
      refine ⟨h3 hd, h6 hd, ?_⟩
      rintro S hS _ hS' rfl
      obtain ⟨hS1, hS2⟩ := (h2 S).1 hS
      obtain ⟨_, K', hK', hS3⟩ := (h5 S).1 hS'
      obtain ⟨x, hx⟩ := hS1.prop.1
      exact Finset.disjoint_left.1 (hdis.1 K' hK') (hS2 hx) (hS3 hx)

theorem sort_mem {l : List NodeSet} {S : NodeSet} : S ∈ sortLen (sortLex l) ↔ S ∈ l := by
  rw [(sortLen_perm _).mem_iff, (sortLex_perm _).mem_iff]

theorem sort_nodup {l : List NodeSet} (h : l.Nodup) : (sortLen (sortLex l)).Nodup := by
  rw [(sortLen_perm _).nodup_iff, (sortLex_perm _).nodup_iff]; exact h

theorem sort_sorted (l : List NodeSet) : (sortLen (sortLex l)).Pairwise lenLexLe :=
  sortLen_pairwise _ (sortLex_pairwise _)

theorem findMinimalQuorums_spec (env : Env) {f : Fbas} (hwf : WF f) :
    ∃ L, findMinimalQuorums env f = .ok L ∧ (∀ S, S ∈ L ↔ IsMinQuorum f S) ∧
      L.Pairwise lenLexLe ∧ ((∀ q, SymCluster f q → DupFree q) → L.Nodup) := by
  have hKs := consensusClusters_spec env hwf
  obtain ⟨L, h1, h2, h3⟩ := minimalQuorumsFinderLoop_spec env hKs (consensusClusters env f) []
    (fun K hK => hK) hKs.disjoint
  refine ⟨sortLen (sortLex L), ?_, ?_, sort_sorted L, fun hd => sort_nodup (h3 hd)⟩
  · simp [findMinimalQuorums, findMinimalSets, findSets, minimalQuorumsFinder, h1]
  · intro S
    rw [sort_mem, h2]
    exact ⟨fun h => h.1, fun h => ⟨h, hKs.cover S h⟩⟩

end FA
