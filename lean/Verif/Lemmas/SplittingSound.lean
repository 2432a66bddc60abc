import Verif.Lemmas.SplittingClusters

/-! Every splitting set that is generated for a symmetric cluster is the intersection of two different
minimal quorums, provided that no node is repeated and all inner quorum sets can be satisfied. -/

namespace FA
open Spec QuorumSet

theorem not_mem_combineGroups_zero {gs : List (List NodeSet)} {T : NodeSet} :
    T ∉ combineGroups 0 gs := by
  intro h
  have := (exists_combineGroups_subset (k := 0) (groups := gs) (S := T)).1 ⟨T, h, Finset.Subset.refl _⟩
  omega

theorem Spec.Sane.slices_ne_nil {q : QuorumSet} (h : Sane q) : q.toQuorumSlices ≠ [] := by
  induction q using QuorumSet.induct with
  | h t vs qs ih =>
    obtain ⟨_, hpos, hle, hi⟩ := h
    simp only at hpos hle hi
    obtain ⟨t', rfl⟩ : ∃ t', t = t' + 1 := ⟨t - 1, by omega⟩
    have hne : ∀ g ∈ sliceGroups vs qs, g ≠ [] := by
      intro g hg
      rcases List.mem_append.1 hg with h | h
      · obtain ⟨v, _, rfl⟩ := List.mem_map.1 h; simp
      · obtain ⟨q', hq', rfl⟩ := List.mem_map.1 h
        exact ih q' hq' (hi q' hq')
    obtain ⟨T, hT⟩ := List.exists_mem_of_ne_nil _
      (comb'_ne_nil hne (k := t' + 1) (by simpa [sliceGroups] using hle))
    rw [toQuorumSlices_eq]
    exact List.ne_nil_of_mem ((combineGroups_perm t' _).mem_iff.2 hT)

theorem comb'_singletons (vs : List ℕ) :
    comb' vs.length (vs.map (fun v => [({v} : NodeSet)])) = [vs.toFinset] := by
  have hnil : ∀ (vs : List ℕ) k, vs.length < k →
      comb' k (vs.map (fun v => [({v} : NodeSet)])) = [] := by
    intro vs k hk
    by_contra h
    obtain ⟨T, hT⟩ := List.exists_mem_of_ne_nil _ h
    have := comb'_le_length hT
    simp at this
    omega
  induction vs with
  | nil => simp [comb']
  | cons v vs ih =>
    rw [List.map_cons, List.length_cons, comb', ih, hnil vs _ (by omega)]
    simp

theorem Spec.Sane.meetsStrict {q : QuorumSet} (h : Sane q) (hd : DupFree q) :
    MeetsStrict q.toQuorumSlices q.toSplittingSets := by
  induction q using QuorumSet.induct with
  | h t vs qs ih =>
    obtain ⟨_, hpos, hle, hi⟩ := h
    simp only at hpos hle hi
    have hdi : ∀ q' ∈ qs, DupFree q' := by
      obtain ⟨_, _, _, _, hdi⟩ := hd
      exact hdi
    have ih' := fun q' hq' => ih q' hq' (hi q' hq') (hdi q' hq')
    intro T hT
    rw [toSplittingSets_eq] at hT
    have hTp : T ∈ potentialSplittingSets ⟨t, vs, qs⟩ := by
      unfold dropIfOneQuorum at hT
      split at hT
      next s hs => split at hT <;> [cases hT; exact hs ▸ hT]
      next => exact hT
    have hk' := splittingThreshold_eq ⟨t, vs, qs⟩
    simp only at hk'
    rcases Nat.eq_zero_or_pos (splittingThreshold ⟨t, vs, qs⟩) with h0 | hk
    · rw [potentialSplittingSets, h0] at hTp
      exact absurd hTp not_mem_combineGroups_zero
    obtain ⟨k, hk⟩ : ∃ k, splittingThreshold ⟨t, vs, qs⟩ = k + 1 := ⟨_, (Nat.sub_add_cancel hk).symm⟩
    rw [hk] at hk'
    have hTc : T ∈ comb' (k + 1) (splitGroups vs qs) := by
      rw [potentialSplittingSets, hk] at hTp
      exact (combineGroups_perm k _).mem_iff.1 hTp
    have hlen : (splitGroups vs qs).length = vs.length + qs.length := by simp [splitGroups]
    have hne : ∀ g ∈ sliceGroups vs qs, g ≠ [] := by
      intro g hg
      rcases List.mem_append.1 hg with h | h
      · obtain ⟨v, _, rfl⟩ := List.mem_map.1 h; simp
      · obtain ⟨q', hq', rfl⟩ := List.mem_map.1 h
        exact (hi q' hq').slices_ne_nil
    have hm : List.Forall₂ Meets (sliceGroups vs qs) (splitGroups vs qs) := by
      refine List.rel_append ?_ ?_
      · rw [List.forall₂_map_left_iff, List.forall₂_map_right_iff, List.forall₂_same]
        intro v _ s hs
        simp only [List.mem_singleton] at hs
        exact ⟨{v}, by simp, {v}, by simp, by simp [hs]⟩
      · rw [List.forall₂_map_left_iff, List.forall₂_map_right_iff, List.forall₂_same]
        intro q' hq' s hs
        obtain ⟨p, hp, p', hp', h, _⟩ := ih' q' hq' s hs
        exact ⟨p, hp, p', hp', h⟩
    obtain ⟨P, hP, Q, hQ, h1, h2⟩ := comb'_meets (sliceGroups_good hd) (supports_disjoint hd)
      hne hm (a := vs.length + qs.length - t) (b := vs.length + qs.length - t) hTc (by omega)
    obtain ⟨t', rfl⟩ : ∃ t', t = t' + 1 := ⟨t - 1, by omega⟩
    have he : k + 1 + (vs.length + qs.length - (t' + 1)) = t' + 1 := by omega
    rw [he] at hP hQ
    rw [toQuorumSlices_eq]
    refine ⟨P, (combineGroups_perm t' _).mem_iff.2 hP, Q, (combineGroups_perm t' _).mem_iff.2 hQ,
      h1, h2 ?_⟩
    by_cases hlt : t' + 1 < vs.length + qs.length
    · exact .inl (by omega)
    · right
      refine ⟨by omega, ?_⟩
      by_cases hqs : qs = []
      · exfalso
        subst hqs
        simp only [List.length_nil, Nat.add_zero] at hle hlt hk'
        have hp : potentialSplittingSets ⟨t' + 1, vs, []⟩ = [vs.toFinset] := by
          rw [potentialSplittingSets, hk]
          have := combineGroups_perm k (vs.map (fun v => [({v} : NodeSet)]))
          rw [show k + 1 = vs.length by omega, comb'_singletons] at this
          rw [show k + 1 = vs.length by omega]
          simpa using List.perm_singleton.1 this
        have hsl : Slice vs.toFinset ⟨t' + 1, vs, []⟩ := by
          rw [slice_iff_count]
          have : vs.filter (fun x => decide (x ∈ vs.toFinset)) = vs :=
            List.filter_eq_self.2 (by simp)
          simp only [this]
          exact ⟨by omega, by simp; omega⟩
        rw [hp] at hT
        simp only [dropIfOneQuorum, (isQuorumSlice_iff _ _).2 hsl, if_true] at hT
        cases hT
      · obtain ⟨q, hq⟩ := List.exists_mem_of_ne_nil _ hqs
        refine ⟨(q.toQuorumSlices, q.toSplittingSets), ?_, ih' q hq⟩
        rw [sliceGroups, splitGroups, List.zip_append (by simp), List.mem_append]
        right
        rw [List.zip_map', List.mem_map]
        exact ⟨q, hq, rfl⟩

theorem toMinimalSplittingSets_sound {f : Fbas} {K : NodeSet} {q : QuorumSet}
    (hK : q.containedNodes = K) (hall : ∀ x ∈ K, f.qset x = q) (hd : DupFree q) (hs : Sane q)
    {S : NodeSet} (hS : S ∈ q.toMinimalSplittingSets) :
    ∃ P Q, IsMinQuorum f P ∧ IsMinQuorum f Q ∧ P ≠ Q ∧ P ∩ Q = S := by
  have hnd : ¬ q.containsDuplicates = true := by
    rw [Bool.not_eq_true, containsDuplicates_iff, ← dupFree_iff]; exact hd
  simp only [toMinimalSplittingSets, if_neg hnd] at hS
  obtain ⟨P, hP, Q, hQ, h1, h2⟩ := hs.meetsStrict hd S hS
  rw [mem_toQuorumSlices_iff_minQuorum hK hall hd] at hP hQ
  exact ⟨P, Q, hP.1, hQ.1, h2, h1⟩

theorem findMinimalSplittingSets_sound (env env' : Env) {f : Fbas} (hwf : WF f) {M : List NodeSet}
    (hM : findMinimalQuorums env' f = .ok M) (hsym : ∀ q, SymCluster f q → DupFree q ∧ Sane q)
    {L : List NodeSet} (hL : findMinimalSplittingSets env f M = .ok L) {S : NodeSet} (hS : S ∈ L) :
    ∃ P Q, IsMinQuorum f P ∧ IsMinQuorum f Q ∧ P ≠ Q ∧ P ∩ Q = S := by
  have hKs := consensusClusters_spec env hwf
  rw [findMinimalSplittingSets_eq env hwf] at hL
  rw [← Except.ok.inj hL, sort_mem, List.mem_flatMap] at hS
  obtain ⟨K, hK, hS⟩ := hS
  rcases hKs.findSymmetric hK with ⟨q, h1, _, h2, h3⟩ | ⟨h1, _⟩
  · obtain ⟨h4, h5⟩ := hsym q (hKs.symCluster_of_mem hK h2 h3)
    unfold clusterSplitting at hS
    rw [h1] at hS
    exact toMinimalSplittingSets_sound h2 h3 h4 h5 hS
  · exact ((generic_splitting_spec env env' hwf hM hKs hK h1 S).1 hS).prop.2.2

end FA
