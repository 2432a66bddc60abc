import Verif.Lemmas.MinQuorums

/-! Independence of `find_minimal_quorums` from ranking and component order. -/

namespace FA
open Spec QuorumSet

/-- The consensus clusters are determined up to their order. -/
theorem IsClusters.perm {f : Fbas} {Ks₁ Ks₂ : List NodeSet} (h₁ : IsClusters f Ks₁)
    (h₂ : IsClusters f Ks₂) : Ks₁.Perm Ks₂ := by
  have key : ∀ {Ks₁ Ks₂ : List NodeSet}, IsClusters f Ks₁ → IsClusters f Ks₂ →
      ∀ K ∈ Ks₁, K ∈ Ks₂ := by
    intro Ks₁ Ks₂ h₁ h₂ K hK
    obtain ⟨Q, hQ, hQK⟩ := h₁.quorum K hK
    obtain ⟨Q', hQ', hsub⟩ := hQ.exists_min
    obtain ⟨K', hK', hsub'⟩ := h₂.cover Q' hQ'
    obtain ⟨x, hx⟩ := hQ'.prop.1
    have : K = K' := by
      ext y
      rw [h₁.same K hK x (hQK (hsub hx)), h₂.same K' hK' x (hsub' hx)]
    exact this ▸ hK'
  exact (List.perm_ext_iff_of_nodup h₁.nodup h₂.nodup).2 (fun K => ⟨key h₁ h₂ K, key h₂ h₁ K⟩)

/-- What one cluster contributes. -/
def clusterQuorums (env : Env) (f : Fbas) (K : NodeSet) : List NodeSet :=
  match findSymmetricClusterInConsensusCluster f K with
  | .ok (some q) => q.toMinimalQuorums f
  | _ => (mqStep f ((env.rank f (elems K)).length + 1) true
      ⟨env.rank f (elems K), ∅, ofList (env.rank f (elems K)), []⟩).found

theorem clusterQuorums_perm (env₁ env₂ : Env) {f : Fbas} {Ks : List NodeSet}
    (hKs : IsClusters f Ks) {K : NodeSet} (hK : K ∈ Ks) :
    (clusterQuorums env₁ f K).Perm (clusterQuorums env₂ f K) := by
  unfold clusterQuorums
  rcases hKs.findSymmetric hK with ⟨q, h1, _, h2, h3⟩ | ⟨h1, _⟩
  · rw [h1]
  · rw [h1]
    dsimp only
    obtain ⟨ha1, ha2⟩ := rank_elems env₁ f K
    obtain ⟨hb1, hb2⟩ := rank_elems env₂ f K
    obtain ⟨L, hL1, hL2, hL3⟩ := mqStep_start f (env₁.rank f (elems K)) ha1 []
    obtain ⟨M, hM1, hM2, hM3⟩ := mqStep_start f (env₂.rank f (elems K)) hb1 []
    rw [hL1, hM1, List.nil_append, List.nil_append]
    refine (List.perm_ext_iff_of_nodup hL2 hM2).2 (fun S => ?_)
    rw [hL3, hM3, ha2, hb2]

theorem minimalQuorumsFinderLoop_perm (env : Env) {f : Fbas} {Ks₀ : List NodeSet}
    (hKs : IsClusters f Ks₀) (Ks found : List NodeSet) (hsub : ∀ K ∈ Ks, K ∈ Ks₀) :
    ∃ L, minimalQuorumsFinderLoop env f Ks found = .ok (found ++ L) ∧
      L.Perm (Ks.flatMap (clusterQuorums env f)) := by
  induction Ks generalizing found with
  | nil => exact ⟨[], by simp [minimalQuorumsFinderLoop], by simp⟩
  | cons K Ks ih =>
    have hK := hsub K (by simp)
    rw [minimalQuorumsFinderLoop, List.flatMap_cons]
    rcases hKs.findSymmetric hK with ⟨q, h1, _, h2, h3⟩ | ⟨h1, _⟩
    · rw [h1]
      dsimp only
      obtain ⟨L, hL1, hL2⟩ := ih (found ++ q.toMinimalQuorums f)
        (fun K hK => hsub K (by simp [hK]))
      refine ⟨q.toMinimalQuorums f ++ L, by rw [hL1, List.append_assoc], ?_⟩
      rw [clusterQuorums, h1]
      exact hL2.append_left _
    · rw [h1]
      dsimp only
      have hr := (rank_elems env f K).1
      obtain ⟨M, hM1, hM2, hM3⟩ := mqStep_start f (env.rank f (elems K)) hr found
      obtain ⟨N, hN1, hN2, hN3⟩ := mqStep_start f (env.rank f (elems K)) hr []
      rw [hM1]
      obtain ⟨L, hL1, hL2⟩ := ih (found ++ M) (fun K hK => hsub K (by simp [hK]))
      refine ⟨M ++ L, by rw [hL1, List.append_assoc], ?_⟩
      rw [clusterQuorums, h1]
      dsimp only
      rw [hN1, List.nil_append]
      refine List.Perm.append ?_ hL2
      exact (List.perm_ext_iff_of_nodup hM2 hN2).2 (fun S => by rw [hM3, hN3])

theorem sort_eq_of_perm {l₁ l₂ : List NodeSet} (h : l₁.Perm l₂) :
    sortLen (sortLex l₁) = sortLen (sortLex l₂) := by
  refine List.Perm.eq_of_pairwise' (sort_sorted l₁) (sort_sorted l₂) ?_
  exact (sortLen_perm _).trans ((sortLex_perm _).trans
    (h.trans ((sortLex_perm _).symm.trans (sortLen_perm _).symm)))

theorem flatMap_perm {α β : Type} {l₁ l₂ : List α} {g₁ g₂ : α → List β} (h : l₁.Perm l₂)
    (hg : ∀ a ∈ l₁, (g₁ a).Perm (g₂ a)) : (l₁.flatMap g₁).Perm (l₂.flatMap g₂) :=
  (List.Perm.flatMap_left l₁ hg).trans (h.flatMap_right g₂)

theorem findMinimalQuorums_env (env₁ env₂ : Env) {f : Fbas} (hwf : WF f) :
    findMinimalQuorums env₁ f = findMinimalQuorums env₂ f := by
  have h₁ := consensusClusters_spec env₁ hwf
  have h₂ := consensusClusters_spec env₂ hwf
  simp only [findMinimalQuorums, findMinimalSets, findSets, minimalQuorumsFinder]
  obtain ⟨L₁, h3, h4⟩ := minimalQuorumsFinderLoop_perm env₁ h₁ _ [] (fun _ h => h)
  obtain ⟨L₂, h5, h6⟩ := minimalQuorumsFinderLoop_perm env₂ h₂ _ [] (fun _ h => h)
  rw [h3, h5]
  simp only [List.nil_append]
  congr 1
  exact sort_eq_of_perm (h4.trans ((flatMap_perm (h₁.perm h₂)
    (fun K hK => clusterQuorums_perm env₁ env₂ h₁ hK)).trans h6.symm))

end FA
