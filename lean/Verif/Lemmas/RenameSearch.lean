import Verif.Lemmas.Rename

/-!
# The searches on an FBAS with renamed nodes
-/

namespace FA
open Spec QuorumSet

namespace Renamed
variable {σ : Equiv.Perm ℕ} {f g : Fbas}

/-- Lists without repetitions whose members correspond. -/
theorem perm_of_mem {l l' : List NodeSet} (hl : l.Nodup) (hl' : l'.Nodup)
    (h : ∀ S, img σ S ∈ l' ↔ S ∈ l) : l'.Perm (l.map (img σ)) := by
  refine (List.perm_ext_iff_of_nodup hl' (hl.map img_injective)).2 (fun S => ?_)
  obtain ⟨S, rfl⟩ : ∃ T, img σ T = S := ⟨_, img_img_symm⟩
  rw [h, List.mem_map_of_injective img_injective]

theorem minimal_img {P P' : NodeSet → Prop} (h : ∀ S, P' (img σ S) ↔ P S) (S : NodeSet) :
    Minimal P' (img σ S) ↔ Minimal P S := by
  constructor
  · intro hm
    refine ⟨(h S).1 hm.prop, fun T hT hsub => ?_⟩
    exact img_subset_iff.1 (hm.le_of_le ((h T).2 hT) (img_subset_iff.2 hsub))
  · intro hm
    refine ⟨(h S).2 hm.prop, fun T hT hsub => ?_⟩
    rw [← img_img_symm (σ := σ) (S := T)] at hT hsub ⊢
    exact img_subset_iff.2 (hm.le_of_le ((h _).1 hT) (img_subset_iff.1 hsub))

theorem isMinimalForQuorum (h : Renamed σ f g) (Q : NodeSet) :
    FA.isMinimalForQuorum g (img σ Q) = FA.isMinimalForQuorum f Q := by
  rw [Bool.eq_iff_iff, isMinimalForQuorum_iff, isMinimalForQuorum_iff]
  constructor
  · intro hm P hP hs
    exact img_injective (hm _ (h.isQuorum.2 hP) (img_subset_iff.2 hs))
  · intro hm P hP hs
    rw [← img_img_symm (σ := σ) (S := P)] at hP hs ⊢
    rw [hm _ (h.isQuorum.1 hP) (img_subset_iff.1 hs)]

theorem toMinimalQuorums (h : Renamed σ f g) (q : QuorumSet) :
    ((rename σ q).toMinimalQuorums g).Perm ((q.toMinimalQuorums f).map (img σ)) := by
  simp only [QuorumSet.toMinimalQuorums, containsDuplicates_rename, removeNonMinimalX_eq]
  have hp := toQuorumSlices_rename (σ := σ) q
  split
  · refine (hp.filter _).trans (List.Perm.of_eq ?_)
    rw [List.filter_map]
    congr 1
    exact List.filter_congr (fun Q _ => h.isMinimalForQuorum Q)
  · exact hp

theorem clusterQuorums (h : Renamed σ f g) (env env' : Env) {Ks : List NodeSet}
    (hKs : IsClusters f Ks) {K : NodeSet} (hK : K ∈ Ks) :
    (FA.clusterQuorums env' g (img σ K)).Perm ((FA.clusterQuorums env f K).map (img σ)) := by
  unfold FA.clusterQuorums
  rcases h.findSymmetric hKs hK with ⟨q, h1, h2, -, -, -⟩ | ⟨h1, h2⟩
  · rw [h1, h2]
    exact h.toMinimalQuorums q
  · rw [h1, h2]
    dsimp only
    obtain ⟨ha1, ha2⟩ := rank_elems env f K
    obtain ⟨hb1, hb2⟩ := rank_elems env' g (img σ K)
    obtain ⟨L, hL1, hL2, hL3⟩ := mqStep_start f (env.rank f (elems K)) ha1 []
    obtain ⟨M, hM1, hM2, hM3⟩ := mqStep_start g (env'.rank g (elems (img σ K))) hb1 []
    rw [hL1, hM1, List.nil_append, List.nil_append]
    refine perm_of_mem hL2 hM2 (fun S => ?_)
    rw [hL3, hM3, ha2, hb2, h.isMinQuorum, img_subset_iff]

theorem hits (h : Renamed σ f g) {K B : NodeSet} : Hits g (img σ K) (img σ B) ↔ Hits f K B := by
  have hd : img σ K \ img σ B = img σ (K \ B) := by
    ext x
    simp only [mem_img, Finset.mem_sdiff]
  unfold Hits
  rw [hd]
  constructor
  · intro hh Q hQ hs
    exact hh _ (h.isQuorum.2 hQ) (img_subset_iff.2 hs)
  · intro hh Q hQ hs
    rw [← img_img_symm (σ := σ) (S := Q)] at hQ hs
    exact hh _ (h.isQuorum.1 hQ) (img_subset_iff.1 hs)

/-- The filter for blocking sets depends on the order of IDs, unless it is not used or removes
everything. -/
theorem toMinimalBlockingSets (h : Renamed σ f g) {q : QuorumSet}
    (hq : DupFree q ∨ ∀ x, Mentions q x → ¬ IsQuorum f {x}) :
    ((rename σ q).toMinimalBlockingSets g).Perm ((q.toMinimalBlockingSets f).map (img σ)) := by
  by_cases hd : DupFree q
  · have hc : q.containsDuplicates = false := (containsDuplicates_iff q).2 ((dupFree_iff q).1 hd)
    simp only [QuorumSet.toMinimalBlockingSets, containsDuplicates_rename, hc]
    exact toBlockingSets_rename q
  · have hno := hq.resolve_left hd
    have hd' : ¬ DupFree (rename σ q) := by
      rw [dupFree_iff, ← containsDuplicates_iff, containsDuplicates_rename, containsDuplicates_iff,
        ← dupFree_iff]
      exact hd
    rw [toMinimalBlockingSets_nil hd hno, toMinimalBlockingSets_nil hd' ?_]
    · exact List.Perm.refl _
    · intro x hx hQ
      obtain ⟨x, rfl⟩ := σ.surjective x
      rw [← img_singleton, h.isQuorum] at hQ
      exact hno x (mentions_rename.1 hx) hQ

theorem clusterBlocking (h : Renamed σ f g) (env env' : Env) {Ks : List NodeSet}
    (hKs : IsClusters f Ks)
    (hsym : ∀ q, SymCluster f q → DupFree q ∨ ∀ x, Mentions q x → ¬ IsQuorum f {x})
    {K : NodeSet} (hK : K ∈ Ks) :
    (FA.clusterBlocking env' g (img σ K)).Perm ((FA.clusterBlocking env f K).map (img σ)) := by
  unfold FA.clusterBlocking
  rcases h.findSymmetric hKs hK with ⟨q, h1, h2, -, -, hq⟩ | ⟨h1, h2⟩
  · rw [h1, h2]
    exact h.toMinimalBlockingSets (hsym q hq)
  · rw [h1, h2]
    dsimp only
    obtain ⟨ha1, ha2⟩ := rank_elems env f K
    obtain ⟨hb1, hb2⟩ := rank_elems env' g (img σ K)
    obtain ⟨L, hL1, hL2, hL3⟩ := mbStep_start f (env.rank f (elems K)) ha1 []
    obtain ⟨M, hM1, hM2, hM3⟩ := mbStep_start g (env'.rank g (elems (img σ K))) hb1 []
    rw [hL1, hM1, List.nil_append, List.nil_append]
    refine perm_of_mem hL2 hM2 (fun S => ?_)
    rw [hL3, hM3, ha2, hb2, img_subset_iff, minimal_img (fun S => h.hits)]

theorem toMinimalSplittingSets (q : QuorumSet) :
    (rename σ q).toMinimalSplittingSets.Perm (q.toMinimalSplittingSets.map (img σ)) := by
  simp only [QuorumSet.toMinimalSplittingSets, containsDuplicates_rename]
  have hp := toSplittingSets_rename (σ := σ) q
  split
  · refine perm_of_mem (removeNonMinimal_nodup _) (removeNonMinimal_nodup _) (fun S => ?_)
    rw [(removeNonMinimal_spec _).1, (removeNonMinimal_spec _).1]
    refine minimal_img (fun T => ?_) S
    rw [hp.mem_iff, List.mem_map_of_injective img_injective]
  · exact hp

theorem kMeet (h : Renamed σ f g) {K S : NodeSet} : KMeet g (img σ K) (img σ S) ↔ KMeet f K S := by
  have hi : ∀ P Q : NodeSet, img σ P ∩ img σ Q = img σ (P ∩ Q) := fun P Q => by
    ext x
    simp only [mem_img, Finset.mem_inter]
  unfold KMeet
  rw [img_nonempty, img_subset_iff]
  refine and_congr_right (fun _ => and_congr_right (fun _ => ?_))
  constructor
  · rintro ⟨P, Q, hP, hQ, hne, he⟩
    rw [← img_img_symm (σ := σ) (S := P)] at hP he hne
    rw [← img_img_symm (σ := σ) (S := Q)] at hQ he hne
    rw [hi] at he
    exact ⟨_, _, h.isMinQuorum.1 hP, h.isMinQuorum.1 hQ, fun h => hne (by rw [h]), img_injective he⟩
  · rintro ⟨P, Q, hP, hQ, hne, he⟩
    exact ⟨_, _, h.isMinQuorum.2 hP, h.isMinQuorum.2 hQ, fun h => hne (img_injective h),
      by rw [hi, he]⟩

theorem clusterSplitting (h : Renamed σ f g) (env env' : Env)
    {Ks : List NodeSet} (hKs : IsClusters f Ks) {M M' : List NodeSet}
    (hM : QuorumsFor f M) (hM' : QuorumsFor g M')
    {K : NodeSet} (hK : K ∈ Ks) :
    (FA.clusterSplitting env' g M' (img σ K)).Perm ((FA.clusterSplitting env f M K).map (img σ)) := by
  rcases h.findSymmetric hKs hK with ⟨q, h1, h2, -, -, hq⟩ | ⟨h1, h2⟩
  · unfold FA.clusterSplitting
    rw [h1, h2]
    exact toMinimalSplittingSets q
  · refine perm_of_mem ?_ ?_ (fun S => ?_)
    · unfold FA.clusterSplitting
      rw [h1]
      exact removeNonMinimal_nodup _
    · unfold FA.clusterSplitting
      rw [h2]
      exact removeNonMinimal_nodup _
    · rw [hM.splitting env hKs hK h1,
        hM'.splitting env' (h.clusters hKs) (List.mem_map_of_mem hK) h2]
      exact minimal_img (fun S => h.kMeet) S

/-! ### Results -/

theorem perm_sort {l l' : List NodeSet} (h : l'.Perm (l.map (img σ))) :
    (sortLen (sortLex l')).Perm ((sortLen (sortLex l)).map (img σ)) := by
  refine ((sortLen_perm _).trans (sortLex_perm _)).trans (h.trans ?_)
  exact (((sortLen_perm _).trans (sortLex_perm _)).map _).symm

theorem clusters_perm (h : Renamed σ f g) (hwf : WF f) (env env' : Env) :
    (consensusClusters env' g).Perm ((consensusClusters env f).map (img σ)) :=
  (consensusClusters_spec env' (h.wf hwf)).perm (h.clusters (consensusClusters_spec env hwf))

theorem findMinimalQuorums (h : Renamed σ f g) (hwf : WF f) (env env' : Env) :
    ∃ L L', FA.findMinimalQuorums env f = .ok L ∧ FA.findMinimalQuorums env' g = .ok L' ∧
      L'.Perm (L.map (img σ)) := by
  have h₁ := consensusClusters_spec env hwf
  have h₂ := consensusClusters_spec env' (h.wf hwf)
  simp only [FA.findMinimalQuorums, findMinimalSets, findSets, minimalQuorumsFinder]
  obtain ⟨L₁, h3, h4⟩ := minimalQuorumsFinderLoop_perm env h₁ _ [] (fun _ h => h)
  obtain ⟨L₂, h5, h6⟩ := minimalQuorumsFinderLoop_perm env' h₂ _ [] (fun _ h => h)
  rw [h3, h5]
  simp only [List.nil_append]
  refine ⟨_, _, rfl, rfl, perm_sort (h6.trans (List.Perm.trans ?_ (h4.map _).symm))⟩
  refine ((h.clusters_perm hwf env env').flatMap_right _).trans ?_
  rw [List.flatMap_map, List.map_flatMap]
  exact List.Perm.flatMap_left _ (fun K hK => h.clusterQuorums env env' h₁ hK)

theorem productUnion_map (gs : List (List NodeSet)) :
    productUnion (gs.map (List.map (img σ))) = (productUnion gs).map (img σ) := by
  induction gs with
  | nil => simp [productUnion, product, unionAll]
  | cons g gs ih =>
    rw [List.map_cons, productUnion_cons, productUnion_cons, ih, List.flatMap_map, List.map_flatMap]
    simp only [List.map_map, Function.comp_def, img_union]

theorem findMinimalBlockingSets (h : Renamed σ f g) (hwf : WF f)
    (hsym : ∀ q, SymCluster f q → DupFree q ∨ ∀ x, Mentions q x → ¬ IsQuorum f {x})
    (env env' : Env) :
    ∃ L L', FA.findMinimalBlockingSets env f = .ok L ∧
      FA.findMinimalBlockingSets env' g = .ok L' ∧ L'.Perm (L.map (img σ)) := by
  have h₁ := consensusClusters_spec env hwf
  rw [findMinimalBlockingSets_eq env hwf, findMinimalBlockingSets_eq env' (h.wf hwf)]
  refine ⟨_, _, rfl, rfl, perm_sort ?_⟩
  have hp := h.clusters_perm hwf env env'
  by_cases hne : consensusClusters env f = []
  · rw [hne, List.map_nil, List.perm_nil] at hp
    rw [hne, hp]
    exact .refl _
  · have hne' : consensusClusters env' g ≠ [] := by
      intro hh
      rw [hh, List.nil_perm, List.map_eq_nil_iff] at hp
      exact hne hp
    rw [multiCartesianProduct_eq_product (by simpa using hne'),
      multiCartesianProduct_eq_product (by simpa using hne), ← productUnion, ← productUnion,
      ← productUnion_map]
    refine (productUnion_perm (hp.map _)).trans (productUnion_forall₂ ?_)
    rw [List.map_map, List.map_map, List.forall₂_map_left_iff, List.forall₂_map_right_iff,
      List.forall₂_same]
    exact fun K hK => h.clusterBlocking env env' h₁ hsym hK

theorem findMinimalSplittingSets (h : Renamed σ f g) (hwf : WF f) (env env' : Env)
    {M M' : List NodeSet} (hM : QuorumsFor f M) (hM' : QuorumsFor g M') :
    ∃ L L', FA.findMinimalSplittingSets env f M = .ok L ∧
      FA.findMinimalSplittingSets env' g M' = .ok L' ∧ L'.Perm (L.map (img σ)) := by
  have h₁ := consensusClusters_spec env hwf
  rw [findMinimalSplittingSets_eq env hwf, findMinimalSplittingSets_eq env' (h.wf hwf)]
  refine ⟨_, _, rfl, rfl, perm_sort ?_⟩
  refine ((h.clusters_perm hwf env env').flatMap_right _).trans ?_
  rw [List.flatMap_map, List.map_flatMap]
  exact List.Perm.flatMap_left _
    (fun K hK => h.clusterSplitting env env' h₁ hM hM' hK)

theorem symCluster (h : Renamed σ f g) {q : QuorumSet} (hs : SortedQSet q) :
    SymCluster g (rename σ q) ↔ SymCluster f q := by
  rw [symCluster_iff, symCluster_iff, containedNodes_rename]
  refine and_congr ⟨fun ha x hx => ?_, fun ha x hx => ?_⟩ ⟨?_, ?_⟩
  · have := ha (σ x) (apply_mem_img.2 hx)
    rw [h.qset] at this
    exact rename_inj (h.sorted _) hs this
  · obtain ⟨x, rfl⟩ := σ.surjective x
    rw [h.qset, ha x (apply_mem_img.1 hx)]
  · rintro ⟨Q, hQ, hsub⟩
    rw [← img_img_symm (σ := σ) (S := Q)] at hQ hsub
    exact ⟨_, h.isQuorum.1 hQ, img_subset_iff.1 hsub⟩
  · rintro ⟨Q, hQ, hsub⟩
    exact ⟨_, h.isQuorum.2 hQ, img_subset_iff.2 hsub⟩

end Renamed
end FA
