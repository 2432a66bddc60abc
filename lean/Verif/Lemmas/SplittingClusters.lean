import Verif.Lemmas.Splitting

/-! From the search for splitting sets in one cluster to `find_minimal_splitting_sets`. -/

namespace FA
open Spec QuorumSet

/-- Non-empty intersections, inside `K`, of two different minimal quorums. -/
def KMeet (f : Fbas) (K S : NodeSet) : Prop :=
  S.Nonempty ∧ S ⊆ K ∧ ∃ P Q, IsMinQuorum f P ∧ IsMinQuorum f Q ∧ P ≠ Q ∧ P ∩ Q = S

/-! ### Minimal quorums of non-symmetric clusters are listed once -/

theorem clusterQuorums_mem (env : Env) {f : Fbas} {Ks : List NodeSet}
    (hKs : IsClusters f Ks) {K : NodeSet} (hK : K ∈ Ks) (S : NodeSet) :
    S ∈ clusterQuorums env f K ↔ IsMinQuorum f S ∧ S ⊆ K := by
  unfold clusterQuorums
  rcases hKs.findSymmetric hK with ⟨q, h1, _, h2, h3⟩ | ⟨h1, _⟩
  · rw [h1]; exact mem_toMinimalQuorums h2 h3
  · rw [h1]
    dsimp only
    obtain ⟨ha1, ha2⟩ := rank_elems env f K
    obtain ⟨L, hL1, hL2, hL3⟩ := mqStep_start f (env.rank f (elems K)) ha1 []
    rw [hL1, List.nil_append, hL3, ha2]

theorem clusterQuorums_nodup (env : Env) {f : Fbas} {K : NodeSet}
    (hns : findSymmetricClusterInConsensusCluster f K = .ok none) :
    (clusterQuorums env f K).Nodup := by
  unfold clusterQuorums
  rw [hns]
  dsimp only
  obtain ⟨ha1, ha2⟩ := rank_elems env f K
  obtain ⟨L, hL1, hL2, hL3⟩ := mqStep_start f (env.rank f (elems K)) ha1 []
  rw [hL1, List.nil_append]
  exact hL2

theorem findMinimalQuorums_filter_nodup (env : Env) {f : Fbas} (hwf : WF f) {M : List NodeSet}
    (hM : findMinimalQuorums env f = .ok M) {Ks : List NodeSet} (hKs : IsClusters f Ks)
    {K : NodeSet} (hK : K ∈ Ks) (hns : findSymmetricClusterInConsensusCluster f K = .ok none)
    {x : ℕ} (hx : x ∈ K) : (M.filter (fun Q => decide (x ∈ Q))).Nodup := by
  have h₁ := consensusClusters_spec env hwf
  obtain ⟨L, h3, h4⟩ := minimalQuorumsFinderLoop_perm env h₁ _ [] (fun _ h => h)
  simp only [findMinimalQuorums, findMinimalSets, findSets, minimalQuorumsFinder, h3,
    List.nil_append] at hM
  injection hM with hM
  subst hM
  have hK' : K ∈ consensusClusters env f := (hKs.perm h₁).mem_iff.1 hK
  have hp : (sortLen (sortLex L)).Perm ((consensusClusters env f).flatMap (clusterQuorums env f)) :=
    (sortLen_perm _).trans ((sortLex_perm _).trans h4)
  rw [(hp.filter _).nodup_iff]
  obtain ⟨Ks', hKs'⟩ : ∃ Ks', (consensusClusters env f).Perm (K :: Ks') :=
    ⟨_, List.perm_cons_erase hK'⟩
  rw [((hKs'.flatMap_right _).filter _).nodup_iff, List.flatMap_cons, List.filter_append]
  have : (Ks'.flatMap (clusterQuorums env f)).filter (fun Q => decide (x ∈ Q)) = [] := by
    rw [List.filter_eq_nil_iff]
    intro S hS
    obtain ⟨K₂, hK₂, hS⟩ := List.mem_flatMap.1 hS
    have hK₂' : K₂ ∈ consensusClusters env f := hKs'.mem_iff.2 (by simp [hK₂])
    have hsub := ((clusterQuorums_mem env h₁ hK₂' S).1 hS).2
    simp only [decide_eq_true_eq]
    intro hxS
    have hpw := (hKs'.pairwise_iff (R := Disjoint) (fun {_ _} h => Disjoint.symm h)).1 h₁.disjoint
    rw [List.pairwise_cons] at hpw
    exact Finset.disjoint_left.1 (hpw.1 K₂ hK₂) hx (hsub hxS)
  rw [this, List.append_nil]
  exact (clusterQuorums_nodup env hns).filter _

/-! ### Symmetric clusters -/

/-- The condition on quorum sets of symmetric clusters under which splitting sets are exact. -/
def SplitCond (q : QuorumSet) : Prop :=
  DupFree q ∧ q.validators.length + q.inner.length < 2 * q.threshold ∧
    q.threshold ≤ q.validators.length + q.inner.length ∧ ∀ q' ∈ q.inner, Majority q'

theorem mem_toQuorumSlices_iff_minQuorum {f : Fbas} {K : NodeSet} {q : QuorumSet}
    (hK : q.containedNodes = K) (hall : ∀ x ∈ K, f.qset x = q) (hd : DupFree q) {S : NodeSet} :
    S ∈ q.toQuorumSlices ↔ IsMinQuorum f S ∧ S ⊆ K := by
  have hnd : ¬ q.containsDuplicates = true := by
    rw [Bool.not_eq_true, containsDuplicates_iff, ← dupFree_iff]; exact hd
  rw [← mem_toMinimalQuorums hK hall]
  simp only [toMinimalQuorums, if_neg hnd]

theorem splitOk_minimal {f : Fbas} {Ks : List NodeSet} (hKs : IsClusters f Ks) {K : NodeSet}
    (hKm : K ∈ Ks) {q : QuorumSet}
    (hK : q.containedNodes = K) (hall : ∀ x ∈ K, f.qset x = q) (hd : DupFree q) (h : SplitOk q)
    (S : NodeSet) : S ∈ q.toSplittingSets ↔ Minimal (KMeet f K) S := by
  have hmeet : ∀ S ∈ q.toSplittingSets, KMeet f K S := by
    intro S hS
    obtain ⟨P, hP, Q, hQ, h1, h2⟩ := h.strict S hS
    rw [mem_toQuorumSlices_iff_minQuorum hK hall hd] at hP hQ
    exact ⟨h.good.nonempty S hS, hK ▸ h.good.sub S hS, P, Q, hP.1, hQ.1, h2, h1⟩
  have hcomplete : ∀ S, KMeet f K S → ∃ T ∈ q.toSplittingSets, T ⊆ S := by
    rintro S ⟨⟨x, hx⟩, hSK, P, Q, hP, hQ, _, rfl⟩
    have hx' := Finset.mem_inter.1 hx
    have hPK := hKs.minQuorum_subset hKm hP hx'.1 (hSK hx)
    have hQK := hKs.minQuorum_subset hKm hQ hx'.2 (hSK hx)
    exact h.complete P Q ((symmetric_quorum_iff hall hPK).1 hP.prop)
      ((symmetric_quorum_iff hall hQK).1 hQ.prop)
  rw [minimal_iff]
  constructor
  · intro hS
    refine ⟨hmeet S hS, fun T hT hTS => ?_⟩
    obtain ⟨T', hT', hsub⟩ := hcomplete T hT
    have := h.good.antichain T' hT' S hS (hsub.trans hTS)
    subst this
    exact Finset.Subset.antisymm hsub hTS
  · rintro ⟨hS, hmin⟩
    obtain ⟨T, hT, hTS⟩ := hcomplete S hS
    rw [hmin (hmeet T hT) hTS]
    exact hT

/-- A quorum set without choice has one slice. -/
theorem slices_of_no_choice {t : ℕ} {vs : List ℕ} (ht : t = vs.length) {P : NodeSet}
    (hP : P ∈ toQuorumSlices ⟨t, vs, []⟩) : P = vs.toFinset := by
  have h1 := toQuorumSlices_slice hP
  have h2 := toQuorumSlices_subset hP
  rw [slice_iff_count] at h1
  simp only [List.filter_nil, List.length_nil, Nat.add_zero] at h1
  have hv : ∀ v ∈ vs, v ∈ P := by
    have hlen : (vs.filter (fun x => decide (x ∈ P))).length = vs.length :=
      Nat.le_antisymm (List.length_filter_le _ _) (by rw [← ht]; exact h1.2)
    rw [List.length_filter_eq_length_iff] at hlen
    intro v hv
    simpa using hlen v hv
  refine Finset.Subset.antisymm (fun x hx => ?_) (fun x hx => hv x (by simpa using hx))
  have := mem_containedNodes.1 (h2 hx)
  cases this with
  | validator h => simpa using h
  | inner h _ => simp at h

theorem toMinimalSplittingSets_spec {f : Fbas} {Ks : List NodeSet} (hKs : IsClusters f Ks)
    {K : NodeSet} (hKm : K ∈ Ks) {q : QuorumSet} (hK : q.containedNodes = K)
    (hall : ∀ x ∈ K, f.qset x = q) (hc : SplitCond q) :
    q.toMinimalSplittingSets.Nodup ∧
      ∀ S, S ∈ q.toMinimalSplittingSets ↔ Minimal (KMeet f K) S := by
  obtain ⟨hd, hmaj, hle, hi⟩ := hc
  have hnd : ¬ q.containsDuplicates = true := by
    rw [Bool.not_eq_true, containsDuplicates_iff, ← dupFree_iff]; exact hd
  simp only [toMinimalSplittingSets, if_neg hnd]
  obtain ⟨t, vs, qs⟩ := q
  simp only at hmaj hle hi
  have hdi := hd
  obtain ⟨_, _, _, _, hdi⟩ := hdi
  have hok : ∀ q ∈ qs, SplitOk q := fun q hq => (hi q hq).splitOk (hdi q hq)
  by_cases hch : t < vs.length + qs.length ∨ qs ≠ []
  · have := splitOk_of_inner hd hok hmaj hle hch
    exact ⟨this.good.nodup, splitOk_minimal hKs hKm hK hall hd this⟩
  · push Not at hch
    obtain ⟨h1, rfl⟩ := hch
    have ht : t = vs.length := by simpa using Nat.le_antisymm hle h1
    have hpot : potentialSplittingSets ⟨t, vs, []⟩ = toQuorumSlices ⟨t, vs, []⟩ := by
      rw [potentialSplittingSets, toQuorumSlices_eq, splittingThreshold_eq]
      simp only [List.length_nil, Nat.add_zero, List.map_nil]
      congr 1
      omega
    have hnil : toSplittingSets ⟨t, vs, []⟩ = [] := by
      rw [toSplittingSets_eq, hpot]
      have hnd := (toQuorumSlices_good hd).nodup
      have hall' := fun P hP => slices_of_no_choice ht (P := P) hP
      have hsl := fun P hP => toQuorumSlices_slice (q := ⟨t, vs, []⟩) (T := P) hP
      rcases hl : toQuorumSlices ⟨t, vs, []⟩ with _ | ⟨P, _ | ⟨Q, l⟩⟩
      · rfl
      · rw [hl] at hsl
        simp only [dropIfOneQuorum]
        rw [if_pos ((isQuorumSlice_iff _ _).2 (hsl P (by simp)))]
      · rw [hl] at hall' hnd
        have := (hall' P (by simp)).trans (hall' Q (by simp)).symm
        rw [List.nodup_cons] at hnd
        exact absurd (by simp [this]) hnd.1
    rw [hnil]
    refine ⟨by simp, fun S => ?_⟩
    simp only [List.not_mem_nil, false_iff]
    intro hS
    obtain ⟨⟨x, hx⟩, hSK, P, Q, hP, hQ, hPQ, rfl⟩ := hS.prop
    have hx' := Finset.mem_inter.1 hx
    have hPK := hKs.minQuorum_subset hKm hP hx'.1 (hSK hx)
    have hQK := hKs.minQuorum_subset hKm hQ hx'.2 (hSK hx)
    refine hPQ ?_
    rw [slices_of_no_choice ht ((mem_toQuorumSlices_iff_minQuorum hK hall hd).2 ⟨hP, hPK⟩),
      slices_of_no_choice ht ((mem_toQuorumSlices_iff_minQuorum hK hall hd).2 ⟨hQ, hQK⟩)]

/-! ### All clusters -/

/-- What one cluster contributes. -/
def clusterSplitting (env : Env) (f : Fbas) (M : List NodeSet) (K : NodeSet) : List NodeSet :=
  match findSymmetricClusterInConsensusCluster f K with
  | .ok (some q) => q.toMinimalSplittingSets
  | _ => removeNonMinimalNodeSets (msStep f ((env.rank f (elems K)).length + 1) M true
      ⟨env.rank f (elems K), ∅, ofList (env.rank f (elems K)), []⟩).found

theorem minimalSplittingSetsFinderLoop_eq (env : Env) {f : Fbas} (M : List NodeSet)
    {Ks₀ : List NodeSet} (hKs : IsClusters f Ks₀) (Ks found : List NodeSet)
    (hsub : ∀ K ∈ Ks, K ∈ Ks₀) :
    minimalSplittingSetsFinderLoop env f M Ks found =
      .ok (found ++ Ks.flatMap (clusterSplitting env f M)) := by
  induction Ks generalizing found with
  | nil => simp [minimalSplittingSetsFinderLoop]
  | cons K Ks ih =>
    have hK := hsub K (by simp)
    rw [minimalSplittingSetsFinderLoop, List.flatMap_cons]
    rcases hKs.findSymmetric hK with ⟨q, h1, _, h2, h3⟩ | ⟨h1, _⟩ <;>
    · rw [h1]
      dsimp only
      rw [ih _ (fun K hK => hsub K (by simp [hK])), clusterSplitting, h1]
      simp

theorem findMinimalSplittingSets_eq (env : Env) {f : Fbas} (hwf : WF f) (M : List NodeSet) :
    findMinimalSplittingSets env f M = .ok (sortLen (sortLex
      ((consensusClusters env f).flatMap (clusterSplitting env f M)))) := by
  have hKs := consensusClusters_spec env hwf
  simp [findMinimalSplittingSets, findMinimalSets, findSets, minimalSplittingSetsFinder,
    minimalSplittingSetsFinderLoop_eq env M hKs _ [] (fun _ h => h)]

/-- A list of quorums as the search for splitting sets needs it: exactly the minimal quorums, with
repetitions only in symmetric clusters. -/
structure QuorumsFor (f : Fbas) (M : List NodeSet) : Prop where
  mem : ∀ S, S ∈ M ↔ IsMinQuorum f S
  nodup : ∀ {Ks : List NodeSet}, IsClusters f Ks → ∀ {K}, K ∈ Ks →
    findSymmetricClusterInConsensusCluster f K = .ok none → ∀ {x}, x ∈ K →
    (M.filter (fun Q => decide (x ∈ Q))).Nodup

theorem quorumsFor_of {env : Env} {f : Fbas} (hwf : WF f) {M : List NodeSet}
    (hM : findMinimalQuorums env f = .ok M) : QuorumsFor f M := by
  obtain ⟨M', hM1, hM2, _⟩ := findMinimalQuorums_spec env hwf
  rw [hM] at hM1
  injection hM1 with hM1
  subst hM1
  exact ⟨hM2, fun hKs _ hK hns _ hx => findMinimalQuorums_filter_nodup env hwf hM hKs hK hns hx⟩

theorem QuorumsFor.splitting (env : Env) {f : Fbas} {M : List NodeSet} (hM : QuorumsFor f M)
    {Ks : List NodeSet} (hKs : IsClusters f Ks)
    {K : NodeSet} (hK : K ∈ Ks) (hns : findSymmetricClusterInConsensusCluster f K = .ok none)
    (S : NodeSet) : S ∈ clusterSplitting env f M K ↔ Minimal (KMeet f K) S := by
  have hM2 := hM.mem
  unfold clusterSplitting
  rw [hns]
  dsimp only
  obtain ⟨hr1, hr2⟩ := rank_elems env f K
  rw [msStep_start f M (fun Q hQ => ((hM2 Q).1 hQ).prop) _ hr1 (by
    rw [hr2]
    intro x hx
    exact hM.nodup hKs hK hns hx), hr2]
  have : (fun S => MeetOf M S ∧ S ⊆ K) = KMeet f K := by
    funext S
    refine propext ⟨?_, ?_⟩
    · rintro ⟨⟨h1, P, hP, Q, hQ, h2, h3⟩, h4⟩
      exact ⟨h1, h4, P, Q, (hM2 P).1 hP, (hM2 Q).1 hQ, h2, h3⟩
    · rintro ⟨h1, h4, P, Q, hP, hQ, h2, h3⟩
      exact ⟨⟨h1, P, (hM2 P).2 hP, Q, (hM2 Q).2 hQ, h2, h3⟩, h4⟩
  rw [this]

theorem generic_splitting_spec (env env' : Env) {f : Fbas} (hwf : WF f) {M : List NodeSet}
    (hM : findMinimalQuorums env' f = .ok M) {Ks : List NodeSet} (hKs : IsClusters f Ks)
    {K : NodeSet} (hK : K ∈ Ks) (hns : findSymmetricClusterInConsensusCluster f K = .ok none)
    (S : NodeSet) : S ∈ clusterSplitting env f M K ↔ Minimal (KMeet f K) S :=
  (quorumsFor_of hwf hM).splitting env hKs hK hns S

theorem clusterSplitting_spec (env env' : Env) {f : Fbas} (hwf : WF f) {M : List NodeSet}
    (hM : findMinimalQuorums env' f = .ok M) {Ks : List NodeSet} (hKs : IsClusters f Ks)
    (hsym : ∀ q, SymCluster f q → SplitCond q) {K : NodeSet} (hK : K ∈ Ks) :
    (clusterSplitting env f M K).Nodup ∧
      ∀ S, S ∈ clusterSplitting env f M K ↔ Minimal (KMeet f K) S := by
  rcases hKs.findSymmetric hK with ⟨q, h1, _, h2, h3⟩ | ⟨h1, _⟩
  · have := toMinimalSplittingSets_spec hKs hK h2 h3 (hsym q (hKs.symCluster_of_mem hK h2 h3))
    unfold clusterSplitting
    rw [h1]
    exact this
  · refine ⟨?_, generic_splitting_spec env env' hwf hM hKs hK h1⟩
    unfold clusterSplitting
    rw [h1]
    exact removeNonMinimal_nodup _

/-- The general result: the minimal sets among the non-empty intersections of two different
minimal quorums, for each cluster. -/
theorem findMinimalSplittingSets_spec (env env' : Env) {f : Fbas} (hwf : WF f) {M : List NodeSet}
    (hM : findMinimalQuorums env' f = .ok M) (hsym : ∀ q, SymCluster f q → SplitCond q) :
    ∃ L, findMinimalSplittingSets env f M = .ok L ∧
      (∀ S, S ∈ L ↔ ∃ K ∈ consensusClusters env f, Minimal (KMeet f K) S) ∧
      L.Nodup ∧ L.Pairwise lenLexLe := by
  have hKs := consensusClusters_spec env hwf
  refine ⟨_, findMinimalSplittingSets_eq env hwf M, fun S => ?_, sort_nodup ?_, sort_sorted _⟩
  · rw [sort_mem, List.mem_flatMap]
    exact exists_congr (fun K => and_congr_right (fun hK =>
      (clusterSplitting_spec env env' hwf hM hKs hsym hK).2 S))
  · rw [List.nodup_flatMap]
    refine ⟨fun K hK => (clusterSplitting_spec env env' hwf hM hKs hsym hK).1, ?_⟩
    refine List.Pairwise.imp_of_mem ?_ hKs.disjoint
    intro K K' hK hK' hd S hS hS'
    have h1 := ((clusterSplitting_spec env env' hwf hM hKs hsym hK).2 S).1 hS
    have h2 := ((clusterSplitting_spec env env' hwf hM hKs hsym hK').2 S).1 hS'
    obtain ⟨x, hx⟩ := h1.prop.1
    exact Finset.disjoint_left.1 hd (h1.prop.2.1 hx) (h2.prop.2.1 hx)

/-- The minimal non-empty meets inside some cluster are those of the whole FBAS. -/
theorem kMeet_iff {f : Fbas} {Ks : List NodeSet} (hKs : IsClusters f Ks) (S : NodeSet) :
    (∃ K ∈ Ks, Minimal (KMeet f K) S) ↔ Minimal (fun S => S.Nonempty ∧
      ∃ P Q, IsMinQuorum f P ∧ IsMinQuorum f Q ∧ P ≠ Q ∧ P ∩ Q = S) S := by
  constructor
  · rintro ⟨K, hK, hS⟩
    refine ⟨⟨hS.prop.1, hS.prop.2.2⟩, fun T hT hTS => ?_⟩
    exact hS.le_of_le (y := T) ⟨hT.1, hTS.trans hS.prop.2.1, hT.2⟩ hTS
  · intro hS
    obtain ⟨⟨x, hx⟩, P, Q, hP, hQ, hPQ, he⟩ := hS.prop
    obtain ⟨K, hK, hPK⟩ := hKs.cover P hP
    refine ⟨K, hK, ⟨⟨x, hx⟩, ?_, P, Q, hP, hQ, hPQ, he⟩, fun T hT hTS => ?_⟩
    · rw [← he]; exact Finset.inter_subset_left.trans hPK
    · exact hS.le_of_le (y := T) ⟨hT.1, hT.2.2⟩ hTS

/-- With quorum intersection these are the minimal splitting sets. -/
theorem minSplitting_iff {f : Fbas} (hqi : QuorumIntersection f) (S : NodeSet) :
    (Minimal (fun S => S.Nonempty ∧
      ∃ P Q, IsMinQuorum f P ∧ IsMinQuorum f Q ∧ P ≠ Q ∧ P ∩ Q = S) S) ↔ IsMinSplitting f S := by
  have hto : ∀ S, (S.Nonempty ∧ ∃ P Q, IsMinQuorum f P ∧ IsMinQuorum f Q ∧ P ≠ Q ∧ P ∩ Q = S) →
      Splitting f S := by
    rintro S ⟨_, P, Q, hP, hQ, hPQ, he⟩
    exact ⟨P, Q, hP, hQ, hPQ, he.le⟩
  have hfrom : ∀ S, Splitting f S → ∃ T, T ⊆ S ∧ (T.Nonempty ∧
      ∃ P Q, IsMinQuorum f P ∧ IsMinQuorum f Q ∧ P ≠ Q ∧ P ∩ Q = T) := by
    rintro S ⟨P, Q, hP, hQ, hPQ, hsub⟩
    obtain ⟨x, hx1, hx2⟩ := hqi.2 P Q hP.prop hQ.prop
    exact ⟨P ∩ Q, hsub, ⟨x, Finset.mem_inter.2 ⟨hx1, hx2⟩⟩, P, Q, hP, hQ, hPQ, rfl⟩
  constructor
  · intro hS
    refine ⟨hto S hS.prop, fun T hT hTS => ?_⟩
    obtain ⟨T', hT'T, hT'⟩ := hfrom T hT
    exact (hS.le_of_le hT' (hT'T.trans hTS)).trans hT'T
  · intro hS
    obtain ⟨T, hTS, hT⟩ := hfrom S hS.prop
    have : T = S := Finset.Subset.antisymm hTS (hS.le_of_le (hto T hT) hTS)
    subst this
    exact ⟨hT, fun T' hT' hsub => hS.le_of_le (hto T' hT') hsub⟩

/-- With quorum intersection, symmetric clusters need a majority at the top level. -/
theorem sym_majority {f : Fbas} (hqi : QuorumIntersection f) {q : QuorumSet}
    (hq : SymCluster f q) (hd : DupFree q)
    (hle : q.threshold ≤ q.validators.length + q.inner.length)
    (hi : ∀ q' ∈ q.inner, Majority q') :
    q.validators.length + q.inner.length < 2 * q.threshold := by
  by_contra hcon
  obtain ⟨hall, Q, hQ, hsub⟩ := symCluster_iff.1 hq
  have hsl := (symmetric_quorum_iff hall hsub).1 hQ
  obtain ⟨t, vs, qs⟩ := q
  simp only at hle hi hcon hall
  have hpos : 1 ≤ t := (slice_iff_count _ _).1 hsl |>.1
  have hdi := hd
  obtain ⟨_, _, _, _, hdi⟩ := hdi
  have hok : ∀ q ∈ qs, SplitOk q := fun q hq => (hi q hq).splitOk (hdi q hq)
  have hlen : (splitGroups vs qs).length = vs.length + qs.length := by simp [splitGroups]
  have h0 : (∅ : NodeSet) ∈ comb' 0 (splitGroups vs qs) := by
    cases splitGroups vs qs <;> simp [comb']
  obtain ⟨P, hP, P', hP', h1, _⟩ := comb'_meets (sliceGroups_good hd) (supports_disjoint hd)
    (sliceGroups_ne_nil hok) (groups_meets hok) (a := t) (b := t) h0 (by omega)
  rw [Nat.zero_add] at hP hP'
  obtain ⟨t, rfl⟩ : ∃ t', t = t' + 1 := ⟨t - 1, by omega⟩
  have hm : ∀ R, R ∈ comb' (t + 1) (sliceGroups vs qs) → IsQuorum f R := by
    intro R hR
    have : R ∈ toQuorumSlices ⟨t + 1, vs, qs⟩ := by
      rw [toQuorumSlices_eq]; exact (combineGroups_perm t _).mem_iff.2 hR
    exact ((mem_toQuorumSlices_iff_minQuorum rfl hall hd).1 this).1.prop
  obtain ⟨x, hx1, hx2⟩ := hqi.2 P P' (hm P hP) (hm P' hP')
  have : x ∈ P ∩ P' := Finset.mem_inter.2 ⟨hx1, hx2⟩
  rw [h1] at this
  simp at this

/-! ### Independence from ranking and component order -/

theorem findMinimalSplittingSets_env (env₁ env₂ env' : Env) {f : Fbas} (hwf : WF f)
    {M : List NodeSet} (hM : findMinimalQuorums env' f = .ok M) :
    findMinimalSplittingSets env₁ f M = findMinimalSplittingSets env₂ f M := by
  have h₁ := consensusClusters_spec env₁ hwf
  have h₂ := consensusClusters_spec env₂ hwf
  rw [findMinimalSplittingSets_eq env₁ hwf, findMinimalSplittingSets_eq env₂ hwf]
  congr 1
  refine sort_eq_of_perm (flatMap_perm (h₁.perm h₂) (fun K hK => ?_))
  rcases h₁.findSymmetric hK with ⟨q, h3, _⟩ | ⟨h3, _⟩
  · unfold clusterSplitting; rw [h3]
  · have e1 := generic_splitting_spec env₁ env' hwf hM h₁ hK h3
    have e2 := generic_splitting_spec env₂ env' hwf hM h₁ hK h3
    unfold clusterSplitting at e1 e2 ⊢
    rw [h3] at e1 e2 ⊢
    exact (List.perm_ext_iff_of_nodup (removeNonMinimal_nodup _) (removeNonMinimal_nodup _)).2
      (fun S => by rw [e1, e2])

end FA
