import Verif.Lemmas.CheckedDebug
import Verif.Lemmas.BlockingAll
import Verif.Lemmas.Subsets
import Verif.Lemmas.FrontEndModes
import Verif.Lemmas.FrontEndShape

/-!
# Helper lemmas: the results are antichains

For the assertions at the end of `find_minimal_sets` it does not matter whether the results are
correct, only whether no reported set contains another one.
-/

namespace FA.Checked
open FA Spec QuorumSet

variable {f : Fbas}

theorem antichain_of_good {L : List NodeSet} {U : NodeSet} (h : GoodGroup L U) : Antichain L := by
  refine List.Pairwise.imp_of_mem ?_ h.nodup
  intro a b ha hb hne
  exact ⟨fun hab => hne (h.antichain a ha b hb hab),
    fun hba => hne (h.antichain b hb a ha hba).symm⟩

theorem dropIfOneQuorum_sublist (q : QuorumSet) (L : List NodeSet) :
    (q.dropIfOneQuorum L).Sublist L := by
  unfold dropIfOneQuorum
  split
  · split
    · exact List.nil_sublist _
    · exact List.Sublist.refl _
  · exact List.Sublist.refl _

theorem good_sublist {L L' : List NodeSet} {U : NodeSet} (h : GoodGroup L U) (hs : L'.Sublist L) :
    GoodGroup L' U :=
  ⟨fun s hs' => h.sub s (hs.subset hs'), fun s hs' => h.nonempty s (hs.subset hs'),
    h.nodup.sublist hs, fun s h1 s' h2 => h.antichain s (hs.subset h1) s' (hs.subset h2)⟩

theorem toSplittingSets_good {q : QuorumSet} (h : DupFree q) :
    GoodGroup q.toSplittingSets q.containedNodes := by
  induction q using QuorumSet.induct with
  | h t vs qs ih =>
    rw [toSplittingSets_eq]
    refine good_sublist ?_ (dropIfOneQuorum_sublist _ _)
    rw [potentialSplittingSets, ← unionAll_supports]
    refine combineGroups_good ?_ (supports_disjoint h) _
    refine List.rel_append ?_ ?_
    · simp only [List.forall₂_map_left_iff, List.forall₂_map_right_iff, List.forall₂_same]
      intro v _
      exact ⟨by simp, by simp, by simp, by simp⟩
    · simp only [List.forall₂_map_left_iff, List.forall₂_map_right_iff, List.forall₂_same]
      intro q' hq'
      obtain ⟨_, _, _, _, hi⟩ := h
      exact ih q' hq' (hi q' hq')

/-! ### Splitting sets: for every FBAS -/

theorem toMinimalSplittingSets_antichain (q : QuorumSet) : Antichain q.toMinimalSplittingSets := by
  simp only [QuorumSet.toMinimalSplittingSets]
  split
  · exact removeNonMinimal_antichain _
  next h =>
    refine antichain_of_good (toSplittingSets_good ?_)
    rwa [Bool.not_eq_true, containsDuplicates_iff, ← dupFree_iff] at h

theorem clusterSplitting_antichain (env : Env) (M : List NodeSet) (K : NodeSet) :
    Antichain (clusterSplitting env f M K) := by
  unfold clusterSplitting
  split
  · exact toMinimalSplittingSets_antichain _
  · exact removeNonMinimal_antichain _

/-- Antichains of non-empty subsets of disjoint sets together form an antichain. -/
theorem flatMap_antichain {Ks : List NodeSet} {F : NodeSet → List NodeSet}
    (hd : Ks.Pairwise Disjoint) (h : ∀ K ∈ Ks, Antichain (F K))
    (hsub : ∀ K ∈ Ks, ∀ S ∈ F K, S ⊆ K ∧ S.Nonempty) : Antichain (Ks.flatMap F) := by
  rw [Antichain, List.pairwise_flatMap]
  refine ⟨h, List.Pairwise.imp_of_mem ?_ hd⟩
  intro K K' hK hK' hdis a ha b hb
  obtain ⟨ha1, x, hx⟩ := hsub K hK a ha
  obtain ⟨hb1, y, hy⟩ := hsub K' hK' b hb
  exact ⟨fun hab => Finset.disjoint_left.1 hdis (ha1 hx) (hb1 (hab hx)),
    fun hba => Finset.disjoint_left.1 hdis (ha1 (hba hy)) (hb1 hy)⟩

theorem findMinimalSplittingSets_antichain (env : Env) (hwf : WF f) {M L : List NodeSet}
    (hL : FA.findMinimalSplittingSets env f M = .ok L) : Antichain L := by
  have hKs := consensusClusters_spec env hwf
  rw [findMinimalSplittingSets_eq env hwf] at hL
  rw [← Except.ok.inj hL, Antichain.perm ((sortLen_perm _).trans (sortLex_perm _))]
  exact flatMap_antichain hKs.disjoint (fun K _ => clusterSplitting_antichain env M K)
    (fun K hK S hS => ⟨clusterSplitting_subset env hKs M hK hS,
      clusterSplitting_nonempty env hKs M hK hS⟩)

theorem findMinimalSplittingSets_total (env : Env) (hwf : WF f) (M : List NodeSet) :
    findMinimalSplittingSets true env f M = FA.findMinimalSplittingSets env f M :=
  findMinimalSplittingSets_ok env (Closed.of_wf hwf) M
    (fun _ _ hL => findMinimalSplittingSets_antichain env hwf hL)

/-! ### Blocking sets -/

theorem clusterBlocking_antichain (env : Env) {Ks : List NodeSet} (hKs : IsClusters f Ks)
    (hsym : ∀ q, SymCluster f q → DupFree q ∨ ∀ x, Mentions q x → ¬ IsQuorum f {x})
    {K : NodeSet} (hK : K ∈ Ks) : Antichain (clusterBlocking env f K) := by
  unfold clusterBlocking
  rcases hKs.findSymmetric hK with ⟨q, h1, _, h2, h3⟩ | ⟨h1, _⟩
  · rw [h1]
    dsimp only
    by_cases hd : DupFree q
    · have hnd : ¬ q.containsDuplicates = true := by
        rw [Bool.not_eq_true, containsDuplicates_iff, ← dupFree_iff]; exact hd
      simp only [QuorumSet.toMinimalBlockingSets, if_neg hnd]
      exact antichain_of_good (toBlockingSets_good hd)
    · rw [toMinimalBlockingSets_nil hd
        ((hsym q (hKs.symCluster_of_mem hK h2 h3)).resolve_left hd)]
      exact List.Pairwise.nil
  · rw [h1]
    dsimp only
    obtain ⟨hr1, hr2⟩ := rank_elems env f K
    obtain ⟨L, hL1, hL2, hL3⟩ := mbStep_start f (env.rank f (elems K)) hr1 []
    rw [hL1, List.nil_append]
    exact Antichain.of_minimal (fun S hS => ((hL3 S).1 hS).1) hL2

theorem productUnion_subset {Ks : List NodeSet} {F : NodeSet → List NodeSet}
    (hsub : ∀ K ∈ Ks, ∀ S ∈ F K, S ⊆ K) {T : NodeSet} (hT : T ∈ productUnion (Ks.map F)) :
    T ⊆ unionAll Ks := by
  induction Ks generalizing T with
  | nil => simp [productUnion, product] at hT; simp [hT]
  | cons K Ks ih =>
    rw [List.map_cons, productUnion_cons, List.mem_flatMap] at hT
    obtain ⟨s, hs, hT⟩ := hT
    obtain ⟨T', hT', rfl⟩ := List.mem_map.1 hT
    rw [unionAll_cons]
    exact Finset.union_subset_union (hsub K (by simp) s hs)
      (ih (fun K hK => hsub K (by simp [hK])) hT')

/-- Choosing one set from each of several antichains over disjoint sets. -/
theorem productUnion_antichain {Ks : List NodeSet} {F : NodeSet → List NodeSet}
    (hd : Ks.Pairwise Disjoint) (h : ∀ K ∈ Ks, Antichain (F K))
    (hsub : ∀ K ∈ Ks, ∀ S ∈ F K, S ⊆ K) : Antichain (productUnion (Ks.map F)) := by
  induction Ks with
  | nil => simp [productUnion, product, Antichain]
  | cons K Ks ih =>
    rw [List.pairwise_cons] at hd
    have hsub' : ∀ K ∈ Ks, ∀ S ∈ F K, S ⊆ K := fun K hK => hsub K (by simp [hK])
    have ih := ih hd.2 (fun K hK => h K (by simp [hK])) hsub'
    have hdis : ∀ T ∈ productUnion (Ks.map F), ∀ x ∈ T, x ∉ K := by
      intro T hT x hx hxK
      obtain ⟨K', hK', hxK'⟩ := mem_unionAll.1 (productUnion_subset hsub' hT hx)
      exact Finset.disjoint_left.1 (hd.1 K' hK') hxK hxK'
    have hK := hsub K (by simp)
    have left : ∀ {s s' T T' : NodeSet}, s ∈ F K → s' ∈ F K → T ∈ productUnion (Ks.map F) →
        T' ∈ productUnion (Ks.map F) → s ∪ T ⊆ s' ∪ T' → s ⊆ s' ∧ T ⊆ T' := by
      intro s s' T T' hs hs' hT hT' hle
      refine ⟨fun x hx => ?_, fun x hx => ?_⟩
      · exact (Finset.mem_union.1 (hle (Finset.mem_union_left _ hx))).resolve_right
          (fun hx' => hdis T' hT' x hx' (hK s hs hx))
      · exact (Finset.mem_union.1 (hle (Finset.mem_union_right _ hx))).resolve_left
          (fun hx' => hdis T hT x hx (hK s' hs' hx'))
    rw [List.map_cons, productUnion_cons, Antichain, List.pairwise_flatMap]
    constructor
    · intro s hs
      rw [List.pairwise_map]
      refine List.Pairwise.imp_of_mem ?_ ih
      intro T T' hT hT' hne
      exact ⟨fun hle => hne.1 (left hs hs hT hT' hle).2, fun hle => hne.2 (left hs hs hT' hT hle).2⟩
    · refine List.Pairwise.imp_of_mem ?_ (h K (by simp))
      intro s s' hs hs' hne X hX Y hY
      obtain ⟨T, hT, rfl⟩ := List.mem_map.1 hX
      obtain ⟨T', hT', rfl⟩ := List.mem_map.1 hY
      exact ⟨fun hle => hne.1 (left hs hs' hT hT' hle).1, fun hle => hne.2 (left hs' hs hT' hT hle).1⟩

theorem findMinimalBlockingSets_antichain (env : Env) (hwf : WF f)
    (hsym : ∀ q, SymCluster f q → DupFree q ∨ ∀ x, Mentions q x → ¬ IsQuorum f {x})
    {L : List NodeSet} (hL : FA.findMinimalBlockingSets env f = .ok L) : Antichain L := by
  have hKs := consensusClusters_spec env hwf
  rw [findMinimalBlockingSets_eq env hwf] at hL
  rw [← Except.ok.inj hL, Antichain.perm ((sortLen_perm _).trans (sortLex_perm _))]
  by_cases hne : FA.consensusClusters env f = []
  · rw [hne]; exact List.Pairwise.nil
  · rw [multiCartesianProduct_eq_product (by simpa using hne), ← productUnion]
    exact productUnion_antichain hKs.disjoint (fun K hK => clusterBlocking_antichain env hKs hsym hK)
      (fun K hK S hS => clusterBlocking_subset env hKs hK hS)

theorem findMinimalBlockingSets_total (env : Env) (hwf : WF f)
    (hsym : ∀ q, SymCluster f q → DupFree q ∨ ∀ x, Mentions q x → ¬ IsQuorum f {x}) :
    findMinimalBlockingSets true env f = FA.findMinimalBlockingSets env f := by
  have hKs := consensusClusters_spec env hwf
  refine findMinimalBlockingSets_ok env (Closed.of_wf hwf) (fun _ K hK q hs hdup => ?_)
    (fun _ L hL => findMinimalBlockingSets_antichain env hwf hsym hL)
  have := clusterBlocking_antichain env hKs hsym hK
  unfold clusterBlocking at this
  rw [hs] at this
  exact this

/-- If anything is reported, an antichain can only come from antichains. -/
theorem antichain_of_productUnion {Ks : List NodeSet} {F : NodeSet → List NodeSet}
    (h : Antichain (productUnion (Ks.map F))) (hne : productUnion (Ks.map F) ≠ []) :
    ∀ K ∈ Ks, Antichain (F K) := by
  induction Ks with
  | nil => simp
  | cons K Ks ih =>
    rw [List.map_cons, productUnion_cons] at h hne
    obtain ⟨S, hS⟩ := List.exists_mem_of_ne_nil _ hne
    obtain ⟨s, hs, hS⟩ := List.mem_flatMap.1 hS
    obtain ⟨T, hT, -⟩ := List.mem_map.1 hS
    rw [Antichain, List.pairwise_flatMap] at h
    obtain ⟨h1, h2⟩ := h
    intro K' hK'
    rcases List.mem_cons.1 hK' with rfl | hK'
    · refine h2.imp ?_
      intro a b hab
      obtain ⟨h3, h4⟩ := hab (a ∪ T) (List.mem_map.2 ⟨T, hT, rfl⟩) (b ∪ T)
        (List.mem_map.2 ⟨T, hT, rfl⟩)
      exact ⟨fun hsub => h3 (Finset.union_subset_union_left hsub),
        fun hsub => h4 (Finset.union_subset_union_left hsub)⟩
    · refine ih ?_ (List.ne_nil_of_mem hT) K' hK'
      have := h1 s hs
      rw [List.pairwise_map] at this
      refine this.imp ?_
      intro a b hab
      exact ⟨fun hsub => hab.1 (Finset.union_subset_union_right hsub),
        fun hsub => hab.2 (Finset.union_subset_union_right hsub)⟩

theorem findMinimalBlockingSets_exact (env : Env) (hwf : WF f) {L : List NodeSet}
    (hL : FA.findMinimalBlockingSets env f = .ok L) (hne : L ≠ []) (hanti : Antichain L) :
    findMinimalBlockingSets true env f = .ok L := by
  rw [← hL]
  refine findMinimalBlockingSets_ok env (Closed.of_wf hwf) (fun _ K hK q hs hdup => ?_)
    (fun _ L' hL' => by rw [hL] at hL'; exact (Except.ok.inj hL') ▸ hanti)
  rw [findMinimalBlockingSets_eq env hwf] at hL
  rw [← Except.ok.inj hL, Antichain.perm ((sortLen_perm _).trans (sortLex_perm _)),
    multiCartesianProduct_eq_product (by simpa using List.ne_nil_of_mem hK), ← productUnion] at hanti
  have hne' : productUnion ((FA.consensusClusters env f).map (clusterBlocking env f)) ≠ [] := by
    rw [multiCartesianProduct_eq_product (by simpa using List.ne_nil_of_mem hK),
      ← productUnion] at hL
    intro h
    rw [h] at hL
    exact hne (by rw [← Except.ok.inj hL]; simp [sortLen, sortLex])
  have := antichain_of_productUnion hanti hne' K hK
  unfold clusterBlocking at this
  rw [hs] at this
  exact this

/-! ### FBASs without repeated nodes -/

theorem dupFree_shrunken {q : QuorumSet} (h : DupFree q) (K : NodeSet) :
    DupFree (q.shrunken (ShrinkManager.new K).shrinkMap) := by
  induction q using QuorumSet.induct with
  | h t vs qs ih =>
    obtain ⟨_, hv, hvi, hii, hi⟩ := h
    simp only at hv hvi hii hi
    have hpv := shrunken_validators_perm (ShrinkManager.new K).shrinkMap ⟨t, vs, qs⟩
    have hpi := shrunken_inner_perm (ShrinkManager.new K).shrinkMap ⟨t, vs, qs⟩
    have hin : ∀ q' ∈ (QuorumSet.shrunken (ShrinkManager.new K).shrinkMap ⟨t, vs, qs⟩).inner,
        ∃ q₀ ∈ qs, q₀.shrunken (ShrinkManager.new K).shrinkMap = q' := by
      intro q' hq'
      rw [hpi.mem_iff, List.mem_filter, List.mem_map] at hq'
      exact hq'.1
    refine .intro _ ?_ ?_ ?_ ?_
    · rw [hpv.nodup_iff]
      refine List.Nodup.filterMap ?_ hv
      intro a a' b hb hb'
      rw [Option.mem_def] at hb hb'
      rw [← ((shrinkMap_get? K a b).1 hb).2, ← ((shrinkMap_get? K a' b).1 hb').2]
    · intro q' hq' i hm hiv
      obtain ⟨q₀, hq₀, rfl⟩ := hin q' hq'
      rw [hpv.mem_iff, List.mem_filterMap] at hiv
      obtain ⟨v, hv', hg⟩ := hiv
      obtain ⟨_, rfl⟩ := (shrinkMap_get? K v i).1 hg
      exact hvi q₀ hq₀ _ (mentions_shrunken.1 hm).2 hv'
    · rw [hpi.pairwise_iff (fun {a b} hab x hb ha => hab x ha hb)]
      refine List.Pairwise.filter _ ?_
      rw [List.pairwise_map]
      refine hii.imp ?_
      intro a b hab i ha hb
      exact hab _ (mentions_shrunken.1 ha).2 (mentions_shrunken.1 hb).2
    · intro q' hq'
      obtain ⟨q₀, hq₀, rfl⟩ := hin q' hq'
      exact ih q₀ hq₀ (hi q₀ hq₀)

/-- No quorum set lists a node twice. -/
def NoRepeats (f : Fbas) : Prop := ∀ x, DupFree (f.qset x)

theorem dupFree_empty : DupFree QuorumSet.empty :=
  .intro _ (by simp [QuorumSet.empty]) (by simp [QuorumSet.empty]) (by simp [QuorumSet.empty])
    (by simp [QuorumSet.empty])

theorem noRepeats_of (h : ∀ x q, HasQSet f x q → DupFree q) : NoRepeats f := by
  intro x
  by_cases hx : x < f.nodes.length
  · exact h x _ (hasQSet_iff.2 ⟨hx, rfl⟩)
  · rw [Fbas.qset_of_ge (Nat.le_of_not_lt hx)]; exact dupFree_empty

theorem NoRepeats.shrunken (h : NoRepeats f) {K : NodeSet} {f' : Fbas} {sm : ShrinkManager}
    (hs : f.shrunken K = .ok (f', sm)) : NoRepeats f' := by
  have hsh := isShrunken_of_shrunken hs
  intro x
  by_cases hx : x < f'.nodes.length
  · rw [hsh.qset x (hsh.len ▸ hx)]; exact dupFree_shrunken (h _) K
  · rw [Fbas.qset_of_ge (Nat.le_of_not_lt hx)]; exact dupFree_empty

theorem NoRepeats.symCluster (h : NoRepeats f) {q : QuorumSet} (hq : SymCluster f q) :
    DupFree q := by
  obtain ⟨h1, Q, ⟨⟨x, hx⟩, _⟩, h3⟩ := hq
  rw [← (hasQSet_iff.1 (h1 x (h3 x hx))).2]
  exact h x

/-- Without repetitions the debug build behaves like the release build. -/
theorem searches_total (env : Env) (hwf : WF f) (h : ∀ q, SymCluster f q → DupFree q)
    (M : List NodeSet) :
    findMinimalQuorums true env f = FA.findMinimalQuorums env f ∧
    findMinimalBlockingSets true env f = FA.findMinimalBlockingSets env f ∧
    findMinimalSplittingSets true env f M = FA.findMinimalSplittingSets env f M := by
  refine ⟨?_, findMinimalBlockingSets_total env hwf (fun q hq => .inl (h q hq)),
    findMinimalSplittingSets_total env hwf M⟩
  obtain ⟨L, h1, _, _, h2⟩ := findMinimalQuorums_spec env hwf
  rw [findMinimalQuorums_debug env hwf h1, if_pos (h2 h), h1]

end FA.Checked
