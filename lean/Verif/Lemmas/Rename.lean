import Verif.Lemmas.SplittingClusters
import Verif.Lemmas.BlockingAll
import Verif.Lemmas.QsetOrder
import Verif.Lemmas.Io
import Mathlib.Logic.Equiv.Basic

/-!
# Renaming the nodes of an FBAS
-/

namespace FA
open Spec QuorumSet

/-- The nodes with the new IDs of the nodes in `S`. -/
def img (σ : Equiv.Perm ℕ) (S : NodeSet) : NodeSet := S.map σ.toEmbedding

section
variable {σ : Equiv.Perm ℕ} {S T : NodeSet}

theorem mem_img {x : ℕ} : x ∈ img σ S ↔ σ.symm x ∈ S := by
  unfold img
  rw [Finset.mem_map_equiv]

@[simp] theorem apply_mem_img {x : ℕ} : σ x ∈ img σ S ↔ x ∈ S := by
  rw [mem_img, Equiv.symm_apply_apply]

@[simp] theorem img_empty : img σ ∅ = ∅ := rfl

@[simp] theorem img_singleton (x : ℕ) : img σ {x} = {σ x} := Finset.map_singleton _ _

@[simp] theorem img_symm_img : img σ.symm (img σ S) = S := by
  ext x
  rw [mem_img, mem_img, Equiv.symm_symm, Equiv.symm_apply_apply]

@[simp] theorem img_img_symm : img σ (img σ.symm S) = S := by
  ext x
  rw [mem_img, mem_img, Equiv.symm_symm, Equiv.apply_symm_apply]

theorem img_injective : Function.Injective (img σ) := Finset.map_injective _

theorem img_union : img σ (S ∪ T) = img σ S ∪ img σ T := Finset.map_union _ _

theorem img_subset_iff : img σ S ⊆ img σ T ↔ S ⊆ T := Finset.map_subset_map

theorem img_nonempty : (img σ S).Nonempty ↔ S.Nonempty := Finset.map_nonempty

theorem img_disjoint : Disjoint (img σ S) (img σ T) ↔ Disjoint S T := Finset.disjoint_map _

theorem img_unionAll (l : List NodeSet) : img σ (unionAll l) = unionAll (l.map (img σ)) := by
  ext x
  rw [mem_img, mem_unionAll, mem_unionAll]
  constructor
  · rintro ⟨s, hs, hx⟩
    exact ⟨_, List.mem_map_of_mem hs, mem_img.2 hx⟩
  · rintro ⟨s, hs, hx⟩
    obtain ⟨s, hs', rfl⟩ := List.mem_map.1 hs
    exact ⟨s, hs', mem_img.1 hx⟩

end

namespace QuorumSet

mutual
/-- A quorum set with new IDs, sorted. -/
def rename (σ : ℕ → ℕ) : QuorumSet → QuorumSet
  | ⟨t, vs, qs⟩ => ⟨t, sortIds (vs.map σ), sortQs (renameList σ qs)⟩
/-- As `rename`, for lists, not sorted. -/
def renameList (σ : ℕ → ℕ) : List QuorumSet → List QuorumSet
  | [] => []
  | q :: qs => rename σ q :: renameList σ qs
end

theorem renameList_eq (σ : ℕ → ℕ) (qs : List QuorumSet) : renameList σ qs = qs.map (rename σ) := by
  induction qs with
  | nil => rfl
  | cons q qs ih => rw [renameList, ih, List.map_cons]

theorem rename_eq (σ : ℕ → ℕ) (q : QuorumSet) : rename σ q =
    ⟨q.threshold, sortIds (q.validators.map σ), sortQs (q.inner.map (rename σ))⟩ := by
  obtain ⟨t, vs, qs⟩ := q
  rw [rename, renameList_eq]

variable {σ : Equiv.Perm ℕ}

theorem rename_validators (q : QuorumSet) : (rename σ q).validators.Perm (q.validators.map σ) := by
  rw [rename_eq]; exact sortIds_perm _

theorem rename_inner (q : QuorumSet) : (rename σ q).inner.Perm (q.inner.map (rename σ)) := by
  rw [rename_eq]; exact sortQs_perm _

theorem rename_threshold (q : QuorumSet) : (rename σ q).threshold = q.threshold := by
  rw [rename_eq]

theorem rename_sorted (q : QuorumSet) : SortedQSet (rename σ q) := by
  induction q using QuorumSet.induct with
  | h t vs qs ih =>
    refine .intro _ ?_ ?_ ?_
    · rw [rename_eq]; exact sortIds_pairwise _
    · rw [rename_eq]; exact sortQs_pairwise _
    · intro q' hq'
      obtain ⟨q, hq, rfl⟩ := List.mem_map.1 ((rename_inner _).mem_iff.1 hq')
      exact ih q hq

theorem rename_symm {q : QuorumSet} (h : SortedQSet q) : rename σ.symm (rename σ q) = q := by
  induction h with
  | intro q hv hs hi ih =>
    rw [rename_eq σ.symm]
    have h1 : sortIds ((rename σ q).validators.map σ.symm) = q.validators := by
      rw [sortIds_of_perm ((rename_validators q).map _), List.map_map]
      simp only [Equiv.symm_comp_self, List.map_id]
      exact sortIds_of_pairwise hv
    have h2 : sortQs ((rename σ q).inner.map (rename σ.symm)) = q.inner := by
      rw [sortQs_of_perm ((rename_inner q).map _), List.map_map,
        List.map_congr_left (f := rename σ.symm ∘ rename σ) (g := id) (fun q' hq' => ih q' hq'),
        List.map_id]
      exact sortQs_of_pairwise hs
    rw [h1, h2, rename_threshold]
    exact (QuorumSet.casesOn q (fun _ _ _ => rfl))

theorem rename_inj {q q' : QuorumSet} (h : SortedQSet q) (h' : SortedQSet q')
    (he : rename σ q = rename σ q') : q = q' := by
  rw [← rename_symm (σ := σ) h, he, rename_symm h']

theorem isQuorumSlice_rename (S : NodeSet) (q : QuorumSet) :
    isQuorumSlice (img σ S) (rename σ q) = isQuorumSlice S q := by
  induction q using QuorumSet.induct with
  | h t vs qs ih =>
    rw [Bool.eq_iff_iff, isQuorumSlice_iff_count, isQuorumSlice_iff_count, rename_threshold,
      ((rename_validators _).filter _).length_eq, ((rename_inner _).filter _).length_eq,
      List.filter_map, List.filter_map, List.length_map, List.length_map]
    have h1 : vs.filter ((fun x => decide (x ∈ img σ S)) ∘ σ) =
        vs.filter (fun x => decide (x ∈ S)) := List.filter_congr (fun x _ => by simp)
    have h2 : qs.filter (isQuorumSlice (img σ S) ∘ rename σ) = qs.filter (isQuorumSlice S) :=
      List.filter_congr (fun q hq => ih q hq)
    dsimp only
    rw [h1, h2]

theorem slice_rename {S : NodeSet} {q : QuorumSet} :
    Slice (img σ S) (rename σ q) ↔ Slice S q := by
  rw [← isQuorumSlice_iff, ← isQuorumSlice_iff, isQuorumSlice_rename]

theorem nodes_rename (q : QuorumSet) : (rename σ q).containedNodesWithDuplicates.Perm
    (q.containedNodesWithDuplicates.map σ) := by
  induction q using QuorumSet.induct with
  | h t vs qs ih =>
    rw [rename_eq, containedNodesWithDuplicates, containedNodesWithDuplicates,
      containedNodesWithDuplicatesList_eq, containedNodesWithDuplicatesList_eq, List.map_append]
    refine (sortIds_perm _).append ?_
    refine ((sortQs_perm _).flatMap_right _).trans ?_
    rw [List.flatMap_map, List.map_flatMap]
    exact List.Perm.flatMap_left _ (fun q hq => ih q hq)

theorem mentions_rename {q : QuorumSet} {x : ℕ} : Mentions (rename σ q) (σ x) ↔ Mentions q x := by
  rw [← mem_containedNodesWithDuplicates, (nodes_rename q).mem_iff, List.mem_map_of_injective
    σ.injective, mem_containedNodesWithDuplicates]

theorem containedNodes_rename (q : QuorumSet) :
    (rename σ q).containedNodes = img σ q.containedNodes := by
  ext x
  rw [mem_img, mem_containedNodes, mem_containedNodes, ← mentions_rename (σ := σ) (q := q),
    Equiv.apply_symm_apply]

theorem containsDuplicates_rename (q : QuorumSet) :
    (rename σ q).containsDuplicates = q.containsDuplicates := by
  unfold containsDuplicates
  dsimp only
  have h := containedNodes_rename (σ := σ) q
  unfold containedNodes at h
  rw [h, (nodes_rename q).length_eq, List.length_map]
  unfold img
  rw [Finset.card_map]

/-! ### Combinations -/

theorem comb'_map (k : ℕ) (gs : List (List NodeSet)) :
    comb' k (gs.map (List.map (img σ))) = (comb' k gs).map (img σ) := by
  induction gs generalizing k with
  | nil => cases k <;> simp [comb']
  | cons g gs ih =>
    cases k with
    | zero => simp [comb']
    | succ k =>
      rw [List.map_cons, comb', comb', ih, ih, List.map_append, List.flatMap_map, List.map_flatMap]
      simp only [List.map_map, Function.comp_def, img_union]

theorem comb'_perm₂ (k : ℕ) {gs gs' : List (List NodeSet)} (h : List.Forall₂ List.Perm gs gs') :
    (comb' k gs).Perm (comb' k gs') := by
  induction h generalizing k with
  | nil => exact List.Perm.refl _
  | cons h _ ih =>
    cases k with
    | zero => exact List.Perm.refl _
    | succ k =>
      rw [comb', comb']
      refine List.Perm.append ?_ (ih _)
      exact (h.flatMap_right _).trans (List.Perm.flatMap_left _ (fun s _ => (ih k).map _))

theorem comb'_perm (k : ℕ) {gs gs' : List (List NodeSet)} (h : gs.Perm gs') :
    (comb' k gs).Perm (comb' k gs') := by
  induction h generalizing k with
  | nil => exact List.Perm.refl _
  | cons g _ ih =>
    cases k with
    | zero => exact List.Perm.refl _
    | succ k =>
      rw [comb', comb']
      exact List.Perm.append (List.Perm.flatMap_left _ (fun s _ => (ih k).map _)) (ih _)
  | swap a b l =>
    match k with
    | 0 => exact List.Perm.refl _
    | 1 =>
      simp only [comb', ← List.append_assoc]
      exact (List.perm_append_comm).append_right _
    | k + 2 =>
      simp only [comb', List.map_append, List.map_flatMap, List.map_map, Function.comp_def]
      rw [← Multiset.coe_eq_coe]
      simp only [← Multiset.coe_add, ← Multiset.coe_bind, Multiset.bind_add, add_assoc]
      rw [Multiset.bind_bind]
      simp only [Finset.union_left_comm]
      ac_rfl
  | trans _ _ ih1 ih2 => exact (ih1 k).trans (ih2 k)


theorem combineGroups_rename (k : ℕ) {F : QuorumSet → List NodeSet} {q : QuorumSet}
    (h : ∀ q' ∈ q.inner, (F (rename σ q')).Perm ((F q').map (img σ))) :
    (combineGroups k ((rename σ q).validators.map (fun v => [({v} : NodeSet)]) ++
      (rename σ q).inner.map F)).Perm
    ((combineGroups k (q.validators.map (fun v => [({v} : NodeSet)]) ++ q.inner.map F)).map
      (img σ)) := by
  cases k with
  | zero => simp only [combineGroups_zero, List.map_nil, List.Perm.refl]
  | succ k =>
    refine (combineGroups_perm k _).trans (List.Perm.trans ?_ ((combineGroups_perm k _).map _).symm)
    rw [← comb'_map]
    refine (comb'_perm _ (((rename_validators q).map _).append ((rename_inner q).map F))).trans ?_
    refine comb'_perm₂ _ ?_
    rw [List.map_append]
    refine List.rel_append ?_ ?_
    · rw [List.map_map, List.map_map, List.forall₂_map_left_iff, List.forall₂_map_right_iff,
        List.forall₂_same]
      intro v _
      simp
    · rw [List.map_map, List.map_map, List.forall₂_map_left_iff, List.forall₂_map_right_iff,
        List.forall₂_same]
      exact h

theorem toQuorumSlices_rename (q : QuorumSet) :
    (rename σ q).toQuorumSlices.Perm (q.toQuorumSlices.map (img σ)) := by
  induction q using QuorumSet.induct with
  | h t vs qs ih =>
    rw [toQuorumSlices_eq, toQuorumSlices_eq, rename_threshold]
    exact combineGroups_rename t (q := ⟨t, vs, qs⟩) ih

theorem blockingThreshold_rename (q : QuorumSet) :
    (rename σ q).blockingThreshold = q.blockingThreshold := by
  unfold blockingThreshold
  rw [rename_threshold, (rename_validators q).length_eq, (rename_inner q).length_eq, List.length_map,
    List.length_map]

theorem splittingThreshold_rename (q : QuorumSet) :
    (rename σ q).splittingThreshold = q.splittingThreshold := by
  unfold splittingThreshold
  rw [rename_threshold, (rename_validators q).length_eq, (rename_inner q).length_eq, List.length_map,
    List.length_map]

theorem toBlockingSets_rename (q : QuorumSet) :
    (rename σ q).toBlockingSets.Perm (q.toBlockingSets.map (img σ)) := by
  induction q using QuorumSet.induct with
  | h t vs qs ih =>
    rw [toBlockingSets_eq, toBlockingSets_eq, blockingThreshold_rename]
    exact combineGroups_rename _ (q := ⟨t, vs, qs⟩) ih

theorem dropIfOneQuorum_rename {q : QuorumSet} {l l' : List NodeSet} (h : l'.Perm (l.map (img σ))) :
    (dropIfOneQuorum (rename σ q) l').Perm ((dropIfOneQuorum q l).map (img σ)) := by
  match l, h with
  | [], h =>
    rw [List.map_nil, List.perm_nil] at h
    rw [h]
    exact List.Perm.refl _
  | [s], h =>
    rw [List.map_singleton, List.perm_singleton] at h
    rw [h]
    unfold dropIfOneQuorum
    dsimp only
    rw [isQuorumSlice_rename]
    split <;> exact List.Perm.refl _
  | s :: t :: l, h =>
    match l', h with
    | [], h => simpa using h.length_eq
    | [a], h => simpa using h.length_eq
    | a :: b :: l', h => exact h

theorem toSplittingSets_rename (q : QuorumSet) :
    (rename σ q).toSplittingSets.Perm (q.toSplittingSets.map (img σ)) := by
  induction q using QuorumSet.induct with
  | h t vs qs ih =>
    rw [toSplittingSets_eq, toSplittingSets_eq]
    unfold potentialSplittingSets
    rw [splittingThreshold_rename]
    exact dropIfOneQuorum_rename (combineGroups_rename _ (q := ⟨t, vs, qs⟩) ih)

end QuorumSet

/-! ### FBASs -/

/-- `g` is `f` with new node IDs. -/
structure Renamed (σ : Equiv.Perm ℕ) (f g : Fbas) : Prop where
  lt : ∀ x, σ x < g.nodes.length ↔ x < f.nodes.length
  qset : ∀ x, g.qset (σ x) = (f.qset x).rename σ
  sorted : ∀ x, SortedQSet (f.qset x)

namespace Renamed
variable {σ : Equiv.Perm ℕ} {f g : Fbas}

theorem symm (h : Renamed σ f g) : Renamed σ.symm g f := by
  refine ⟨fun x => ?_, fun x => ?_, fun x => ?_⟩
  · rw [← h.lt, Equiv.apply_symm_apply]
  · rw [← σ.apply_symm_apply x, h.qset, Equiv.symm_apply_apply, rename_symm (h.sorted _)]
  · rw [← σ.apply_symm_apply x, h.qset]
    exact rename_sorted _

theorem allNodes (h : Renamed σ f g) : g.allNodes = img σ f.allNodes := by
  ext x
  rw [mem_img, Fbas.allNodes, Fbas.allNodes, Finset.mem_range, Finset.mem_range, ← h.lt,
    Equiv.apply_symm_apply]

theorem isQuorum (h : Renamed σ f g) {Q : NodeSet} : IsQuorum g (img σ Q) ↔ IsQuorum f Q := by
  rw [isQuorum_iff, isQuorum_iff, img_nonempty]
  refine and_congr_right (fun _ => ⟨fun hq x hx => ?_, fun hq x hx => ?_⟩)
  · have := hq (σ x) (apply_mem_img.2 hx)
    rwa [h.qset, slice_rename] at this
  · rw [← σ.apply_symm_apply x, h.qset, slice_rename]
    exact hq _ (mem_img.1 hx)

theorem isMinQuorum (h : Renamed σ f g) {Q : NodeSet} : IsMinQuorum g (img σ Q) ↔ IsMinQuorum f Q := by
  unfold IsMinQuorum
  constructor
  · intro hm
    refine ⟨h.isQuorum.1 hm.prop, fun P hP hsub => ?_⟩
    exact img_subset_iff.1 (hm.le_of_le (h.isQuorum.2 hP) (img_subset_iff.2 hsub))
  · intro hm
    refine ⟨h.isQuorum.2 hm.prop, fun P hP hsub => ?_⟩
    rw [← img_img_symm (σ := σ) (S := P)] at hP hsub ⊢
    exact img_subset_iff.2 (hm.le_of_le (h.isQuorum.1 hP) (img_subset_iff.1 hsub))

theorem satisfiableNodes (h : Renamed σ f g) : g.satisfiableNodes = img σ f.satisfiableNodes := by
  ext x
  rw [mem_img, Fbas.mem_satisfiableNodes, Fbas.mem_satisfiableNodes]
  constructor
  · rintro ⟨Q, hQ, hx⟩
    refine ⟨img σ.symm Q, h.isQuorum.1 (by rwa [img_img_symm]), apply_mem_img.2 hx⟩
  · rintro ⟨Q, hQ, hx⟩
    exact ⟨img σ Q, h.isQuorum.2 hQ, mem_img.2 hx⟩

theorem trusts (h : Renamed σ f g) {x y : ℕ} : Trusts g (σ x) (σ y) ↔ Trusts f x y := by
  rw [trusts_iff, trusts_iff, h.qset, mentions_rename]

theorem reaches' (h : Renamed σ f g) {x y : ℕ} (hr : Reaches f x y) : Reaches g (σ x) (σ y) := by
  induction hr with
  | refl => exact .refl
  | tail _ ht ih => exact ih.tail (h.trusts.2 ht)

theorem reaches (h : Renamed σ f g) {x y : ℕ} : Reaches g (σ x) (σ y) ↔ Reaches f x y := by
  refine ⟨fun hr => ?_, h.reaches'⟩
  have := h.symm.reaches' hr
  rwa [Equiv.symm_apply_apply, Equiv.symm_apply_apply] at this

theorem wf (h : Renamed σ f g) (hwf : WF f) : WF g := by
  intro x y hxy
  rw [← σ.apply_symm_apply x, ← σ.apply_symm_apply y] at hxy
  have := hwf _ _ (h.trusts.1 hxy)
  rwa [← h.lt, Equiv.apply_symm_apply] at this

theorem clusters (h : Renamed σ f g) {Ks : List NodeSet} (hKs : IsClusters f Ks) :
    IsClusters g (Ks.map (img σ)) := by
  have hmem : ∀ {K}, K ∈ Ks.map (img σ) ↔ ∃ K₀ ∈ Ks, img σ K₀ = K := List.mem_map
  refine ⟨?_, ?_, ?_, ?_, ?_⟩
  · rw [List.pairwise_map]
    exact hKs.disjoint.imp img_disjoint.2
  · intro K hK
    obtain ⟨K, hK', rfl⟩ := hmem.1 hK
    obtain ⟨Q, hQ, hs⟩ := hKs.quorum K hK'
    exact ⟨img σ Q, h.isQuorum.2 hQ, img_subset_iff.2 hs⟩
  · intro Q hQ
    rw [← img_img_symm (σ := σ) (S := Q)] at hQ ⊢
    obtain ⟨K, hK, hs⟩ := hKs.cover _ (h.isMinQuorum.1 hQ)
    exact ⟨_, List.mem_map_of_mem hK, img_subset_iff.2 hs⟩
  · intro K hK
    obtain ⟨K, hK', rfl⟩ := hmem.1 hK
    rw [h.satisfiableNodes]
    exact img_subset_iff.2 (hKs.sat K hK')
  · intro K hK x hx y
    obtain ⟨K, hK', rfl⟩ := hmem.1 hK
    obtain ⟨x, rfl⟩ := σ.surjective x
    obtain ⟨y, rfl⟩ := σ.surjective y
    rw [apply_mem_img] at hx ⊢
    rw [hKs.same K hK' x hx y, h.satisfiableNodes, apply_mem_img, h.reaches, h.reaches]

theorem relevantNodes (h : Renamed σ f g) (hwf : WF f) (env env' : Env) :
    g.relevantNodes env' = img σ (f.relevantNodes env) := by
  rw [Fbas.relevantNodes_eq, Fbas.relevantNodes_eq, img_unionAll]
  have hp := (consensusClusters_spec env' (h.wf hwf)).perm
    (h.clusters (consensusClusters_spec env hwf))
  ext x
  simp only [mem_unionAll, hp.mem_iff]

theorem findSymmetricIn (h : Renamed σ f g) {K : NodeSet} {q : QuorumSet} (hs : SortedQSet q) :
    rename σ q ∈ findSymmetricClustersInNodeSet g (img σ K) ↔
      q ∈ findSymmetricClustersInNodeSet f K := by
  rw [mem_findSymmetricClustersInNodeSet, mem_findSymmetricClustersInNodeSet, containedNodes_rename,
    img_nonempty]
  refine and_congr_right (fun _ => ⟨fun ha x hx => ?_, fun ha x hx => ?_⟩)
  · obtain ⟨h1, h2⟩ := ha (σ x) (apply_mem_img.2 hx)
    rw [h.qset] at h2
    exact ⟨apply_mem_img.1 h1, rename_inj (h.sorted _) hs h2⟩
  · obtain ⟨x, rfl⟩ := σ.surjective x
    obtain ⟨h1, h2⟩ := ha x (apply_mem_img.1 hx)
    exact ⟨apply_mem_img.2 h1, by rw [h.qset, h2]⟩

theorem findSymmetric (h : Renamed σ f g) {Ks : List NodeSet} (hKs : IsClusters f Ks)
    {K : NodeSet} (hK : K ∈ Ks) :
    (∃ q, findSymmetricClusterInConsensusCluster f K = .ok (some q) ∧
      findSymmetricClusterInConsensusCluster g (img σ K) = .ok (some (rename σ q)) ∧
      q.containedNodes = K ∧ (∀ x ∈ K, f.qset x = q) ∧ SymCluster f q) ∨
    (findSymmetricClusterInConsensusCluster f K = .ok none ∧
      findSymmetricClusterInConsensusCluster g (img σ K) = .ok none) := by
  have hKs' := h.clusters hKs
  have hK' := List.mem_map_of_mem (f := img σ) hK
  rcases hKs.findSymmetric hK with ⟨q, h1, h2, h3, h4⟩ | ⟨h1, h2⟩
  · obtain ⟨x, hx⟩ := hKs.nonempty hK
    have hs : SortedQSet q := h4 x hx ▸ h.sorted x
    have hq : rename σ q ∈ findSymmetricClustersInNodeSet g (img σ K) :=
      (h.findSymmetricIn hs).2 (by rw [h2]; exact List.mem_singleton.2 rfl)
    rcases hKs'.findSymmetric hK' with ⟨q', h5, h6, -, -⟩ | ⟨-, h6⟩
    · rw [h6, List.mem_singleton] at hq
      exact .inl ⟨q, h1, by rw [h5, hq], h3, h4, hKs.symCluster_of_mem hK h3 h4⟩
    · rw [h6] at hq; simp at hq
  · right
    refine ⟨h1, ?_⟩
    rcases hKs'.findSymmetric hK' with ⟨q', h5, h6, -, h8⟩ | ⟨h5, -⟩
    · obtain ⟨x, hx⟩ := hKs'.nonempty hK'
      have hs : SortedQSet q' := h8 x hx ▸ h.symm.sorted x
      have hq' : rename σ.symm q' ∈ findSymmetricClustersInNodeSet f (img σ.symm (img σ K)) :=
        (h.symm.findSymmetricIn hs).2 (by rw [h6]; exact List.mem_singleton.2 rfl)
      rw [img_symm_img, h2] at hq'
      simp at hq'
    · exact h5

end Renamed
end FA
