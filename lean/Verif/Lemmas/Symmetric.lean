import Verif.Lemmas.Clusters
import Verif.Lemmas.Sets
import Verif.Model.Symmetric

/-! Lemmas about symmetric clusters. -/

namespace FA
open Spec QuorumSet

theorem Map.get?_insert {K V : Type} [DecidableEq K] (m : Map K V) (k k' : K) (v : V) :
    (m.insert k v).get? k' = if k' = k then some v else m.get? k' := by
  unfold Map.get? Map.insert
  rw [List.find?_cons]
  by_cases h : k' = k
  · subst h; simp
  · have h' : k ≠ k' := fun e => h e.symm
    simp only [h', decide_false, h, if_false]
    congr 1
    induction m with
    | nil => rfl
    | cons p m ih =>
      rw [List.filter_cons]
      by_cases hp : p.1 = k
      · have : p.1 ≠ k' := hp ▸ h'
        simp only [hp, ne_eq, not_true_eq_false, decide_false, Bool.false_eq_true, if_false]
        rw [ih, List.find?_cons]
        simp [this]
      · simp only [ne_eq, hp, not_false_eq_true, decide_true, if_true]
        rw [List.find?_cons, List.find?_cons]
        split <;> [rfl; exact ih]

@[simp] theorem Map.get?_nil {K V : Type} [DecidableEq K] (k : K) :
    Map.get? ([] : Map K V) k = none := rfl

/-- The nodes among `l` that count as occurrences of `q`. -/
def symOcc (f : Fbas) (l : List ℕ) (q : QuorumSet) : List ℕ :=
  l.filter (fun x => decide (f.qset x = q ∧ x ∈ q.containedNodes))

structure SymInv (f : Fbas) (l : List ℕ) (st : SymState) : Prop where
  occ : ∀ q, st.occ.get? q =
    if (symOcc f l q).length = 0 then none
    else some ((symOcc f l q).length, q.containedNodes.card)
  found : ∀ q, q ∈ st.found ↔ 1 ≤ q.containedNodes.card ∧
    q.containedNodes.card ≤ (symOcc f l q).length
  nodup : st.found.Nodup

theorem symOcc_append (f : Fbas) (l : List ℕ) (x : ℕ) (q : QuorumSet) :
    symOcc f (l ++ [x]) q = symOcc f l q ++
      if f.qset x = q ∧ x ∈ q.containedNodes then [x] else [] := by
  rw [symOcc, symOcc, List.filter_append, List.filter_cons]
  congr 1
  simp only [List.filter_nil, decide_eq_true_eq]

theorem symStep_inv {f : Fbas} {l : List ℕ} {st : SymState} (h : SymInv f l st) (x : ℕ) :
    SymInv f (l ++ [x]) (symStep f st x) := by
  rw [symStep]
  by_cases hx : x ∈ (f.qset x).containedNodes
  · have hcard : 1 ≤ (f.qset x).containedNodes.card := Finset.card_pos.2 ⟨x, hx⟩
    have hr : bumpOccurrence st.occ (f.qset x) =
        (st.occ.insert (f.qset x) ((symOcc f l (f.qset x)).length + 1,
          (f.qset x).containedNodes.card), (symOcc f l (f.qset x)).length + 1,
          (f.qset x).containedNodes.card) := by
      rw [bumpOccurrence, h.occ]
      by_cases h0 : (symOcc f l (f.qset x)).length = 0
      · rw [if_pos h0]; simp [h0]
      · rw [if_neg h0]
    rw [if_pos hx, hr]
    dsimp only
    have hlen : ∀ q, (symOcc f (l ++ [x]) q).length =
        if q = f.qset x then (symOcc f l q).length + 1 else (symOcc f l q).length := by
      intro q
      rw [symOcc_append]
      by_cases hq : q = f.qset x
      · subst hq; rw [if_pos ⟨rfl, hx⟩]; simp
      · have : ¬ (f.qset x = q ∧ x ∈ q.containedNodes) := fun h => hq h.1.symm
        rw [if_neg this, if_neg hq]; simp
    constructor
    · intro q
      rw [Map.get?_insert, hlen]
      by_cases hq : q = f.qset x
      · subst hq; simp
      · simp only [hq, if_false]; exact h.occ q
    · intro q
      rw [hlen]
      by_cases hq : q = f.qset x
      · subst hq
        simp only [if_true]
        split
        next he => simp only [List.mem_append, List.mem_singleton, or_true, true_iff]; omega
        next he => rw [h.found]; omega
      · simp only [hq, if_false]
        rw [← h.found q]
        split
        · simp [hq]
        · rfl
    · split
      next he =>
        rw [List.nodup_append]
        refine ⟨h.nodup, by simp, ?_⟩
        rintro a ha b hb rfl
        rw [List.mem_singleton] at hb
        subst hb
        have := (h.found _).1 ha
        omega
      next => exact h.nodup
  · rw [if_neg hx]
    have heq : ∀ q, symOcc f (l ++ [x]) q = symOcc f l q := by
      intro q
      rw [symOcc_append]
      have : ¬ (f.qset x = q ∧ x ∈ q.containedNodes) := by
        rintro ⟨rfl, h2⟩; exact hx h2
      rw [if_neg this]; simp
    exact ⟨fun q => by rw [heq]; exact h.occ q, fun q => by rw [heq]; exact h.found q, h.nodup⟩

theorem symFold_inv (f : Fbas) (l : List ℕ) : SymInv f l (l.foldl (symStep f) ⟨[], []⟩) := by
  induction l using List.reverseRecOn with
  | nil =>
    constructor
    · intro q; simp [symOcc]
    · intro q
      simp only [List.foldl_nil, List.not_mem_nil, symOcc, List.filter_nil, List.length_nil,
        false_iff]
      omega
    · simp
  | append_singleton l x ih =>
    rw [List.foldl_append]
    exact symStep_inv ih x

theorem mem_findSymmetricClustersInNodeSet {f : Fbas} {nodes : NodeSet} {q : QuorumSet} :
    q ∈ findSymmetricClustersInNodeSet f nodes ↔
      q.containedNodes.Nonempty ∧ ∀ x ∈ q.containedNodes, x ∈ nodes ∧ f.qset x = q := by
  have h := (symFold_inv f (elems nodes)).found q
  rw [findSymmetricClustersInNodeSet, h, ← Finset.card_pos, Nat.lt_iff_add_one_le, zero_add]
  refine and_congr_right (fun _ => ?_)
  have hnd : (symOcc f (elems nodes) q).Nodup := (elems_nodup nodes).filter _
  have hcard : (symOcc f (elems nodes) q).length = (symOcc f (elems nodes) q).toFinset.card :=
    (List.toFinset_card_of_nodup hnd).symm
  have hsub : (symOcc f (elems nodes) q).toFinset ⊆ q.containedNodes := by
    intro x hx
    rw [List.mem_toFinset, symOcc, List.mem_filter] at hx
    have := hx.2
    simp only [decide_eq_true_eq] at this
    exact this.2
  rw [hcard]
  constructor
  · intro hle x hx
    have := Finset.eq_of_subset_of_card_le hsub hle
    rw [← this, List.mem_toFinset, symOcc, List.mem_filter, mem_elems] at hx
    simp only [decide_eq_true_eq] at hx
    exact ⟨hx.1, hx.2.1⟩
  · intro hall
    refine Finset.card_le_card (fun x hx => ?_)
    rw [List.mem_toFinset, symOcc, List.mem_filter, mem_elems]
    simp only [decide_eq_true_eq]
    exact ⟨(hall x hx).1, (hall x hx).2, hx⟩

theorem findSymmetricClustersInNodeSet_nodup (f : Fbas) (nodes : NodeSet) :
    (findSymmetricClustersInNodeSet f nodes).Nodup := (symFold_inv f (elems nodes)).nodup

/-! ### Within consensus clusters -/

/-- Nodes with a common quorum set that lists exactly them only reach each other. -/
theorem closed_reaches {f : Fbas} {q : QuorumSet} (h : ∀ x, Mentions q x → f.qset x = q)
    {x y : ℕ} (hx : Mentions q x) (hr : Reaches f x y) : Mentions q y := by
  induction hr with
  | refl => exact hx
  | tail _ ht ih =>
    rw [trusts_iff, h _ ih] at ht
    exact ht

theorem IsClusters.symmetric_eq {f : Fbas} {Ks : List NodeSet} (hKs : IsClusters f Ks)
    {K : NodeSet} (hK : K ∈ Ks) {q : QuorumSet} (hq : q ∈ findSymmetricClustersInNodeSet f K) :
    q.containedNodes = K ∧ ∀ x ∈ K, f.qset x = q := by
  rw [mem_findSymmetricClustersInNodeSet] at hq
  obtain ⟨⟨x, hx⟩, hall⟩ := hq
  have heq : q.containedNodes = K := by
    refine Finset.Subset.antisymm (fun y hy => (hall y hy).1) (fun y hy => ?_)
    have := ((hKs.same K hK x (hall x hx).1 y).1 hy).2.1
    rw [mem_containedNodes] at hx ⊢
    exact closed_reaches (fun z hz => (hall z (mem_containedNodes.2 hz)).2) hx this
  exact ⟨heq, fun y hy => (hall y (heq ▸ hy)).2⟩

/-- The assertions hold; the result characterises symmetric clusters. -/
theorem IsClusters.findSymmetric {f : Fbas} {Ks : List NodeSet} (hKs : IsClusters f Ks)
    {K : NodeSet} (hK : K ∈ Ks) :
    (∃ q, findSymmetricClusterInConsensusCluster f K = .ok (some q) ∧
        findSymmetricClustersInNodeSet f K = [q] ∧
        q.containedNodes = K ∧ ∀ x ∈ K, f.qset x = q) ∨
      (findSymmetricClusterInConsensusCluster f K = .ok none ∧
        findSymmetricClustersInNodeSet f K = []) := by
  unfold findSymmetricClusterInConsensusCluster
  rcases hl : findSymmetricClustersInNodeSet f K with _ | ⟨q, qs⟩
  · right; simp
  · left
    have hq := hKs.symmetric_eq hK (q := q) (by rw [hl]; simp)
    have hqs : qs = [] := by
      rw [List.eq_nil_iff_forall_not_mem]
      intro q' hq'
      have h' := hKs.symmetric_eq hK (q := q') (by rw [hl]; simp [hq'])
      obtain ⟨x, hx⟩ := hKs.nonempty hK
      have : q = q' := (hq.2 x hx).symm.trans (h'.2 x hx)
      have hnd := findSymmetricClustersInNodeSet_nodup f K
      rw [hl, List.nodup_cons] at hnd
      exact hnd.1 (this ▸ hq')
    subst hqs
    exact ⟨q, by simp [hq.1], rfl, hq⟩

/-- In a symmetric cluster, quorums are slices of the common quorum set. -/
theorem symmetric_quorum_iff {f : Fbas} {K : NodeSet} {q : QuorumSet}
    (hall : ∀ x ∈ K, f.qset x = q) {S : NodeSet} (hS : S ⊆ K) : IsQuorum f S ↔ Slice S q := by
  rw [isQuorum_iff]
  constructor
  · rintro ⟨⟨x, hx⟩, h⟩
    rw [← hall x (hS hx)]; exact h x hx
  · intro h
    obtain ⟨x, _, hx⟩ := h.nonempty
    exact ⟨⟨x, hx⟩, fun y hy => by rw [hall y (hS hy)]; exact h⟩

theorem symCluster_iff {f : Fbas} {q : QuorumSet} :
    SymCluster f q ↔ (∀ x ∈ q.containedNodes, f.qset x = q) ∧
      ∃ Q, IsQuorum f Q ∧ Q ⊆ q.containedNodes := by
  unfold SymCluster
  constructor
  · rintro ⟨h1, Q, hQ, h2⟩
    exact ⟨fun x hx => (hasQSet_iff.1 (h1 x (mem_containedNodes.1 hx))).2, Q, hQ,
      fun x hx => mem_containedNodes.2 (h2 x hx)⟩
  · rintro ⟨h1, Q, hQ, h2⟩
    refine ⟨fun x hx => hasQSet_iff.2 ⟨?_, h1 x (mem_containedNodes.2 hx)⟩, Q, hQ,
      fun x hx => mem_containedNodes.1 (h2 hx)⟩
    by_contra hlt
    have h3 := h1 x (mem_containedNodes.2 hx)
    rw [Fbas.qset_of_ge (by omega)] at h3
    rw [← h3] at hx
    exact absurd hx (by
      intro h
      cases h with
      | validator h => simp [QuorumSet.empty] at h
      | inner h _ => simp [QuorumSet.empty] at h)

theorem IsClusters.symCluster_mem {f : Fbas} {Ks : List NodeSet} (hKs : IsClusters f Ks)
    {q : QuorumSet} (hq : SymCluster f q) :
    ∃ K ∈ Ks, findSymmetricClustersInNodeSet f K = [q] ∧ q.containedNodes = K := by
  obtain ⟨hall, Q, hQ, hsub⟩ := symCluster_iff.1 hq
  obtain ⟨x, hx⟩ := hQ.1
  have hxq := hall x (hsub hx)
  have hCq : IsQuorum f q.containedNodes := by
    refine (symmetric_quorum_iff hall (Finset.Subset.refl _)).2 ?_
    have := (symmetric_quorum_iff hall hsub).1 hQ
    exact this.mono hsub
  obtain ⟨Q', hQ', hQ'sub⟩ := hCq.exists_min
  obtain ⟨K, hK, hQ'K⟩ := hKs.cover Q' hQ'
  obtain ⟨z, hz⟩ := hQ'.prop.1
  have hzC := hQ'sub hz
  have hCK : ∀ y ∈ q.containedNodes, y ∈ K := by
    intro y hy
    rw [hKs.same K hK z (hQ'K hz)]
    refine ⟨hCq.subset_sat hy, ?_, ?_⟩
    · refine Relation.ReflTransGen.single (trusts_iff.2 ?_)
      rw [hall z hzC]; exact mem_containedNodes.1 hy
    · refine Relation.ReflTransGen.single (trusts_iff.2 ?_)
      rw [hall y hy]; exact mem_containedNodes.1 hzC
  have hmem : q ∈ findSymmetricClustersInNodeSet f K := by
    rw [mem_findSymmetricClustersInNodeSet]
    exact ⟨⟨z, hzC⟩, fun y hy => ⟨hCK y hy, hall y hy⟩⟩
  rcases hKs.findSymmetric hK with ⟨q', _, hl, hq'⟩ | ⟨_, hl⟩
  · rw [hl, List.mem_singleton] at hmem
    subst hmem
    exact ⟨K, hK, hl, hq'.1⟩
  · rw [hl] at hmem; simp at hmem

theorem IsClusters.symCluster_of_mem {f : Fbas} {Ks : List NodeSet} (hKs : IsClusters f Ks)
    {K : NodeSet} (hK : K ∈ Ks) {q : QuorumSet} (h1 : q.containedNodes = K)
    (h2 : ∀ x ∈ K, f.qset x = q) : SymCluster f q := by
  rw [symCluster_iff, h1]
  exact ⟨h2, hKs.quorum K hK⟩

end FA
