import Verif.SpecUniform
import Verif.Lemmas.FrontEndShape
import Verif.Lemmas.Threshold
import Mathlib.Data.Finset.Powerset

/-!
# Networks with a uniform core
-/

namespace FA
open Spec QuorumSet

/-! ### Shape -/

/-- Every quorum contains a node with a flat quorum set without repetitions. -/
def FlatSomewhere (f : Fbas) : Prop :=
  ∀ Q, IsQuorum f Q → ∃ x ∈ Q, (f.qset x).inner = [] ∧ (f.qset x).validators.Nodup

theorem FlatSomewhere.cluster {f : Fbas} (h : FlatSomewhere f) {K : NodeSet} {f' : Fbas}
    (hf' : IsShrunken f K f') {q : QuorumSet} (hq : SymCluster f' q) :
    q.inner = [] ∧ q.validators.Nodup := by
  obtain ⟨h1, Q, hQ, h3⟩ := hq
  have hsub := hf'.quorum_subset hQ
  obtain ⟨y, hy, hflat⟩ := h _ ((hf'.isQuorum hsub).1 hQ)
  obtain ⟨x, hx, rfl⟩ := Finset.mem_image.1 hy
  obtain ⟨hlt, hqs⟩ := hasQSet_iff.1 (h1 x (h3 x hx))
  rw [hf'.len] at hlt
  rw [hf'.qset x hlt] at hqs
  generalize f.qset (un K x) = q₀ at hqs hflat
  constructor
  · have := shrunken_inner_perm (ShrinkManager.new K).shrinkMap q₀
    rw [hqs, hflat.1] at this
    simpa using this
  · have := shrunken_validators_perm (ShrinkManager.new K).shrinkMap q₀
    rw [hqs] at this
    rw [this.nodup_iff]
    refine List.Nodup.filterMap ?_ hflat.2
    intro a a' b hb hb'
    rw [Option.mem_def] at hb hb'
    rw [← ((shrinkMap_get? K a b).1 hb).2, ← ((shrinkMap_get? K a' b).1 hb').2]

theorem FlatSomewhere.shaped {f : Fbas} (h : FlatSomewhere f) (K : NodeSet) : ShapedOn f K := by
  intro f' hf' q hq
  have hthr := symCluster_threshold hq
  obtain ⟨hinner, hv⟩ := h.cluster hf' hq
  exact ⟨.intro q hv (by simp [hinner]) (by simp [hinner]) (by simp [hinner]),
    .intro q hthr.1 hthr.2 (by simp [hinner])⟩

/-! ### Sets of a given size -/

/-- The minimal sets with at least `k` elements of `K`. -/
theorem minimal_inter_iff {P : NodeSet → Prop} {K : NodeSet} {k : ℕ}
    (hP : ∀ S, P S ↔ k ≤ (S ∩ K).card) (S : NodeSet) : Minimal P S ↔ S ⊆ K ∧ S.card = k := by
  constructor
  · intro h
    obtain ⟨C, hC, hc⟩ := Finset.exists_subset_card_eq ((hP S).1 h.prop)
    have hC' : C ⊆ K := hC.trans Finset.inter_subset_right
    have h1 : P C := by
      rw [hP, Finset.inter_eq_left.2 hC', hc]
    have h2 : S ⊆ C := h.le_of_le h1 (hC.trans Finset.inter_subset_left)
    have h3 : S = C := Finset.Subset.antisymm h2 (hC.trans Finset.inter_subset_left)
    rw [h3]; exact ⟨hC', hc⟩
  · rintro ⟨h1, h2⟩
    refine ⟨(hP S).2 (by rw [Finset.inter_eq_left.2 h1, h2]), fun C hC hle => ?_⟩
    have h3 := (hP C).1 hC
    rw [Finset.inter_eq_left.2 (Finset.Subset.trans hle h1)] at h3
    rw [Finset.eq_of_subset_of_card_le hle (by omega)]

theorem _root_.FA.Spec.AllOfSize.length {K : NodeSet} {k : ℕ} {L : List NodeSet} (h : AllOfSize K k L) :
    L.length = K.card.choose k := by
  rw [← Finset.card_powersetCard, ← List.toFinset_card_of_nodup h.1]
  congr 1
  ext S
  rw [List.mem_toFinset, h.2, Finset.mem_powersetCard]

namespace Spec.UniformCore
variable {f : Fbas} {K : NodeSet} {q : QuorumSet}

theorem slice_iff (h : UniformCore f K q) (S : NodeSet) : Slice S q ↔ q.threshold ≤ (S ∩ K).card := by
  obtain ⟨t, vs, qs⟩ := q
  obtain rfl : qs = [] := h.flat
  rw [slice_flat_iff, and_iff_right h.pos]
  have : (vs.filter (fun x => decide (x ∈ S))).length = (S ∩ K).card := by
    rw [← List.toFinset_card_of_nodup (List.Nodup.filter _ h.once)]
    congr 1
    ext x
    rw [List.mem_toFinset, List.mem_filter, Finset.mem_inter]
    have := h.lists x
    simp only [decide_eq_true_eq] at this ⊢
    rw [this, and_comm]
  rw [this]

theorem card_of_quorum (h : UniformCore f K q) {Q : NodeSet} (hQ : IsQuorum f Q) :
    q.threshold ≤ (Q ∩ K).card := by
  obtain ⟨x, hx, hK⟩ := h.needed Q hQ
  obtain ⟨q', h1, h2⟩ := hQ.2 x hx
  have : q' = q := by rw [← (hasQSet_iff.1 h1).2, (hasQSet_iff.1 (h.members x hK)).2]
  rw [this] at h2
  exact (h.slice_iff Q).1 h2

theorem quorum_of_card (h : UniformCore f K q) {Q : NodeSet} (hK : Q ⊆ K) (hQ : q.threshold ≤ Q.card) :
    IsQuorum f Q := by
  refine ⟨Finset.card_pos.1 (by have := h.pos; omega), fun x hx => ⟨q, h.members x (hK hx), ?_⟩⟩
  rw [h.slice_iff, Finset.inter_eq_left.2 hK]
  exact hQ

theorem exists_quorum (h : UniformCore f K q) : ∃ Q, IsQuorum f Q :=
  ⟨K, h.quorum_of_card Finset.Subset.rfl h.le⟩

theorem isMinQuorum_iff (h : UniformCore f K q) (Q : NodeSet) :
    IsMinQuorum f Q ↔ Q ⊆ K ∧ Q.card = q.threshold := by
  constructor
  · intro hQ
    obtain ⟨P, hP, hc⟩ := Finset.exists_subset_card_eq (h.card_of_quorum hQ.prop)
    have hPK : P ⊆ K := hP.trans Finset.inter_subset_right
    have hPQ : P ⊆ Q := hP.trans Finset.inter_subset_left
    have : Q = P := Finset.Subset.antisymm (hQ.le_of_le (h.quorum_of_card hPK hc.ge) hPQ) hPQ
    rw [this]
    exact ⟨hPK, hc⟩
  · rintro ⟨h1, h2⟩
    refine ⟨h.quorum_of_card h1 h2.ge, fun P hP hle => ?_⟩
    have h3 := h.card_of_quorum hP
    have h4 := Finset.card_le_card (Finset.inter_subset_left : P ∩ K ⊆ P)
    rw [Finset.eq_of_subset_of_card_le hle (by omega)]

theorem inTopTier_iff (h : UniformCore f K q) (x : ℕ) : InTopTier f x ↔ x ∈ K := by
  constructor
  · rintro ⟨Q, hQ, hx⟩
    exact ((h.isMinQuorum_iff Q).1 hQ).1 hx
  · intro hx
    obtain ⟨Q, hQ, hQ', hc⟩ := Finset.exists_subsuperset_card_eq (s := {x}) (t := K) (n := q.threshold)
      (by intro y hy; rw [Finset.mem_singleton.1 hy]; exact hx)
      (by rw [Finset.card_singleton]; exact h.pos) h.le
    exact ⟨Q, (h.isMinQuorum_iff Q).2 ⟨hQ', hc⟩, hQ (by simp)⟩

theorem blocking_iff (h : UniformCore f K q) (S : NodeSet) :
    Blocking f S ↔ K.card - q.threshold + 1 ≤ (S ∩ K).card := by
  have hc : (K \ S).card + (S ∩ K).card = K.card := by
    rw [Finset.inter_comm S]
    exact Finset.card_sdiff_add_card_inter K S
  have hle := h.le
  constructor
  · intro hb
    by_contra hlt
    obtain ⟨x, h1, h2⟩ := hb (K \ S) (h.quorum_of_card Finset.sdiff_subset (by omega))
    exact (Finset.mem_sdiff.1 h1).2 h2
  · intro hs Q hQ
    have h1 := h.card_of_quorum hQ
    by_contra hno
    have : Q ∩ K ⊆ K \ S := fun x hx => Finset.mem_sdiff.2
      ⟨Finset.mem_of_mem_inter_right hx, fun hb => hno ⟨x, Finset.mem_of_mem_inter_left hx, hb⟩⟩
    have := Finset.card_le_card this
    omega

theorem quorumIntersection_iff (h : UniformCore f K q) :
    QuorumIntersection f ↔ K.card < 2 * q.threshold := by
  constructor
  · rintro ⟨-, hi⟩
    by_contra hlt
    obtain ⟨P, hP, hc⟩ := Finset.exists_subset_card_eq h.le
    have hr : q.threshold ≤ (K \ P).card := by
      rw [Finset.card_sdiff_of_subset hP]; omega
    obtain ⟨x, h1, h2⟩ := hi P (K \ P) (h.quorum_of_card hP hc.ge)
      (h.quorum_of_card Finset.sdiff_subset hr)
    exact (Finset.mem_sdiff.1 h2).2 h1
  · intro hlt
    refine ⟨h.exists_quorum, fun P Q hP hQ => ?_⟩
    have a := h.card_of_quorum hP
    have b := h.card_of_quorum hQ
    by_contra hno
    have hd : Disjoint (P ∩ K) (Q ∩ K) := Finset.disjoint_left.2 fun x hx hx' =>
      hno ⟨x, Finset.mem_of_mem_inter_left hx, Finset.mem_of_mem_inter_left hx'⟩
    have h5 := Finset.card_le_card (Finset.union_subset (Finset.inter_subset_right : P ∩ K ⊆ K)
      (Finset.inter_subset_right : Q ∩ K ⊆ K))
    rw [Finset.card_union_of_disjoint hd] at h5
    omega

theorem splitting_iff (h : UniformCore f K q) (h2 : q.threshold < K.card)
    (h3 : K.card ≤ 2 * q.threshold) (S : NodeSet) :
    Splitting f S ↔ 2 * q.threshold - K.card ≤ (S ∩ K).card := by
  have hm := h.isMinQuorum_iff
  generalize q.threshold = t at *
  constructor
  · rintro ⟨P, Q, hP, hQ, -, hs⟩
    obtain ⟨p1, p2⟩ := (hm P).1 hP
    obtain ⟨q1, q2⟩ := (hm Q).1 hQ
    have e1 := Finset.card_union_add_card_inter P Q
    have e2 := Finset.card_le_card (Finset.union_subset p1 q1)
    have e3 := Finset.card_le_card (Finset.subset_inter hs (Finset.inter_subset_left.trans p1))
    omega
  · intro hS
    obtain ⟨C, hC, hc⟩ := Finset.exists_subset_card_eq hS
    have hCn : C ⊆ K := hC.trans Finset.inter_subset_right
    have hr : (K \ C).card = 2 * (K.card - t) := by
      rw [Finset.card_sdiff_of_subset hCn, hc]; omega
    obtain ⟨A, hA, hAc⟩ := Finset.exists_subset_card_eq (s := K \ C) (n := K.card - t) (by omega)
    have hB : ((K \ C) \ A).card = K.card - t := by
      rw [Finset.card_sdiff_of_subset hA, hr, hAc]; omega
    have dA : Disjoint C A := Finset.disjoint_left.2 fun x hx hx' => (Finset.mem_sdiff.1 (hA hx')).2 hx
    have dB : Disjoint C ((K \ C) \ A) := Finset.disjoint_left.2 fun x hx hx' =>
      (Finset.mem_sdiff.1 (Finset.mem_sdiff.1 hx').1).2 hx
    have hsub : ∀ X, X ⊆ K \ C → X.card = K.card - t → Disjoint C X → IsMinQuorum f (C ∪ X) := by
      intro X hX hXc hd
      rw [hm]
      refine ⟨Finset.union_subset hCn (hX.trans Finset.sdiff_subset), ?_⟩
      rw [Finset.card_union_of_disjoint hd, hc, hXc]; omega
    refine ⟨C ∪ A, C ∪ ((K \ C) \ A), hsub A hA hAc dA, hsub _ Finset.sdiff_subset hB dB, ?_, ?_⟩
    · intro he
      obtain ⟨x, hx⟩ := Finset.card_pos.1 (show 0 < A.card by omega)
      have : x ∈ C ∪ ((K \ C) \ A) := he ▸ Finset.mem_union_right _ hx
      rcases Finset.mem_union.1 this with h | h
      · exact Finset.disjoint_left.1 dA h hx
      · exact (Finset.mem_sdiff.1 h).2 hx
    · intro x hx
      obtain ⟨x1, x2⟩ := Finset.mem_inter.1 hx
      rcases Finset.mem_union.1 x1 with h | h
      · exact Finset.mem_of_mem_inter_left (hC h)
      · rcases Finset.mem_union.1 x2 with h' | h'
        · exact Finset.mem_of_mem_inter_left (hC h')
        · exact absurd h (Finset.mem_sdiff.1 h').2

/-- With one minimal quorum, there are no splitting sets. -/
theorem not_splitting (h : UniformCore f K q) (h2 : q.threshold = K.card) (S : NodeSet) :
    ¬ Splitting f S := by
  rintro ⟨P, Q, hP, hQ, hne, -⟩
  have key : ∀ P, IsMinQuorum f P → P = K := by
    intro P hP
    obtain ⟨p1, p2⟩ := (h.isMinQuorum_iff P).1 hP
    exact Finset.eq_of_subset_of_card_le p1 (by omega)
  exact hne ((key P hP).trans (key Q hQ).symm)

theorem flatSomewhere (h : UniformCore f K q) : FlatSomewhere f := by
  intro Q hQ
  obtain ⟨x, hx, hK⟩ := h.needed Q hQ
  refine ⟨x, hx, ?_⟩
  rw [(hasQSet_iff.1 (h.members x hK)).2]
  exact ⟨h.flat, h.once⟩

theorem mentions_iff (h : UniformCore f K q) (x : ℕ) : Mentions q x ↔ x ∈ K := by
  obtain ⟨t, vs, qs⟩ := q
  obtain rfl : qs = [] := h.flat
  rw [← h.lists]
  constructor
  · intro hm
    cases hm with
    | validator h => exact h
    | inner h _ => cases h
  · exact fun hx => .validator hx

theorem symCluster_iff (h : UniformCore f K q) (p : QuorumSet) : SymCluster f p ↔ p = q := by
  constructor
  · rintro ⟨h1, Q, hQ, h3⟩
    obtain ⟨x, hx, hK⟩ := h.needed Q hQ
    rw [← (hasQSet_iff.1 (h1 x (h3 x hx))).2, (hasQSet_iff.1 (h.members x hK)).2]
  · rintro rfl
    exact ⟨fun x hx => h.members x ((h.mentions_iff x).1 hx), K, h.quorum_of_card Finset.Subset.rfl h.le,
      fun x hx => (h.mentions_iff x).2 hx⟩

end Spec.UniformCore

end FA
