import Verif.Lemmas.Fbas
import Verif.SpecSimulation
import Verif.Lemmas.Loop
import Mathlib.Order.Interval.Finset.Nat

/-!
# FBASs in which all nodes require `t` of all nodes
-/

namespace FA
open Spec

theorem slice_flat_iff {Q : NodeSet} {t : ℕ} {vs : List NodeId} :
    Slice Q ⟨t, vs, []⟩ ↔ 1 ≤ t ∧ t ≤ (vs.filter (fun x => decide (x ∈ Q))).length := by
  classical
  rw [slice_iff_count]
  simp

theorem slice_range_iff {Q : NodeSet} {n t : ℕ} (hQ : Q ⊆ Finset.range n) :
    Slice Q ⟨t, List.range n, []⟩ ↔ 1 ≤ t ∧ t ≤ Q.card := by
  rw [slice_flat_iff]
  have : ((List.range n).filter (fun x => decide (x ∈ Q))).length = Q.card := by
    rw [← List.toFinset_card_of_nodup (List.nodup_range.filter _)]
    congr 1
    ext x
    simp only [List.mem_toFinset, List.mem_filter, List.mem_range, decide_eq_true_eq]
    exact ⟨fun h => h.2, fun h => ⟨Finset.mem_range.1 (hQ h), h⟩⟩
  rw [this]

variable {f : Fbas} {t : ℕ}

theorem threshold_quorum_iff (hf : AllHave f ⟨t, List.range f.nodes.length, []⟩) (ht : 1 ≤ t)
    {Q : NodeSet} :
    IsQuorum f Q ↔ Q ⊆ Finset.range f.nodes.length ∧ t ≤ Q.card := by
  constructor
  · intro h
    have hsub := h.subset_all
    refine ⟨hsub, ?_⟩
    obtain ⟨⟨x, hx⟩, h2⟩ := h
    obtain ⟨q, hq, hs⟩ := h2 x hx
    obtain ⟨node, h3, h4⟩ := hf x (Finset.mem_range.1 (hsub hx))
    obtain ⟨node', h5, h6⟩ := hq
    rw [h3] at h5
    obtain rfl := Option.some.inj h5
    rw [← h6, h4] at hs
    exact ((slice_range_iff hsub).1 hs).2
  · rintro ⟨hsub, hc⟩
    refine ⟨Finset.card_pos.1 (by omega), fun x hx => ?_⟩
    exact ⟨_, hf x (Finset.mem_range.1 (hsub hx)), (slice_range_iff hsub).2 ⟨ht, hc⟩⟩

theorem threshold_intersection (hf : AllHave f ⟨t, List.range f.nodes.length, []⟩) (ht : 1 ≤ t)
    (htn : t ≤ f.nodes.length) : QuorumIntersection f ↔ f.nodes.length < 2 * t := by
  have hq := fun Q => threshold_quorum_iff hf ht (Q := Q)
  generalize f.nodes.length = n at *
  constructor
  · rintro ⟨-, h⟩
    by_contra hlt
    obtain ⟨x, h1, h2⟩ := h (Finset.range t) (Finset.Ico t (2 * t))
      ((hq _).2 ⟨by intro x hx; simp at hx ⊢; omega, by simp⟩)
      ((hq _).2 ⟨by intro x hx; simp at hx ⊢; omega, by simp; omega⟩)
    simp at h1 h2; omega
  · intro hlt
    refine ⟨⟨Finset.range n, (hq _).2 ⟨Finset.Subset.refl _, by simpa using htn⟩⟩, ?_⟩
    intro Q₁ Q₂ h1 h2
    obtain ⟨a1, a2⟩ := (hq _).1 h1
    obtain ⟨b1, b2⟩ := (hq _).1 h2
    by_contra hno
    have hd : Disjoint Q₁ Q₂ := Finset.disjoint_left.2 (fun x hx hx' => hno ⟨x, hx, hx'⟩)
    have h3 := Finset.card_le_card (Finset.union_subset a1 b1)
    rw [Finset.card_union_of_disjoint hd, Finset.card_range] at h3
    omega

theorem threshold_blocking_iff (hf : AllHave f ⟨t, List.range f.nodes.length, []⟩) (ht : 1 ≤ t)
    {B : NodeSet} :
    Blocking f B ↔ (Finset.range f.nodes.length \ B).card < t := by
  have hq := fun Q => threshold_quorum_iff hf ht (Q := Q)
  generalize f.nodes.length = n at *
  constructor
  · intro h
    by_contra hlt
    obtain ⟨x, h1, h2⟩ := h (Finset.range n \ B) ((hq _).2 ⟨Finset.sdiff_subset, by omega⟩)
    exact (Finset.mem_sdiff.1 h1).2 h2
  · intro h Q hQ
    obtain ⟨h1, h2⟩ := (hq _).1 hQ
    by_contra hno
    have : Q ⊆ Finset.range n \ B := fun x hx =>
      Finset.mem_sdiff.2 ⟨h1 hx, fun hb => hno ⟨x, hx, hb⟩⟩
    have := Finset.card_le_card this
    omega

theorem threshold_minBlocking_iff (hf : AllHave f ⟨t, List.range f.nodes.length, []⟩) (ht : 1 ≤ t)
    (htn : t ≤ f.nodes.length) {B : NodeSet} :
    IsMinBlocking f B ↔
      B ⊆ Finset.range f.nodes.length ∧ B.card = f.nodes.length - t + 1 := by
  have hb := fun B => threshold_blocking_iff hf ht (B := B)
  generalize f.nodes.length = n at *
  have hcard : ∀ B : NodeSet, B ⊆ Finset.range n → (Finset.range n \ B).card = n - B.card := by
    intro B hB; rw [Finset.card_sdiff_of_subset hB, Finset.card_range]
  constructor
  · intro h
    have hsub : B ⊆ Finset.range n := by
      have : Blocking f (B ∩ Finset.range n) := by
        rw [hb]
        have := (hb _).1 h.prop
        rwa [Finset.inter_comm, Finset.sdiff_inter_self_left]
      exact Finset.subset_inter_iff.1 (h.le_of_le this Finset.inter_subset_left) |>.2
    refine ⟨hsub, ?_⟩
    have h1 := (hb _).1 h.prop
    have hle : B.card ≤ n := by simpa using Finset.card_le_card hsub
    rw [hcard B hsub] at h1
    by_contra hne
    have hlt : n - t + 1 < B.card := by omega
    obtain ⟨C, hC, hcC⟩ := Finset.exists_subset_card_eq (Nat.le_of_lt hlt)
    have hCb : Blocking f C := by
      rw [hb, hcard C (hC.trans hsub), hcC]; omega
    have := Finset.card_le_card (h.le_of_le hCb hC)
    omega
  · rintro ⟨hsub, hc⟩
    refine ⟨(hb _).2 (by rw [hcard B hsub, hc]; omega), fun C hC hle => ?_⟩
    have hCs : C ⊆ Finset.range n := Finset.Subset.trans hle hsub
    have h1 := (hb _).1 hC
    rw [hcard C hCs] at h1
    have hCc : B.card ≤ C.card := by omega
    rw [Finset.eq_of_subset_of_card_le hle hCc]

end FA
