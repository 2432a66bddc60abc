import Verif.SpecSafety
import Verif.SpecSimulation
import Verif.Lemmas.Quorums

/-!
# Lemmas about attacks on safety
-/

namespace FA
open Spec

variable {f : Fbas} {S T : NodeSet}

theorem quorumDespite_of_quorum {Q : NodeSet} (hQ : IsQuorum f Q) (h : ∃ x ∈ Q, x ∉ S) :
    QuorumDespite f S (Q \ S) := by
  obtain ⟨x, hx, hxS⟩ := h
  refine ⟨⟨x, by simp [hx, hxS]⟩, fun y hy => (Finset.mem_sdiff.1 hy).2, fun y hy => ?_⟩
  obtain ⟨q, h1, h2⟩ := hQ.2 y (Finset.mem_sdiff.1 hy).1
  refine ⟨q, h1, h2.mono ?_⟩
  intro z hz
  by_cases h : z ∈ S <;> simp [h, hz]

theorem canFork_endangers (h : CanFork f S) : Endangers f S := by
  obtain ⟨Q₁, Q₂, h1, h2, h3, h4, h5⟩ := h
  refine ⟨_, _, quorumDespite_of_quorum h1 h3, quorumDespite_of_quorum h2 h4, fun x hx hx' => ?_⟩
  simp only [Finset.mem_sdiff] at hx hx'
  exact hx.2 (h5 x hx.1 hx'.1)

theorem canFork_of_meet {P Q : NodeSet} (hP : IsMinQuorum f P) (hQ : IsMinQuorum f Q) (hne : P ≠ Q) :
    CanFork f (P ∩ Q) := by
  refine ⟨P, Q, hP.1, hQ.1, ?_, ?_, fun x h1 h2 => Finset.mem_inter.2 ⟨h1, h2⟩⟩
  · by_contra hc
    push Not at hc
    exact hne (hQ.eq_of_subset hP.1 (fun x hx => (Finset.mem_inter.1 (hc x hx)).2))
  · by_contra hc
    push Not at hc
    exact hne (hP.eq_of_subset hQ.1 (fun x hx => (Finset.mem_inter.1 (hc x hx)).1)).symm

theorem splitting_of_canFork (h2 : ∃ P Q, IsMinQuorum f P ∧ IsMinQuorum f Q ∧ P ≠ Q)
    (h : CanFork f S) : Splitting f S := by
  obtain ⟨Q₁, Q₂, hQ₁, hQ₂, -, -, hS⟩ := h
  obtain ⟨M₁, hM₁, hs₁⟩ := hQ₁.exists_min
  obtain ⟨M₂, hM₂, hs₂⟩ := hQ₂.exists_min
  have hS' : M₁ ∩ M₂ ⊆ S := fun x hx =>
    hS x (hs₁ (Finset.mem_inter.1 hx).1) (hs₂ (Finset.mem_inter.1 hx).2)
  by_cases he : M₁ = M₂
  · subst he
    rw [Finset.inter_self] at hS'
    obtain ⟨P, Q, hP, hQ, hne⟩ := h2
    by_cases hMP : M₁ = P
    · exact ⟨M₁, Q, hM₁, hQ, by rw [hMP]; exact hne, Finset.inter_subset_left.trans hS'⟩
    · exact ⟨M₁, P, hM₁, hP, hMP, Finset.inter_subset_left.trans hS'⟩
  · exact ⟨M₁, M₂, hM₁, hM₂, he, hS'⟩

theorem canFork_of_minSplitting (h : IsMinSplitting f S) : CanFork f S := by
  obtain ⟨⟨P, Q, hP, hQ, hne, hS⟩, hm⟩ := h
  have : S = P ∩ Q := Finset.Subset.antisymm (hm ⟨P, Q, hP, hQ, hne, le_rfl⟩ hS) hS
  rw [this]
  exact canFork_of_meet hP hQ hne

theorem exists_minSplitting (h : Splitting f S) : ∃ T ⊆ S, IsMinSplitting f T := by
  obtain ⟨T, h1, h2⟩ := exists_minimal_le_of_wellFoundedLT (Splitting f) S h
  exact ⟨T, h1, h2⟩

theorem canFork_of_endangers {q : QuorumSet} (hwf : WF f) (ha : AllHave f q) (h : Endangers f S) :
    ∃ T ⊆ S, CanFork f T := by
  obtain ⟨Q₁, Q₂, h1, h2, h3⟩ := h
  have hn : ∀ {Q}, QuorumDespite f S Q → ∀ x ∈ Q, x < f.nodes.length := by
    intro Q hQ x hx
    obtain ⟨-, ⟨n, hn, -⟩, -⟩ := hQ.2.2 x hx
    exact (List.getElem?_eq_some_iff.1 hn).1
  have hqu : ∀ {Q}, QuorumDespite f S Q →
      IsQuorum f (Q ∪ S.filter (· < f.nodes.length)) := by
    intro Q hQ
    obtain ⟨y, hy⟩ := hQ.1
    refine ⟨⟨y, by simp [hy]⟩, fun x hx => ⟨q, ha x ?_, ?_⟩⟩
    · rcases Finset.mem_union.1 hx with h | h
      · exact hn hQ x h
      · exact (Finset.mem_filter.1 h).2
    · obtain ⟨q', hq', hs⟩ := hQ.2.2 y hy
      have hqq : q' = q := by
        obtain ⟨n, e1, e2⟩ := hq'
        obtain ⟨m, e3, e4⟩ := ha y (hn hQ y hy)
        rw [e1] at e3
        cases e3
        exact e2.symm.trans e4
      subst hqq
      refine (slice_congr fun z hz => ?_).1 hs
      have := hwf y z ⟨q', hq', hz⟩
      simp [this]
  refine ⟨S.filter (· < f.nodes.length), Finset.filter_subset _ _, _, _, hqu h1, hqu h2, ?_, ?_, ?_⟩
  · obtain ⟨y, hy⟩ := h1.1
    exact ⟨y, by simp [hy], fun hc => h1.2.1 y hy (Finset.mem_filter.1 hc).1⟩
  · obtain ⟨y, hy⟩ := h2.1
    exact ⟨y, by simp [hy], fun hc => h2.2.1 y hy (Finset.mem_filter.1 hc).1⟩
  · intro x hx hx'
    rcases Finset.mem_union.1 hx with h | h
    · rcases Finset.mem_union.1 hx' with h' | h'
      · exact absurd h' (h3 x h)
      · exact h'
    · exact h

end FA
