import Verif.Lemmas.Quorums
import Verif.Ref.Env
import Mathlib.Data.Finset.Powerset

/-!
Decision procedures for the specification on concrete FBASs, used only to state concrete cases and
counterexamples next to the property theorems.
-/

namespace FA.Ref
open FA Spec

theorem wf_of {f : Fbas} (h : wfB f = true) : WF f := by
  intro x y hxy
  rw [trusts_iff] at hxy
  by_cases hx : x < f.nodes.length
  · simp only [wfB, List.all_eq_true, List.mem_range, decide_eq_true_eq] at h
    exact h x hx y (QuorumSet.mem_containedNodesWithDuplicates.2 hxy)
  · rw [Fbas.qset_of_ge (Nat.le_of_not_lt hx)] at hxy
    cases hxy with
    | validator h => simp [QuorumSet.empty] at h
    | inner h _ => simp [QuorumSet.empty] at h

instance (f : Fbas) (Q : NodeSet) : Decidable (IsQuorum f Q) :=
  decidable_of_iff _ Fbas.isQuorum_iff

instance (f : Fbas) (Q : NodeSet) : Decidable (IsMinQuorum f Q) :=
  decidable_of_iff (f.isQuorum Q = true ∧ isMinimalForQuorum f Q = true) (by
    rw [isMinimalForQuorum_iff, Fbas.isQuorum_iff, isMinQuorum_iff])

instance (f : Fbas) : Decidable (∃ Q, IsQuorum f Q) :=
  decidable_of_iff (f.containsQuorum f.allNodes = true) (by
    rw [Fbas.containsQuorum_iff]
    exact ⟨fun ⟨Q, h, _⟩ => ⟨Q, h⟩, fun ⟨Q, h⟩ => ⟨Q, h, h.subset_all⟩⟩)

instance (f : Fbas) (B : NodeSet) : Decidable (Blocking f B) :=
  decidable_of_iff (f.complementContainsQuorum B = false) (by
    rw [Bool.eq_false_iff, ne_eq, Fbas.complementContainsQuorum_iff, Blocking]
    push Not
    refine forall₂_congr (fun Q _ => ?_)
    rw [Finset.not_disjoint_iff])

theorem isMinBlocking_iff {f : Fbas} {B : NodeSet} :
    IsMinBlocking f B ↔ Blocking f B ∧ ∀ x ∈ B, ¬ Blocking f (B.erase x) := by
  rw [IsMinBlocking, minimal_iff]
  refine and_congr_right (fun _ => ⟨fun h x hx hb => ?_, fun h C hC hCB => ?_⟩)
  · have := h hb (Finset.erase_subset _ _)
    rw [this] at hx; simp at hx
  · by_contra hne
    obtain ⟨x, hxB, hxC⟩ := Finset.exists_of_ssubset (hCB.ssubset_of_ne (Ne.symm hne))
    refine h x hxB (fun Q hQ => ?_)
    obtain ⟨y, hyQ, hyC⟩ := hC Q hQ
    exact ⟨y, hyQ, Finset.mem_erase.2 ⟨fun h => hxC (h ▸ hyC), hCB hyC⟩⟩

instance (f : Fbas) (B : NodeSet) : Decidable (IsMinBlocking f B) :=
  decidable_of_iff _ isMinBlocking_iff.symm

instance (f : Fbas) : Decidable (QuorumIntersection f) :=
  decidable_of_iff ((∃ Q, IsQuorum f Q) ∧
    ∀ Q ∈ f.allNodes.powerset, IsQuorum f Q → Blocking f Q) (by
    refine and_congr_right (fun _ => ?_)
    constructor
    · intro h P Q hP hQ
      obtain ⟨x, h1, h2⟩ := h Q (Finset.mem_powerset.2 hQ.subset_all) hQ P hP
      exact ⟨x, h1, h2⟩
    · intro h Q _ hQ P hP
      exact h P Q hP hQ)

instance (f : Fbas) (S : NodeSet) : Decidable (Splitting f S) :=
  decidable_of_iff (∃ Q₁ ∈ f.allNodes.powerset, ∃ Q₂ ∈ f.allNodes.powerset,
      IsMinQuorum f Q₁ ∧ IsMinQuorum f Q₂ ∧ Q₁ ≠ Q₂ ∧ Q₁ ∩ Q₂ ⊆ S) (by
    constructor
    · rintro ⟨Q₁, _, Q₂, _, h⟩; exact ⟨Q₁, Q₂, h⟩
    · rintro ⟨Q₁, Q₂, h⟩
      exact ⟨Q₁, Finset.mem_powerset.2 h.1.prop.subset_all, Q₂,
        Finset.mem_powerset.2 h.2.1.prop.subset_all, h⟩)

theorem isMinSplitting_iff {f : Fbas} {S : NodeSet} :
    IsMinSplitting f S ↔ Splitting f S ∧ ∀ x ∈ S, ¬ Splitting f (S.erase x) := by
  rw [IsMinSplitting, minimal_iff]
  refine and_congr_right (fun _ => ⟨fun h x hx hb => ?_, fun h C hC hCB => ?_⟩)
  · have := h hb (Finset.erase_subset _ _)
    rw [this] at hx; simp at hx
  · by_contra hne
    obtain ⟨x, hxB, hxC⟩ := Finset.exists_of_ssubset (hCB.ssubset_of_ne (Ne.symm hne))
    obtain ⟨Q₁, Q₂, h1, h2, h3, h4⟩ := hC
    exact h x hxB ⟨Q₁, Q₂, h1, h2, h3, fun y hy =>
      Finset.mem_erase.2 ⟨fun e => hxC (e ▸ h4 hy), hCB (h4 hy)⟩⟩

instance (f : Fbas) (S : NodeSet) : Decidable (IsMinSplitting f S) :=
  decidable_of_iff _ isMinSplitting_iff.symm

theorem dupFree_of {q : QuorumSet} (h : q.containsDuplicates = false) : DupFree q :=
  (dupFree_iff q).2 ((QuorumSet.containsDuplicates_iff q).1 h)

end FA.Ref
