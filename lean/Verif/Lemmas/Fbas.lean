import Verif.Lemmas.Combine
import Verif.Model.Preprocessing

/-! Lemmas about quorums, satisfiable nodes and quorum containment. -/

namespace FA
open Spec QuorumSet

theorem Spec.hasQSet_iff {f : Fbas} {x : ℕ} {q : QuorumSet} :
    HasQSet f x q ↔ x < f.nodes.length ∧ f.qset x = q := by
  unfold HasQSet Fbas.qset
  constructor
  · rintro ⟨node, h, rfl⟩
    refine ⟨?_, by rw [h]⟩
    by_contra hx
    rw [List.getElem?_eq_none (by omega)] at h
    cases h
  · rintro ⟨hx, rfl⟩
    exact ⟨f.nodes[x], by simp [hx], by simp [hx]⟩

theorem Fbas.qset_of_ge {f : Fbas} {x : ℕ} (h : f.nodes.length ≤ x) :
    f.qset x = QuorumSet.empty := by
  simp [Fbas.qset, List.getElem?_eq_none h]

theorem Spec.isQuorum_iff {f : Fbas} {Q : NodeSet} :
    IsQuorum f Q ↔ Q.Nonempty ∧ ∀ x ∈ Q, Slice Q (f.qset x) := by
  unfold IsQuorum
  refine and_congr_right (fun _ => forall₂_congr (fun x _ => ?_))
  constructor
  · rintro ⟨q, hq, hs⟩
    rw [(hasQSet_iff.1 hq).2]; exact hs
  · intro hs
    refine ⟨_, hasQSet_iff.2 ⟨?_, rfl⟩, hs⟩
    by_contra hx
    rw [Fbas.qset_of_ge (by omega)] at hs
    exact not_slice_empty _ hs

theorem Spec.IsQuorum.subset_all {f : Fbas} {Q : NodeSet} (h : IsQuorum f Q) :
    Q ⊆ f.allNodes := by
  intro x hx
  obtain ⟨q, hq, _⟩ := h.2 x hx
  simp [Fbas.allNodes, (hasQSet_iff.1 hq).1]

theorem Fbas.nodeIsQuorumSlice_iff {f : Fbas} {x : ℕ} {S : NodeSet} :
    f.nodeIsQuorumSlice x S = true ↔ Slice S (f.qset x) := isQuorumSlice_iff _ _

theorem Fbas.isQuorum_iff {f : Fbas} {S : NodeSet} : f.isQuorum S = true ↔ IsQuorum f S := by
  rw [Spec.isQuorum_iff, Fbas.isQuorum]
  simp [Finset.nonempty_iff_ne_empty, Fbas.nodeIsQuorumSlice_iff]

theorem Spec.IsQuorum.union {f : Fbas} {P Q : NodeSet} (hP : IsQuorum f P) (hQ : IsQuorum f Q) :
    IsQuorum f (P ∪ Q) := by
  rw [isQuorum_iff] at *
  refine ⟨hP.1.mono Finset.subset_union_left, fun x hx => ?_⟩
  rcases Finset.mem_union.1 hx with h | h
  · exact (hP.2 x h).mono Finset.subset_union_left
  · exact (hQ.2 x h).mono Finset.subset_union_right

/-- `R` is the largest self-satisfied subset of `S`: it is closed and contains every quorum inside
`S`. -/
structure MaxQuorumIn (f : Fbas) (S R : NodeSet) : Prop where
  sub : R ⊆ S
  closed : ∀ x ∈ R, Slice R (f.qset x)
  max : ∀ Q, IsQuorum f Q → Q ⊆ S → Q ⊆ R

theorem MaxQuorumIn.isQuorum {f : Fbas} {S R : NodeSet} (h : MaxQuorumIn f S R)
    (hne : R.Nonempty) : IsQuorum f R := isQuorum_iff.2 ⟨hne, h.closed⟩

theorem MaxQuorumIn.nonempty_iff {f : Fbas} {S R : NodeSet} (h : MaxQuorumIn f S R) :
    R.Nonempty ↔ ∃ Q, IsQuorum f Q ∧ Q ⊆ S :=
  ⟨fun hne => ⟨R, h.isQuorum hne, h.sub⟩, fun ⟨Q, hQ, hQS⟩ => hQ.1.mono (h.max Q hQ hQS)⟩

theorem MaxQuorumIn.mem_iff {f : Fbas} {S R : NodeSet} (h : MaxQuorumIn f S R) {x : ℕ} :
    x ∈ R ↔ ∃ Q, IsQuorum f Q ∧ Q ⊆ S ∧ x ∈ Q :=
  ⟨fun hx => ⟨R, h.isQuorum ⟨x, hx⟩, h.sub, hx⟩, fun ⟨Q, hQ, hQS, hx⟩ => h.max Q hQ hQS hx⟩

theorem MaxQuorumIn.unique {f : Fbas} {S R R' : NodeSet} (h : MaxQuorumIn f S R)
    (h' : MaxQuorumIn f S R') : R = R' := by
  ext x; rw [h.mem_iff, h'.mem_iff]

theorem Fbas.find_none {f : Fbas} {S : NodeSet}
    (h : (elems S).find? (fun x => !f.nodeIsQuorumSlice x S) = none) :
    ∀ x ∈ S, Slice S (f.qset x) := by
  intro x hx
  have := List.find?_eq_none.1 h x (by simpa using hx)
  simpa [Fbas.nodeIsQuorumSlice_iff] using this

theorem Fbas.find_some {f : Fbas} {S : NodeSet} {x : ℕ}
    (h : (elems S).find? (fun x => !f.nodeIsQuorumSlice x S) = some x) :
    x ∈ S ∧ ¬ Slice S (f.qset x) := by
  have h1 := List.find?_some h
  have h2 := List.mem_of_find?_eq_some h
  rw [← Fbas.nodeIsQuorumSlice_iff]
  exact ⟨by simpa using h2, by simpa using h1⟩

/-- Removing an unsatisfied node does not lose quorums. -/
theorem quorum_subset_erase {f : Fbas} {S Q : NodeSet} {x : ℕ} (hx : ¬ Slice S (f.qset x))
    (hQ : IsQuorum f Q) (hQS : Q ⊆ S) : Q ⊆ S.erase x := by
  intro y hy
  refine Finset.mem_erase.2 ⟨?_, hQS hy⟩
  rintro rfl
  exact hx (((isQuorum_iff.1 hQ).2 y hy).mono hQS)

theorem Fbas.satLoop_spec (f : Fbas) (S : NodeSet) (fuel : ℕ) (sat unsat : NodeSet)
    (hfuel : sat.card ≤ fuel) (hsub : sat ⊆ S) (hmax : ∀ Q, IsQuorum f Q → Q ⊆ S → Q ⊆ sat)
    (hun : sat ∪ unsat = S) (hdis : Disjoint sat unsat) :
    MaxQuorumIn f S (f.satLoop fuel (sat, unsat)).1 ∧
      (f.satLoop fuel (sat, unsat)).1 ∪ (f.satLoop fuel (sat, unsat)).2 = S ∧
      Disjoint (f.satLoop fuel (sat, unsat)).1 (f.satLoop fuel (sat, unsat)).2 := by
  induction fuel generalizing sat unsat with
  | zero =>
    have : sat = ∅ := by simpa using hfuel
    subst this
    exact ⟨⟨hsub, by simp [satLoop], hmax⟩, hun, hdis⟩
  | succ fuel ih =>
    rw [satLoop]
    split
    next h => exact ⟨⟨hsub, find_none h, hmax⟩, hun, hdis⟩
    next x h =>
      obtain ⟨hx, hns⟩ := find_some h
      refine ih _ _ ?_ ((Finset.erase_subset _ _).trans hsub) ?_ ?_ ?_
      · rw [Finset.card_erase_of_mem hx]; omega
      · intro Q hQ hQS
        exact quorum_subset_erase hns hQ (hmax Q hQ hQS)
      · rw [← hun]
        ext y
        simp only [Finset.mem_union, Finset.mem_erase, Finset.mem_insert]
        by_cases hy : y = x
        · subst hy; simp [hx]
        · simp [hy]
      · rw [Finset.disjoint_left] at *
        intro y hy
        rw [Finset.mem_erase] at hy
        rw [Finset.mem_insert]
        rintro (h | h)
        · exact hy.1 h
        · exact hdis hy.2 h

theorem Fbas.findSatisfiableNodes_spec (f : Fbas) (S : NodeSet) :
    MaxQuorumIn f S (f.findSatisfiableNodes S).1 ∧
      (f.findSatisfiableNodes S).1 ∪ (f.findSatisfiableNodes S).2 = S ∧
      Disjoint (f.findSatisfiableNodes S).1 (f.findSatisfiableNodes S).2 := by
  unfold findSatisfiableNodes
  refine satLoop_spec f S _ _ _ le_rfl ?_ ?_ ?_ ?_
  · intro x hx; simp at hx; exact hx.1
  · intro Q hQ hQS x hx
    simp only [ofList, List.mem_toFinset, List.mem_filter, mem_elems]
    exact ⟨hQS hx, nodeIsQuorumSlice_iff.2 (((Spec.isQuorum_iff.1 hQ).2 x hx).mono hQS)⟩
  · ext x
    simp only [ofList, Finset.mem_union, List.mem_toFinset, List.mem_filter, mem_elems]
    cases f.nodeIsQuorumSlice x S <;> simp
  · rw [Finset.disjoint_left]
    intro x hx hx'
    simp at hx hx'
    rw [hx.2] at hx'
    exact absurd hx'.2 (by simp)

theorem Fbas.cqLoop_spec (f : Fbas) (S : NodeSet) (fuel : ℕ) (sat : NodeSet)
    (hfuel : sat.card ≤ fuel) (hsub : sat ⊆ S) (hmax : ∀ Q, IsQuorum f Q → Q ⊆ S → Q ⊆ sat) :
    MaxQuorumIn f S (f.cqLoop fuel sat) := by
  induction fuel generalizing sat with
  | zero =>
    have : sat = ∅ := by simpa using hfuel
    subst this
    exact ⟨hsub, by simp [cqLoop], hmax⟩
  | succ fuel ih =>
    rw [cqLoop]
    split
    next h => exact ⟨hsub, find_none h, hmax⟩
    next x h =>
      obtain ⟨hx, hns⟩ := find_some h
      refine ih _ ?_ ((Finset.erase_subset _ _).trans hsub) ?_
      · rw [Finset.card_erase_of_mem hx]; omega
      · intro Q hQ hQS
        exact quorum_subset_erase hns hQ (hmax Q hQ hQS)

theorem Fbas.containsQuorum_iff {f : Fbas} {S : NodeSet} :
    f.containsQuorum S = true ↔ ∃ Q, IsQuorum f Q ∧ Q ⊆ S := by
  have h := cqLoop_spec f S S.card S le_rfl (Finset.Subset.refl _) (fun _ _ h => h)
  rw [← h.nonempty_iff, containsQuorum]
  simp [Finset.nonempty_iff_ne_empty]

theorem Fbas.containsQuorum_false {f : Fbas} {S : NodeSet} :
    f.containsQuorum S = false ↔ ∀ Q, IsQuorum f Q → ¬ Q ⊆ S := by
  rw [Bool.eq_false_iff, ne_eq, containsQuorum_iff]
  push Not
  rfl

theorem Fbas.complementContainsQuorum_iff {f : Fbas} {S : NodeSet} :
    f.complementContainsQuorum S = true ↔ ∃ Q, IsQuorum f Q ∧ Disjoint Q S := by
  rw [complementContainsQuorum, containsQuorum_iff]
  refine exists_congr (fun Q => and_congr_right (fun hQ => ?_))
  rw [Finset.subset_sdiff]
  exact ⟨fun h => h.2, fun h => ⟨hQ.subset_all, h⟩⟩

/-- Every quorum contains a minimal one. -/
theorem Spec.IsQuorum.exists_min {f : Fbas} {Q : NodeSet} (h : IsQuorum f Q) :
    ∃ Q', IsMinQuorum f Q' ∧ Q' ⊆ Q := by
  induction hn : Q.card using Nat.strong_induction_on generalizing Q with
  | _ n ih =>
    by_cases hmin : IsMinQuorum f Q
    · exact ⟨Q, hmin, Finset.Subset.refl _⟩
    · rw [IsMinQuorum, minimal_iff_forall_lt] at hmin
      push Not at hmin
      obtain ⟨P, hPQ, hP⟩ := hmin h
      obtain ⟨Q', hQ', hsub⟩ := ih P.card (hn ▸ Finset.card_lt_card hPQ) hP rfl
      exact ⟨Q', hQ', hsub.trans hPQ.1⟩

/-! ### Strong connectivity of minimal quorums -/

theorem Spec.trusts_iff {f : Fbas} {x y : ℕ} : Trusts f x y ↔ Mentions (f.qset x) y := by
  constructor
  · rintro ⟨q, hq, hm⟩; rw [(hasQSet_iff.1 hq).2]; exact hm
  · intro hm
    refine ⟨_, hasQSet_iff.2 ⟨?_, rfl⟩, hm⟩
    by_contra hx
    rw [Fbas.qset_of_ge (by omega)] at hm
    cases hm with
    | validator h => simp [QuorumSet.empty] at h
    | inner h _ => simp [QuorumSet.empty] at h

/-- The members of a quorum reachable from one member form a quorum. -/
theorem Spec.IsQuorum.reachable_part {f : Fbas} {Q : NodeSet} (h : IsQuorum f Q) {x : ℕ}
    (hx : x ∈ Q) : ∃ R ⊆ Q, IsQuorum f R ∧ ∀ y ∈ R, Reaches f x y := by
  classical
  refine ⟨Q.filter (Reaches f x), Finset.filter_subset _ _, ?_, by simp⟩
  rw [isQuorum_iff] at *
  refine ⟨⟨x, Finset.mem_filter.2 ⟨hx, Relation.ReflTransGen.refl⟩⟩, fun y hy => ?_⟩
  rw [Finset.mem_filter] at hy
  refine (h.2 y hy.1).mono_on (fun z hz hzQ => ?_)
  rw [Finset.mem_filter]
  exact ⟨hzQ, hy.2.tail (trusts_iff.2 hz)⟩

theorem Spec.IsMinQuorum.strongly_connected {f : Fbas} {Q : NodeSet} (h : IsMinQuorum f Q)
    {x y : ℕ} (hx : x ∈ Q) (hy : y ∈ Q) : Reaches f x y := by
  obtain ⟨R, hRQ, hR, hreach⟩ := h.prop.reachable_part hx
  exact hreach y (h.le_of_le hR hRQ hy)

end FA
