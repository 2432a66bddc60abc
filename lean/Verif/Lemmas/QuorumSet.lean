import Verif.Lemmas.Base
import Verif.Spec
import Mathlib.Data.List.Nodup
import Mathlib.Data.List.Forall2
import Mathlib.Data.List.Perm.Basic

/-! Lemmas about quorum sets, slices and `to_quorum_slices`. -/

namespace FA
open Spec

/-- Induction on nested quorum sets. -/
theorem QuorumSet.induct {P : QuorumSet → Prop}
    (h : ∀ t vs qs, (∀ q ∈ qs, P q) → P ⟨t, vs, qs⟩) (q : QuorumSet) : P q := by
  refine QuorumSet.rec (motive_1 := P) (motive_2 := fun qs => ∀ q ∈ qs, P q) ?_ ?_ ?_ q
  · exact fun t vs qs ih => h t vs qs ih
  · simp
  · intro q qs h1 h2 q' hq'
    rcases List.mem_cons.1 hq' with rfl | hq'
    · exact h1
    · exact h2 q' hq'

namespace QuorumSet

theorem filterSlices_eq (S : NodeSet) (qs : List QuorumSet) :
    filterSlices S qs = qs.filter (isQuorumSlice S) := by
  induction qs with
  | nil => simp [filterSlices]
  | cons q qs ih => rw [filterSlices, ih, List.filter_cons]

theorem containedNodesWithDuplicatesList_eq (qs : List QuorumSet) :
    containedNodesWithDuplicatesList qs = qs.flatMap containedNodesWithDuplicates := by
  induction qs with
  | nil => simp [containedNodesWithDuplicatesList]
  | cons q qs ih => rw [containedNodesWithDuplicatesList, ih, List.flatMap_cons]

theorem toQuorumSlicesList_eq (qs : List QuorumSet) :
    toQuorumSlicesList qs = qs.map toQuorumSlices := by
  induction qs with
  | nil => simp [toQuorumSlicesList]
  | cons q qs ih => rw [toQuorumSlicesList, ih, List.map_cons]

theorem isQuorumSlice_iff_count (S : NodeSet) (q : QuorumSet) :
    isQuorumSlice S q = true ↔ 1 ≤ q.threshold ∧
      q.threshold ≤ (q.validators.filter (fun x => decide (x ∈ S))).length
        + (q.inner.filter (isQuorumSlice S)).length := by
  obtain ⟨t, vs, qs⟩ := q
  rw [isQuorumSlice, filterSlices_eq]
  split
  · rename_i h; subst h; simp
  · simp only [List.length_take, beq_iff_eq]
    omega

theorem mem_containedNodesWithDuplicates {q : QuorumSet} {x : ℕ} :
    x ∈ q.containedNodesWithDuplicates ↔ Mentions q x := by
  induction q using QuorumSet.induct with
  | h t vs qs ih =>
    rw [containedNodesWithDuplicates, containedNodesWithDuplicatesList_eq, List.mem_append,
      List.mem_flatMap]
    constructor
    · rintro (h | ⟨q, hq, h⟩)
      · exact .validator h
      · exact .inner hq ((ih q hq).1 h)
    · intro h
      cases h with
      | validator h => exact .inl h
      | inner hq h => exact .inr ⟨_, hq, (ih _ hq).2 h⟩

@[simp] theorem mem_containedNodes {q : QuorumSet} {x : ℕ} :
    x ∈ q.containedNodes ↔ Mentions q x := by
  simp [containedNodes, mem_containedNodesWithDuplicates]

end QuorumSet

open QuorumSet

theorem Spec.slice_iff_count (S : NodeSet) (q : QuorumSet) [DecidablePred (Slice S)] :
    Slice S q ↔ 1 ≤ q.threshold ∧
      q.threshold ≤ (q.validators.filter (fun x => decide (x ∈ S))).length
        + (q.inner.filter (fun q' => decide (Slice S q'))).length := by
  constructor
  · rintro ⟨_, vs, qs, hvs, hqs, hin, hsat, hpos, hlen⟩
    refine ⟨hpos, ?_⟩
    have h1 : vs.Sublist (q.validators.filter (fun x => decide (x ∈ S))) := by
      have := hvs.filter (fun x => decide (x ∈ S))
      rwa [List.filter_eq_self.2 (by simpa using hin)] at this
    have h2 : qs.Sublist (q.inner.filter (fun q' => decide (Slice S q'))) := by
      have := hqs.filter (fun q' => decide (Slice S q'))
      rwa [List.filter_eq_self.2 (by simpa using hsat)] at this
    have := Nat.add_le_add h1.length_le h2.length_le
    rw [hlen] at this
    exact this
  · rintro ⟨hpos, hle⟩
    refine .intro q
      ((q.validators.filter (fun x => decide (x ∈ S))).take q.threshold)
      ((q.inner.filter (fun q' => decide (Slice S q'))).take (q.threshold -
        ((q.validators.filter (fun x => decide (x ∈ S))).take q.threshold).length))
      ((List.take_sublist _ _).trans List.filter_sublist)
      ((List.take_sublist _ _).trans List.filter_sublist) ?_ ?_ hpos ?_
    · intro v hv
      have := List.mem_of_mem_take hv
      simpa using (List.mem_filter.1 this).2
    · intro v hv
      have := List.mem_of_mem_take hv
      simpa using (List.mem_filter.1 this).2
    · simp only [List.length_take]; omega

theorem QuorumSet.isQuorumSlice_iff (S : NodeSet) (q : QuorumSet) :
    isQuorumSlice S q = true ↔ Slice S q := by
  classical
  induction q using QuorumSet.induct with
  | h t vs qs ih =>
    rw [isQuorumSlice_iff_count, slice_iff_count]
    have : qs.filter (isQuorumSlice S) = qs.filter (fun q' => decide (Slice S q')) := by
      apply List.filter_congr
      intro q hq
      have := ih q hq
      by_cases h : Slice S q
      · simp [h, this.2 h]
      · simp only [h, decide_false]; exact Bool.eq_false_iff.2 (fun hh => h (this.1 hh))
    simp only [this]

instance (S : NodeSet) : DecidablePred (Slice S) := fun q =>
  decidable_of_iff _ (isQuorumSlice_iff S q)

theorem Spec.Slice.mono_on {S T : NodeSet} {q : QuorumSet} (h : Slice S q)
    (hST : ∀ x, Mentions q x → x ∈ S → x ∈ T) : Slice T q := by
  induction h with
  | intro q vs qs hvs hqs hin hsat hpos hlen ih =>
    exact .intro q vs qs hvs hqs
      (fun v hv => hST v (.validator (hvs.subset hv)) (hin v hv))
      (fun q' hq' => ih q' hq' (fun x hx => hST x (.inner (hqs.subset hq') hx))) hpos hlen

theorem Spec.Slice.mono {S T : NodeSet} {q : QuorumSet} (h : Slice S q) (hST : S ⊆ T) :
    Slice T q := h.mono_on (fun _ _ hx => hST hx)

theorem Spec.slice_congr {S T : NodeSet} {q : QuorumSet}
    (h : ∀ x, Mentions q x → (x ∈ S ↔ x ∈ T)) : Slice S q ↔ Slice T q :=
  ⟨fun hs => hs.mono_on (fun x hx => (h x hx).1), fun hs => hs.mono_on (fun x hx => (h x hx).2)⟩

theorem Spec.Slice.inter {S : NodeSet} {q : QuorumSet} (h : Slice S q) :
    Slice (S ∩ q.containedNodes) q :=
  h.mono_on (fun x hx hS => by simp [hS, hx])

theorem Spec.Slice.nonempty {S : NodeSet} {q : QuorumSet} (h : Slice S q) :
    ∃ x, Mentions q x ∧ x ∈ S := by
  induction h with
  | intro q vs qs hvs hqs hin hsat hpos hlen ih =>
    cases vs with
    | cons v vs =>
      exact ⟨v, .validator (hvs.subset (by simp)), hin v (by simp)⟩
    | nil =>
      cases qs with
      | nil => simp at hlen; omega
      | cons q' qs =>
        obtain ⟨x, hx, hxS⟩ := ih q' (by simp)
        exact ⟨x, .inner (hqs.subset (by simp)) hx, hxS⟩

theorem Spec.not_slice_empty (S : NodeSet) : ¬ Slice S QuorumSet.empty := by
  rintro ⟨_, _, _, _, _, _, _, hpos, _⟩
  simp [QuorumSet.empty] at hpos

/-! ### `contains_duplicates` -/

theorem QuorumSet.containsDuplicates_iff (q : QuorumSet) :
    q.containsDuplicates = false ↔ q.containedNodesWithDuplicates.Nodup := by
  simp only [containsDuplicates, ofList, bne_eq_false_iff_eq]
  constructor
  · intro h
    have h1 : q.containedNodesWithDuplicates.dedup.length
        = q.containedNodesWithDuplicates.length := by rw [h, List.card_toFinset]
    have h3 := (List.dedup_sublist q.containedNodesWithDuplicates).eq_of_length h1
    rw [← h3]; exact List.nodup_dedup _
  · exact fun h => (List.toFinset_card_of_nodup h).symm

theorem Spec.dupFree_iff (q : QuorumSet) : DupFree q ↔ q.containedNodesWithDuplicates.Nodup := by
  induction q using QuorumSet.induct with
  | h t vs qs ih =>
    rw [containedNodesWithDuplicates, containedNodesWithDuplicatesList_eq, List.nodup_append]
    rw [List.nodup_flatMap]
    constructor
    · rintro ⟨_, hv, hvi, hii, hi⟩
      refine ⟨hv, ⟨fun q hq => (ih q hq).1 (hi q hq), ?_⟩, ?_⟩
      · refine hii.imp ?_
        intro a b hab x hxa hxb
        exact hab x (mem_containedNodesWithDuplicates.1 hxa) (mem_containedNodesWithDuplicates.1 hxb)
      · intro a ha b hb hab
        subst hab
        obtain ⟨q, hq, hb⟩ := List.mem_flatMap.1 hb
        exact hvi q hq a (mem_containedNodesWithDuplicates.1 hb) ha
    · rintro ⟨hv, ⟨hi, hii⟩, hvi⟩
      refine .intro _ hv ?_ ?_ (fun q hq => (ih q hq).2 (hi q hq))
      · intro q hq x hx hxv
        exact hvi x hxv x (List.mem_flatMap.2 ⟨q, hq, mem_containedNodesWithDuplicates.2 hx⟩) rfl
      · refine hii.imp ?_
        intro a b hab x hxa hxb
        exact hab (mem_containedNodesWithDuplicates.2 hxa) (mem_containedNodesWithDuplicates.2 hxb)

end FA
