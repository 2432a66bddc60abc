import Verif.SpecWhatIf
import Verif.Lemmas.ReuseReport

/-!
# Helper lemmas: failed nodes
-/

namespace FA
open Spec Reuse

variable {r : RawFbas} {failed : List PublicKey}

theorem withoutFailed_distinct (hd : DistinctKeys r) : DistinctKeys (withoutFailed r failed) :=
  hd.sublist (List.filter_sublist.map _)

theorem rawQuorum_withoutFailed (P : Finset PublicKey) :
    RawQuorum (withoutFailed r failed) P ↔ RawQuorum r P ∧ NoneFailed failed P := by
  unfold RawQuorum withoutFailed
  constructor
  · rintro ⟨h1, h2⟩
    refine ⟨⟨h1, fun p hp => ?_⟩, fun p hp => ?_⟩
    · obtain ⟨n, hn, h⟩ := h2 p hp
      exact ⟨n, (List.mem_filter.1 hn).1, h⟩
    · obtain ⟨n, hn, rfl, -⟩ := h2 p hp
      exact of_decide_eq_true (List.mem_filter.1 hn).2
  · rintro ⟨⟨h1, h2⟩, h3⟩
    refine ⟨h1, fun p hp => ?_⟩
    obtain ⟨n, hn, rfl, h⟩ := h2 p hp
    exact ⟨n, List.mem_filter.2 ⟨hn, decide_eq_true (h3 _ hp)⟩, rfl, h⟩

theorem named_quorum_iff (hd : DistinctKeys r) (P : Finset PublicKey) :
    Named (Fbas.fromRaw r) (IsQuorum (Fbas.fromRaw r)) P ↔ RawQuorum r P := by
  constructor
  · rintro ⟨Q, hQ, rfl⟩
    exact (rawQuorum_fromRaw hd hQ.subset_all).2 hQ
  · intro h
    obtain ⟨Q, hQ, rfl⟩ := exists_names (f := Fbas.fromRaw r) (P := P) (fun p hp => by
      obtain ⟨n, hn, rfl, -⟩ := h.2 p hp
      exact ⟨_, List.mem_map_of_mem hn, rfl⟩)
    exact ⟨Q, (rawQuorum_fromRaw hd hQ).1 h, rfl⟩

theorem named_minQuorum_withoutFailed (hd : DistinctKeys r) (P : Finset PublicKey) :
    Named (Fbas.fromRaw (withoutFailed r failed)) (IsMinQuorum (Fbas.fromRaw (withoutFailed r failed))) P
      ↔ Named (Fbas.fromRaw r) (IsMinQuorum (Fbas.fromRaw r)) P ∧ NoneFailed failed P := by
  have hd' := withoutFailed_distinct (failed := failed) hd
  rw [named_minQuorum (distinct_fromRaw hd'), named_minQuorum (distinct_fromRaw hd)]
  have h1 (P) := (named_quorum_iff hd' P).trans (rawQuorum_withoutFailed (failed := failed) P)
  have h2 (P) := named_quorum_iff hd P
  constructor
  · rintro ⟨h3, h4⟩
    obtain ⟨h5, h6⟩ := (h1 P).1 h3
    refine ⟨⟨(h2 P).2 h5, fun P' hP' hsub => ?_⟩, h6⟩
    exact h4 ((h1 P').2 ⟨(h2 P').1 hP', fun p hp => h6 p (hsub hp)⟩) hsub
  · rintro ⟨⟨h3, h4⟩, h6⟩
    refine ⟨(h1 P).2 ⟨(h2 P).1 h3, h6⟩, fun P' hP' hsub => ?_⟩
    exact h4 ((h2 P').2 ((h1 P').1 hP').1) hsub

/-- Minimal blocking sets after a failure: in the FBAS without the failed nodes, and as sets that are
blocking together with the failed nodes. -/
theorem named_minBlocking_withoutFailed (hd : DistinctKeys r) {nodes : List NodeId}
    (hn : ∀ x, x ∈ nodes ↔ ∃ name ∈ failed, (Fbas.fromRaw r).getNodeId name = some x)
    (P : Finset PublicKey) :
    Named (Fbas.fromRaw r) (Minimal (fun B => Disjoint B nodes.toFinset ∧
        Blocking (Fbas.fromRaw r) (B ∪ nodes.toFinset))) P ↔
      Named (Fbas.fromRaw (withoutFailed r failed))
        (IsMinBlocking (Fbas.fromRaw (withoutFailed r failed))) P := by
  have hd' := withoutFailed_distinct (failed := failed) hd
  have hdf := distinct_fromRaw hd
  have hn' : ∀ x < (Fbas.fromRaw r).nodes.length, (x ∈ nodes ↔ nameOf (Fbas.fromRaw r) x ∈ failed) := by
    intro x hx
    rw [hn]
    constructor
    · rintro ⟨name, h1, h2⟩
      rwa [((getNodeId_iff hd).1 h2).2]
    · exact fun h => ⟨_, h, (getNodeId_iff hd).2 ⟨hx, rfl⟩⟩
  rw [named_minBlocking (distinct_fromRaw hd')]
  simp only [named_minQuorum_withoutFailed hd]
  set f := Fbas.fromRaw r with hf
  unfold Named
  rw [minimal_names hdf (Y := fun P => NoneFailed failed P ∧
    ∀ R, Named f (IsMinQuorum f) R ∧ NoneFailed failed R → ∃ p, p ∈ R ∧ p ∈ P)]
  · -- minimal sets contain no failed nodes
    have key {P : Finset PublicKey} (h : ∀ R, Named f (IsMinQuorum f) R ∧ NoneFailed failed R → ∃ p, p ∈ R ∧ p ∈ P) :
        NoneFailed failed (P.filter (· ∉ failed)) ∧ ∀ R, Named f (IsMinQuorum f) R ∧
          NoneFailed failed R → ∃ p, p ∈ R ∧ p ∈ P.filter (· ∉ failed) := by
      refine ⟨fun p hp => (Finset.mem_filter.1 hp).2, fun R hR => ?_⟩
      obtain ⟨p, h1, h2⟩ := h R hR
      exact ⟨p, h1, Finset.mem_filter.2 ⟨h2, hR.2 p h1⟩⟩
    constructor
    · rintro ⟨h1, h2⟩
      refine ⟨h1.2, fun P' hP' hsub => ?_⟩
      exact h2 ⟨fun p hp => h1.1 p (hsub hp), hP'⟩ hsub
    · rintro ⟨h1, h2⟩
      have h3 : P ⊆ P.filter (· ∉ failed) := h2 (key h1).2 (Finset.filter_subset _ _)
      exact ⟨⟨fun p hp => (Finset.mem_filter.1 (h3 hp)).2, h1⟩, fun P' hP' hsub => h2 hP'.2 hsub⟩
  · intro S hS
    refine and_congr ?_ ?_
    · rw [Finset.disjoint_left]
      constructor
      · intro h p hp
        obtain ⟨x, hx, rfl⟩ := Finset.mem_image.1 hp
        exact fun hf => h hx (List.mem_toFinset.2 ((hn' x (Finset.mem_range.1 (hS hx))).2 hf))
      · intro h x hx hxn
        exact h _ (Finset.mem_image_of_mem _ hx)
          ((hn' x (Finset.mem_range.1 (hS hx))).1 (List.mem_toFinset.1 hxn))
    · rw [blocking_iff_min]
      constructor
      · rintro h _ ⟨⟨Q, hQ, rfl⟩, hno⟩
        obtain ⟨x, h1, h2⟩ := h Q hQ
        refine ⟨_, Finset.mem_image_of_mem _ h1, Finset.mem_image_of_mem _ ?_⟩
        refine (Finset.mem_union.1 h2).resolve_right fun h3 => ?_
        exact hno _ (Finset.mem_image_of_mem _ h1)
          ((hn' x (Finset.mem_range.1 (hQ.prop.subset_all h1))).1 (List.mem_toFinset.1 h3))
      · intro h Q hQ
        by_cases hno : NoneFailed failed (names f Q)
        · obtain ⟨p, h1, h2⟩ := h _ ⟨⟨Q, hQ, rfl⟩, hno⟩
          obtain ⟨x, hx, rfl⟩ := Finset.mem_image.1 h1
          exact ⟨x, hx, Finset.mem_union_left _
            ((mem_names hdf hS (Finset.mem_range.1 (hQ.prop.subset_all hx))).1 h2)⟩
        · unfold NoneFailed at hno
          push Not at hno
          obtain ⟨p, h1, h2⟩ := hno
          obtain ⟨x, hx, rfl⟩ := Finset.mem_image.1 h1
          exact ⟨x, hx, Finset.mem_union_right _ (List.mem_toFinset.2
            ((hn' x (Finset.mem_range.1 (hQ.prop.subset_all hx))).2 h2))⟩
  · rintro S ⟨h1, h2⟩
    refine ⟨h1.mono_left Finset.inter_subset_left, fun Q hQ => ?_⟩
    obtain ⟨x, h3, h4⟩ := h2 Q hQ
    refine ⟨x, h3, ?_⟩
    rcases Finset.mem_union.1 h4 with h | h
    · exact Finset.mem_union_left _ (Finset.mem_inter.2 ⟨h, hQ.subset_all h3⟩)
    · exact Finset.mem_union_right _ h
  · rintro P ⟨h1, h2⟩
    have hsub : names f (f.allNodes.filter (fun x => nameOf f x ∈ P)) ⊆ P := by
      intro p hp
      obtain ⟨x, hx, rfl⟩ := Finset.mem_image.1 hp
      exact (Finset.mem_filter.1 hx).2
    refine ⟨_, Finset.filter_subset _ _, hsub, fun p hp => h1 p (hsub hp), ?_⟩
    rintro _ ⟨⟨Q, hQ, rfl⟩, hno⟩
    obtain ⟨p, h3, h4⟩ := h2 _ ⟨⟨Q, hQ, rfl⟩, hno⟩
    obtain ⟨x, hx, rfl⟩ := Finset.mem_image.1 h3
    exact ⟨_, h3, Finset.mem_image_of_mem _ (Finset.mem_filter.2 ⟨hQ.prop.subset_all hx, h4⟩)⟩

end FA
