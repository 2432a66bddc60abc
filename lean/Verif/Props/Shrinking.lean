import Verif.Lemmas.Shrinking
import Verif.Props.Blocking

/-!
# C25, C26: ID shrinking
-/

namespace FA.Props
open FA Spec

/-! ## C25 -/

/-- C25: the table from shrunken to original IDs lists the members of `K` in increasing order. -/
theorem C25_table (K : NodeSet) :
    (ShrinkManager.new K).unshrinkTable.Pairwise (· < ·) ∧
      (∀ x, x ∈ (ShrinkManager.new K).unshrinkTable ↔ x ∈ K) ∧
      (ShrinkManager.new K).unshrinkTable.length = K.card :=
  ⟨elems_pairwise K, fun _ => mem_elems, length_elems K⟩

/-- C25: the map from original to shrunken IDs is the inverse of the table. -/
theorem C25_inverse (K : NodeSet) (x i : ℕ) :
    (ShrinkManager.new K).shrinkMap.get? x = some i ↔
      (ShrinkManager.new K).unshrinkTable[i]? = some x := by
  rw [shrinkMap_get?]
  constructor
  · rintro ⟨hi, rfl⟩; exact getElem?_elems hi
  · intro h
    have hi : i < K.card := by
      rw [← length_elems]
      exact (List.getElem?_eq_some_iff.1 h).1
    refine ⟨hi, ?_⟩
    have h' : (elems K)[i]? = some x := h
    rw [getElem?_elems hi] at h'
    exact Option.some.inj h'

/-- C25: shrunken IDs are in the order of the original IDs. -/
theorem C25_order (K : NodeSet) (x y i j : ℕ)
    (hx : (ShrinkManager.new K).shrinkMap.get? x = some i)
    (hy : (ShrinkManager.new K).shrinkMap.get? y = some j) : i < j ↔ x < y := by
  obtain ⟨hi, rfl⟩ := (shrinkMap_get? K x i).1 hx
  obtain ⟨hj, rfl⟩ := (shrinkMap_get? K y j).1 hy
  exact (un_lt_iff hi hj).symm

/-- C25: subsets of `K` survive shrinking and unshrinking, and have the same size in between. -/
theorem C25_unshrink_shrink (K S : NodeSet) (h : S ⊆ K) :
    ∃ S', shrinkSet (ShrinkManager.new K).shrinkMap S = .ok S' ∧ S'.card = S.card ∧
      (∀ i ∈ S', i < K.card) ∧ unshrinkSet (ShrinkManager.new K).unshrinkTable S' = .ok S := by
  refine ⟨_, shrinkSet_ok h, ?_, fun i hi => (mem_shrSet.1 hi).1, ?_⟩
  · rw [← card_unSet (shrSet_subset K S), unSet_shrSet_of_subset h]
  · rw [unshrinkSet_ok (shrSet_subset K S), unSet_shrSet_of_subset h]

/-- C25: sets of shrunken IDs survive unshrinking and shrinking. -/
theorem C25_shrink_unshrink (K S' : NodeSet) (h : ∀ i ∈ S', i < K.card) :
    ∃ S, unshrinkSet (ShrinkManager.new K).unshrinkTable S' = .ok S ∧ S ⊆ K ∧
      shrinkSet (ShrinkManager.new K).shrinkMap S = .ok S' := by
  have hS : S' ⊆ Finset.range K.card := fun i hi => Finset.mem_range.2 (h i hi)
  exact ⟨_, unshrinkSet_ok hS, unSet_subset hS, by
    rw [shrinkSet_ok (unSet_subset hS), shrSet_unSet hS]⟩

/-- C25: shrinking panics exactly for sets with a node outside `K`, unshrinking exactly for sets
with an ID that is not a shrunken one. -/
theorem C25_panic (K S : NodeSet) :
    (shrinkSet (ShrinkManager.new K).shrinkMap S = .error .unwrapNone ↔ ∃ x ∈ S, x ∉ K) ∧
      (unshrinkSet (ShrinkManager.new K).unshrinkTable S = .error .outOfBounds ↔
        ∃ x ∈ S, K.card ≤ x) := by
  constructor
  · rw [← Finset.not_subset]
    by_cases h : S ⊆ K
    · rw [shrinkSet_ok h]; simp [h]
    · rw [shrinkSet_error h]; simp [h]
  · have : (∃ x ∈ S, K.card ≤ x) ↔ ¬ S ⊆ Finset.range K.card := by
      rw [Finset.not_subset]; simp
    rw [this]
    by_cases h : S ⊆ Finset.range K.card
    · rw [unshrinkSet_ok h]; simp [h]
    · rw [unshrinkSet_error h]; simp [h]

/-- C25: reshrinking is unshrinking with the old manager followed by shrinking with the new one: it
returns the same sets and panics if one of the two panics. -/
theorem C25_reshrink (K K' : NodeSet) (l r : List NodeSet) :
    (ShrinkManager.new K').reshrinkSets l (ShrinkManager.new K) = .ok r ↔
      ∃ m, unshrinkSets (ShrinkManager.new K).unshrinkTable l = .ok m ∧
        shrinkSets (ShrinkManager.new K').shrinkMap m = .ok r := reshrinkSets_eq_ok

/-- C25: consequently reshrinking does not change the original sets. -/
theorem C25_reshrink_unshrink (K K' : NodeSet) (l r : List NodeSet)
    (h : (ShrinkManager.new K').reshrinkSets l (ShrinkManager.new K) = .ok r) :
    unshrinkSets (ShrinkManager.new K').unshrinkTable r =
      unshrinkSets (ShrinkManager.new K).unshrinkTable l := by
  obtain ⟨m, h1, h2⟩ := reshrinkSets_eq_ok.1 h
  rw [h1]
  unfold unshrinkSets
  rw [mapE_eq_ok]
  unfold shrinkSets at h2
  rw [mapE_eq_ok] at h2
  refine List.Forall₂.imp ?_ h2.flip
  intro R M hMR
  by_cases hM : M ⊆ K'
  · rw [shrinkSet_ok hM] at hMR
    rw [← Except.ok.inj hMR, unshrinkSet_ok (shrSet_subset K' M), unSet_shrSet_of_subset hM]
  · rw [shrinkSet_error hM] at hMR
    cases hMR

/-- Concrete cases. -/
example : (ShrinkManager.new {1, 4, 7}).unshrinkTable = [1, 4, 7] ∧
    (ShrinkManager.new {1, 4, 7}).shrinkMap.get? 4 = some 1 ∧
    (ShrinkManager.new {1, 4, 7}).shrinkMap.get? 5 = none := by decide +kernel
example : shrinkSet (ShrinkManager.new {1, 4, 7}).shrinkMap {4, 7} = .ok {1, 2} :=
  Ref.ok_of (by decide +kernel)
example : shrinkSet (ShrinkManager.new {1, 4, 7}).shrinkMap {4, 5} = .error .unwrapNone :=
  Ref.error_of (by decide +kernel)
example : unshrinkSet (ShrinkManager.new {1, 4, 7}).unshrinkTable {1, 2} = .ok {4, 7} :=
  Ref.ok_of (by decide +kernel)
example : unshrinkSet (ShrinkManager.new {1, 4, 7}).unshrinkTable {1, 3} = .error .outOfBounds :=
  Ref.error_of (by decide +kernel)
example : (ShrinkManager.new {4, 7}).reshrinkSets [{1, 2}, {2}] (ShrinkManager.new {1, 4, 7}) =
    .ok [{0, 1}, {1}] := Ref.ok_of (by decide +kernel)

/-! ## C26 -/

/-- C26: shrinking never panics, the shrunken FBAS has `|K|` nodes whose quorum sets only mention
existing nodes, and its quorums are the quorums of the original FBAS that are subsets of `K`,
renamed. (`K` may even contain IDs without a node.) -/
theorem C26_quorums (f : Fbas) (K : NodeSet) :
    ∃ f' sm, f.shrunken K = .ok (f', sm) ∧ sm = ShrinkManager.new K ∧
      f'.nodes.length = K.card ∧ WF f' ∧
      ∀ S' : NodeSet, (∀ i ∈ S', i < K.card) →
        ∃ S, unshrinkSet sm.unshrinkTable S' = .ok S ∧ (IsQuorum f' S' ↔ IsQuorum f S) := by
  obtain ⟨f', h1, h2⟩ := f.shrunken_ok K
  refine ⟨f', _, h1, rfl, h2.len, h2.wf, fun S' hS' => ?_⟩
  have hS : S' ⊆ Finset.range K.card := fun i hi => Finset.mem_range.2 (hS' i hi)
  exact ⟨_, unshrinkSet_ok hS, h2.isQuorum hS⟩

/-- C26: minimal quorums are preserved for every `K`. -/
theorem C26_min_quorums (f : Fbas) (K : NodeSet) :
    ∃ f' sm, f.shrunken K = .ok (f', sm) ∧
      (∀ S', IsMinQuorum f' S' →
        ∃ S, unshrinkSet sm.unshrinkTable S' = .ok S ∧ IsMinQuorum f S) ∧
      (∀ S, S ⊆ K → IsMinQuorum f S →
        ∃ S', unshrinkSet sm.unshrinkTable S' = .ok S ∧ IsMinQuorum f' S') := by
  obtain ⟨f', h1, h2⟩ := f.shrunken_ok K
  refine ⟨f', _, h1, fun S' hS' => ?_, fun S hSK hS => ?_⟩
  · obtain ⟨hs, hm⟩ := h2.isMinQuorum.1 hS'
    exact ⟨_, unshrinkSet_ok hs, hm⟩
  · refine ⟨shrSet K S, ?_, ?_⟩
    · rw [unshrinkSet_ok (shrSet_subset K S), unSet_shrSet_of_subset hSK]
    · rw [h2.isMinQuorum, unSet_shrSet_of_subset hSK]
      exact ⟨shrSet_subset K S, hS⟩

/-- C26: if `K` contains all minimal quorums, then shrinking to `K` also preserves quorum
intersection and (up to the renaming) minimal blocking and minimal splitting sets. -/
theorem C26_analyses (f : Fbas) (K : NodeSet) (hK : ∀ Q, IsMinQuorum f Q → Q ⊆ K) :
    ∃ f' sm, f.shrunken K = .ok (f', sm) ∧
      (QuorumIntersection f' ↔ QuorumIntersection f) ∧
      (∀ S' : NodeSet, (∀ i ∈ S', i < K.card) →
        ∃ S, unshrinkSet sm.unshrinkTable S' = .ok S ∧
          (IsMinBlocking f' S' ↔ IsMinBlocking f S) ∧
          (IsMinSplitting f' S' ↔ IsMinSplitting f S)) ∧
      ∀ S', IsMinBlocking f' S' ∨ IsMinSplitting f' S' → ∀ i ∈ S', i < K.card := by
  obtain ⟨f', h1, h2⟩ := f.shrunken_ok K
  refine ⟨f', _, h1, h2.quorumIntersection hK, fun S' hS' => ?_, fun S' hS' i hi => ?_⟩
  · have hS : S' ⊆ Finset.range K.card := fun i hi => Finset.mem_range.2 (hS' i hi)
    refine ⟨_, unshrinkSet_ok hS, ?_, ?_⟩
    · rw [h2.isMinBlocking hK]; simp [hS]
    · rw [h2.isMinSplitting hK]; simp [hS]
  · rcases hS' with h | h
    · exact Finset.mem_range.1 (((h2.isMinBlocking hK S').1 h).1 hi)
    · exact Finset.mem_range.1 (((h2.isMinSplitting hK S').1 h).1 hi)

/-- Concrete case: nodes 1, 3, 4 of an FBAS with inner quorum sets. The inner quorum set
`{1 of [2]}` keeps its threshold and loses its validator; the threshold-0 set `{0 of [2]}`
disappears. -/
def fbasShr : Fbas := Ref.mkFbas [
  ⟨1, [0], []⟩,
  ⟨2, [4, 3, 0], [⟨1, [2], []⟩, ⟨0, [2], []⟩]⟩,
  ⟨1, [0], []⟩,
  ⟨2, [1], [⟨1, [4, 2], []⟩]⟩,
  ⟨1, [1], []⟩]

example : (fbasShr.shrunken {1, 3, 4}).map
      (fun r => (r.1.nodes.map Node.quorumSet, r.2.unshrinkTable)) =
    .ok ([⟨2, [1, 2], [⟨1, [], []⟩]⟩, ⟨2, [0], [⟨1, [2], []⟩]⟩, ⟨1, [0], []⟩], [1, 3, 4]) :=
  Ref.ok_of (by decide +kernel)

example : WF fbasShr ∧ ∃ Q, IsQuorum fbasShr Q := ⟨Ref.wf_of (by decide +kernel), by decide +kernel⟩

/-- A set that satisfies the hypothesis of `C26_analyses`: all satisfiable nodes. -/
example : ∀ Q, IsMinQuorum fbasA Q → Q ⊆ fbasA.allNodes := fun _ hQ => hQ.prop.subset_all

#print axioms C25_table
#print axioms C25_inverse
#print axioms C25_order
#print axioms C25_unshrink_shrink
#print axioms C25_shrink_unshrink
#print axioms C25_panic
#print axioms C25_reshrink
#print axioms C25_reshrink_unshrink
#print axioms C26_quorums
#print axioms C26_min_quorums
#print axioms C26_analyses

end FA.Props
