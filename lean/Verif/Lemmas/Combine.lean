import Verif.Lemmas.QuorumSet
import Mathlib.Data.Multiset.Bind

/-! Lemmas about `combineGroups`, the combination of alternatives used to expand nested quorum sets. -/

namespace FA
open Spec QuorumSet

theorem mem_combineGroups {k : ℕ} {groups : List (List NodeSet)} {T : NodeSet} :
    T ∈ combineGroups k groups ↔ 1 ≤ k ∧ ∃ gs c, gs.Sublist groups ∧ gs.length = k ∧
      List.Forall₂ (fun s g => s ∈ g) c gs ∧ unionAll c = T := by
  simp only [combineGroups, List.mem_flatten, List.mem_map, mem_combinations]
  constructor
  · rintro ⟨_, ⟨gs, ⟨h1, h2⟩, rfl⟩, hT⟩
    obtain ⟨c, hc, rfl⟩ := List.mem_map.1 hT
    obtain ⟨hne, hc⟩ := mem_multiCartesianProduct.1 hc
    refine ⟨?_, gs, c, h1, h2, hc, rfl⟩
    rw [← h2]; exact List.length_pos_of_ne_nil hne
  · rintro ⟨hk, gs, c, h1, h2, hc, rfl⟩
    refine ⟨_, ⟨gs, ⟨h1, h2⟩, rfl⟩, List.mem_map.2 ⟨c, ?_, rfl⟩⟩
    refine mem_multiCartesianProduct.2 ⟨?_, hc⟩
    rintro rfl; simp at h2; omega

/-- Some combination lies inside `S` iff at least `k ≥ 1` groups have a member inside `S`. -/
theorem exists_combineGroups_subset {k : ℕ} {groups : List (List NodeSet)} {S : NodeSet} :
    (∃ T ∈ combineGroups k groups, T ⊆ S) ↔ 1 ≤ k ∧
      k ≤ (groups.filter (fun g => g.any (fun s => decide (s ⊆ S)))).length := by
  constructor
  · rintro ⟨T, hT, hTS⟩
    obtain ⟨hk, gs, c, h1, h2, hc, rfl⟩ := mem_combineGroups.1 hT
    refine ⟨hk, ?_⟩
    have : gs.Sublist (groups.filter (fun g => g.any (fun s => decide (s ⊆ S)))) := by
      have h3 := h1.filter (fun g => g.any (fun s => decide (s ⊆ S)))
      rw [List.filter_eq_self.2] at h3
      · exact h3
      · intro g hg
        obtain ⟨i, hi, rfl⟩ := List.getElem_of_mem hg
        have hi' : i < c.length := by rw [hc.length_eq]; exact hi
        have := List.Forall₂.get hc hi' hi
        simp only [List.any_eq_true, decide_eq_true_eq]
        exact ⟨c[i], by simpa using this, unionAll_subset.1 hTS _ (List.getElem_mem hi')⟩
    rw [← h2]; exact this.length_le
  · rintro ⟨hk, hle⟩
    let gs := (groups.filter (fun g => g.any (fun s => decide (s ⊆ S)))).take k
    have hgs : ∀ g ∈ gs, ∃ s ∈ g, s ⊆ S := by
      intro g hg
      have := (List.mem_filter.1 (List.mem_of_mem_take hg)).2
      simpa using this
    have : ∃ c, List.Forall₂ (fun s g => s ∈ g) c gs ∧ unionAll c ⊆ S := by
      clear_value gs
      induction gs with
      | nil => exact ⟨[], .nil, by simp⟩
      | cons g gs ih =>
        obtain ⟨c, hc, hcS⟩ := ih (fun g hg => hgs g (List.mem_cons_of_mem _ hg))
        obtain ⟨s, hs, hsS⟩ := hgs g (by simp)
        exact ⟨s :: c, .cons hs hc, by rw [unionAll_cons]; exact Finset.union_subset hsS hcS⟩
    obtain ⟨c, hc, hcS⟩ := this
    refine ⟨unionAll c, mem_combineGroups.2 ⟨hk, gs, c, ?_, ?_, hc, rfl⟩, hcS⟩
    · exact (List.take_sublist _ _).trans List.filter_sublist
    · simp only [gs, List.length_take]; omega

/-! ### Recursive description -/

/-- Recursive variant of `combineGroups` (up to order). -/
def comb' : ℕ → List (List NodeSet) → List NodeSet
  | 0, _ => [∅]
  | _ + 1, [] => []
  | k + 1, g :: gs => g.flatMap (fun s => (comb' k gs).map (s ∪ ·)) ++ comb' (k + 1) gs

theorem combProduct_perm (k : ℕ) (gs : List (List NodeSet)) :
    ((combinations k gs).flatMap (fun gc => (product gc).map unionAll)).Perm (comb' k gs) := by
  induction gs generalizing k with
  | nil => cases k <;> simp [combinations, comb', product]
  | cons g gs ih =>
    cases k with
    | zero => simp [combinations, comb', product]
    | succ k =>
      simp only [combinations, comb', List.flatMap_append, List.flatMap_map]
      refine List.Perm.append ?_ (ih (k + 1))
      simp only [product, List.map_flatMap, List.map_map, Function.comp_def, unionAll_cons]
      refine List.Perm.trans (l₂ := g.flatMap (fun s => (combinations k gs).flatMap
        (fun gc => (product gc).map (fun c => s ∪ unionAll c)))) ?_ ?_
      · rw [← Multiset.coe_eq_coe]
        simp only [← Multiset.coe_bind]
        exact Multiset.bind_bind _ _
      · refine List.Perm.flatMap_left _ (fun s _ => ?_)
        have := (ih k).map (s ∪ ·)
        simpa [List.map_flatMap, Function.comp_def] using this

theorem combineGroups_perm (k : ℕ) (gs : List (List NodeSet)) :
    (combineGroups (k + 1) gs).Perm (comb' (k + 1) gs) := by
  refine List.Perm.trans (List.Perm.of_eq ?_) (combProduct_perm (k + 1) gs)
  rw [combineGroups, List.flatMap_def]
  congr 1
  apply List.map_congr_left
  intro gc hgc
  rw [multiCartesianProduct_eq_product]
  rintro rfl
  have := (mem_combinations.1 hgc).2
  simp at this

theorem combineGroups_zero (gs : List (List NodeSet)) : combineGroups 0 gs = [] := by
  simp [combineGroups, combinations, multiCartesianProduct]

/-- Groups with pairwise disjoint supports `Us`, each an antichain of non-empty sets. -/
structure GoodGroup (g : List NodeSet) (U : NodeSet) : Prop where
  sub : ∀ s ∈ g, s ⊆ U
  nonempty : ∀ s ∈ g, s.Nonempty
  nodup : g.Nodup
  antichain : ∀ s ∈ g, ∀ s' ∈ g, s ⊆ s' → s = s'

theorem comb'_subset {gs : List (List NodeSet)} {Us : List NodeSet}
    (h : List.Forall₂ GoodGroup gs Us) {k : ℕ} {T : NodeSet} (hT : T ∈ comb' k gs) :
    T ⊆ unionAll Us := by
  induction h generalizing k T with
  | nil => cases k <;> simp [comb'] at hT; simp [hT]
  | @cons g U gs Us hg hgs ih =>
    cases k with
    | zero => simp [comb'] at hT; simp [hT]
    | succ k =>
      simp only [comb', List.mem_append, List.mem_flatMap, List.mem_map] at hT
      rw [unionAll_cons]
      rcases hT with ⟨s, hs, T', hT', rfl⟩ | hT
      · exact Finset.union_subset_union (hg.sub s hs) (ih hT')
      · exact (ih hT).trans Finset.subset_union_right

theorem comb'_antichain {gs : List (List NodeSet)} {Us : List NodeSet}
    (h : List.Forall₂ GoodGroup gs Us) (hd : Us.Pairwise Disjoint) {k k' : ℕ} {T T' : NodeSet}
    (hT : T ∈ comb' k gs) (hT' : T' ∈ comb' k' gs) (hsub : T ⊆ T') :
    k ≤ k' ∧ (k = k' → T = T') := by
  induction h generalizing k k' T T' with
  | nil => cases k <;> cases k' <;> simp [comb'] at hT hT' ⊢ ; simp [hT, hT']
  | @cons g U gs Us hg hgs ih =>
    rw [List.pairwise_cons] at hd
    have hdU : ∀ {k : ℕ} {T : NodeSet}, T ∈ comb' k gs → Disjoint U T := by
      intro k T hT
      refine Finset.disjoint_of_subset_right (comb'_subset hgs hT) ?_
      rw [Finset.disjoint_left]
      intro x hx hx'
      obtain ⟨V, hV, hxV⟩ := mem_unionAll.1 hx'
      exact Finset.disjoint_left.1 (hd.1 V hV) hx hxV
    cases k with
    | zero =>
      simp only [comb', List.mem_singleton] at hT
      refine ⟨Nat.zero_le _, ?_⟩
      rintro rfl
      simp only [comb', List.mem_singleton] at hT'
      rw [hT, hT']
    | succ k =>
      simp only [comb', List.mem_append, List.mem_flatMap, List.mem_map] at hT
      cases k' with
      | zero =>
        simp only [comb', List.mem_singleton] at hT'
        subst hT'
        rcases hT with ⟨s, hs, T₁, hT₁, rfl⟩ | hT
        · obtain ⟨x, hx⟩ := hg.nonempty s hs
          exact absurd (hsub (Finset.mem_union_left _ hx)) (by simp)
        · exact (ih hd.2 hT (k' := 0) (T' := ∅) (by cases gs <;> simp [comb']) hsub)
      | succ k' =>
        simp only [comb', List.mem_append, List.mem_flatMap, List.mem_map] at hT'
        rcases hT with ⟨s, hs, T₁, hT₁, rfl⟩ | hT <;>
          rcases hT' with ⟨s', hs', T₁', hT₁', rfl⟩ | hT'
        · have h1 : s ⊆ s' := by
            intro x hx
            rcases Finset.mem_union.1 (hsub (Finset.mem_union_left _ hx)) with h | h
            · exact h
            · exact absurd h (Finset.disjoint_left.1 (hdU hT₁') (hg.sub s hs hx))
          have h2 : T₁ ⊆ T₁' := by
            intro x hx
            rcases Finset.mem_union.1 (hsub (Finset.mem_union_right _ hx)) with h | h
            · exact absurd hx (Finset.disjoint_left.1 (hdU hT₁) (hg.sub s' hs' h))
            · exact h
          obtain ⟨h3, h4⟩ := ih hd.2 hT₁ hT₁' h2
          refine ⟨by omega, fun h => ?_⟩
          rw [hg.antichain s hs s' hs' h1, h4 (by omega)]
        · obtain ⟨x, hx⟩ := hg.nonempty s hs
          exact absurd (hsub (Finset.mem_union_left _ hx))
            (Finset.disjoint_left.1 (hdU hT') (hg.sub s hs hx))
        · have h2 : T ⊆ T₁' := by
            intro x hx
            rcases Finset.mem_union.1 (hsub hx) with h | h
            · exact absurd hx (Finset.disjoint_left.1 (hdU hT) (hg.sub s' hs' h))
            · exact h
          obtain ⟨h3, h4⟩ := ih hd.2 hT hT₁' h2
          exact ⟨by omega, fun h => by omega⟩
        · exact ih hd.2 hT hT' hsub

theorem comb'_nodup {gs : List (List NodeSet)} {Us : List NodeSet}
    (h : List.Forall₂ GoodGroup gs Us) (hd : Us.Pairwise Disjoint) (k : ℕ) :
    (comb' k gs).Nodup := by
  induction h generalizing k with
  | nil => cases k <;> simp [comb']
  | @cons g U gs Us hg hgs ih =>
    rw [List.pairwise_cons] at hd
    have hdU : ∀ {k : ℕ} {T : NodeSet}, T ∈ comb' k gs → Disjoint U T := by
      intro k T hT
      refine Finset.disjoint_of_subset_right (comb'_subset hgs hT) ?_
      rw [Finset.disjoint_left]
      intro x hx hx'
      obtain ⟨V, hV, hxV⟩ := mem_unionAll.1 hx'
      exact Finset.disjoint_left.1 (hd.1 V hV) hx hxV
    have key : ∀ {k k' : ℕ} {s s' T T' : NodeSet}, s ⊆ U → s' ⊆ U → T ∈ comb' k gs →
        T' ∈ comb' k' gs → s ∪ T = s' ∪ T' → s = s' ∧ T = T' := by
      intro k k' s s' T T' hs hs' hT hT' heq
      constructor
      · ext x
        constructor
        · intro hx
          rcases Finset.mem_union.1 (heq ▸ Finset.mem_union_left _ hx) with h | h
          · exact h
          · exact absurd h (Finset.disjoint_left.1 (hdU hT') (hs hx))
        · intro hx
          rcases Finset.mem_union.1 (heq.symm ▸ Finset.mem_union_left _ hx) with h | h
          · exact h
          · exact absurd h (Finset.disjoint_left.1 (hdU hT) (hs' hx))
      · ext x
        constructor
        · intro hx
          rcases Finset.mem_union.1 (heq ▸ Finset.mem_union_right _ hx) with h | h
          · exact absurd hx (Finset.disjoint_left.1 (hdU hT) (hs' h))
          · exact h
        · intro hx
          rcases Finset.mem_union.1 (heq.symm ▸ Finset.mem_union_right _ hx) with h | h
          · exact absurd hx (Finset.disjoint_left.1 (hdU hT') (hs h))
          · exact h
    cases k with
    | zero => simp [comb']
    | succ k =>
      rw [comb', List.nodup_append]
      refine ⟨?_, ih hd.2 (k + 1), ?_⟩
      · rw [List.nodup_flatMap]
        refine ⟨?_, ?_⟩
        · intro s hs
          refine List.Nodup.map_on ?_ (ih hd.2 k)
          intro T hT T' hT' heq
          exact (key (hg.sub s hs) (hg.sub s hs) hT hT' heq).2
        · refine List.Pairwise.imp_of_mem ?_ hg.nodup
          intro s s' hs hs' hne T hT hT'
          obtain ⟨T₁, hT₁, rfl⟩ := List.mem_map.1 hT
          obtain ⟨T₂, hT₂, heq⟩ := List.mem_map.1 hT'
          exact hne (key (hg.sub s' hs') (hg.sub s hs) hT₂ hT₁ heq).1.symm
      · intro T hT T' hT' heq
        subst heq
        simp only [List.mem_flatMap, List.mem_map] at hT
        obtain ⟨s, hs, T₁, hT₁, rfl⟩ := hT
        obtain ⟨x, hx⟩ := hg.nonempty s hs
        exact Finset.disjoint_left.1 (hdU hT') (hg.sub s hs hx) (Finset.mem_union_left _ hx)

/-- Combining good groups gives an antichain of non-empty sets again. -/
theorem combineGroups_good {gs : List (List NodeSet)} {Us : List NodeSet}
    (h : List.Forall₂ GoodGroup gs Us) (hd : Us.Pairwise Disjoint) (k : ℕ) :
    GoodGroup (combineGroups k gs) (unionAll Us) := by
  cases k with
  | zero => rw [combineGroups_zero]; constructor <;> simp
  | succ k =>
    have hp := combineGroups_perm k gs
    refine ⟨fun s hs => comb'_subset h (hp.mem_iff.1 hs), ?_,
      hp.nodup_iff.2 (comb'_nodup h hd _), ?_⟩
    · intro s hs
      rw [Finset.nonempty_iff_ne_empty]
      rintro rfl
      have h0 : (∅ : NodeSet) ∈ comb' 0 gs := by cases gs <;> simp [comb']
      have := (comb'_antichain h hd (hp.mem_iff.1 hs) h0 (Finset.Subset.refl _)).1
      omega
    · intro s hs s' hs' hsub
      exact (comb'_antichain h hd (hp.mem_iff.1 hs) (hp.mem_iff.1 hs') hsub).2 rfl

/-! ### Supports of the entries of a quorum set -/

/-- The node sets mentioned by the entries of a quorum set. -/
def supports (vs : List ℕ) (qs : List QuorumSet) : List NodeSet :=
  vs.map (fun v => {v}) ++ qs.map containedNodes

theorem supports_disjoint {q : QuorumSet} (h : DupFree q) :
    (supports q.validators q.inner).Pairwise Disjoint := by
  obtain ⟨_, hv, hvi, hii, hi⟩ := h
  rw [supports, List.pairwise_append]
  refine ⟨?_, ?_, ?_⟩
  · rw [List.pairwise_map]
    exact hv.imp (fun h => by simpa using h)
  · rw [List.pairwise_map]
    refine hii.imp ?_
    intro a b hab
    rw [Finset.disjoint_left]
    intro x hxa hxb
    exact hab x (mem_containedNodes.1 hxa) (mem_containedNodes.1 hxb)
  · intro a ha b hb
    obtain ⟨v, hv, rfl⟩ := List.mem_map.1 ha
    obtain ⟨q', hq', rfl⟩ := List.mem_map.1 hb
    rw [Finset.disjoint_singleton_left, mem_containedNodes]
    exact fun hm => hvi q' hq' v hm hv

theorem unionAll_supports (q : QuorumSet) :
    unionAll (supports q.validators q.inner) = q.containedNodes := by
  ext x
  simp only [mem_unionAll, supports, List.mem_append, List.mem_map, mem_containedNodes]
  constructor
  · rintro ⟨s, ⟨v, hv, rfl⟩ | ⟨q', hq', rfl⟩, hx⟩
    · rw [Finset.mem_singleton] at hx; subst hx; exact .validator hv
    · exact .inner hq' (mem_containedNodes.1 hx)
  · intro h
    cases h with
    | validator h => exact ⟨_, .inl ⟨x, h, rfl⟩, by simp⟩
    | inner hq h => exact ⟨_, .inr ⟨_, hq, rfl⟩, mem_containedNodes.2 h⟩

/-! ### `to_quorum_slices` -/

theorem toQuorumSlices_eq (q : QuorumSet) : q.toQuorumSlices =
    combineGroups q.threshold
      (q.validators.map (fun v => [({v} : NodeSet)]) ++ q.inner.map toQuorumSlices) := by
  obtain ⟨t, vs, qs⟩ := q
  rw [toQuorumSlices, toQuorumSlicesList_eq]

theorem toQuorumSlices_generates (q : QuorumSet) (S : NodeSet) :
    (∃ T ∈ q.toQuorumSlices, T ⊆ S) ↔ Slice S q := by
  induction q using QuorumSet.induct with
  | h t vs qs ih =>
    rw [toQuorumSlices_eq, exists_combineGroups_subset, slice_iff_count, List.filter_append,
      List.length_append, List.filter_map, List.filter_map, List.length_map, List.length_map]
    have h1 : (fun g : List NodeSet => g.any (fun s => decide (s ⊆ S))) ∘
        (fun v : ℕ => [({v} : NodeSet)]) = fun v => decide (v ∈ S) := by
      funext v; simp
    have h2 : qs.filter ((fun g : List NodeSet => g.any (fun s => decide (s ⊆ S))) ∘
        toQuorumSlices) = qs.filter (fun q' => decide (Slice S q')) := by
      apply List.filter_congr
      intro q hq
      have := ih q hq
      simp only [Function.comp_apply]
      rw [Bool.eq_iff_iff, decide_eq_true_iff, ← this]
      simp
    rw [h1, h2]

theorem toQuorumSlices_good {q : QuorumSet} (h : DupFree q) :
    GoodGroup q.toQuorumSlices q.containedNodes := by
  induction q using QuorumSet.induct with
  | h t vs qs ih =>
    rw [toQuorumSlices_eq, ← unionAll_supports]
    refine combineGroups_good ?_ (supports_disjoint h) t
    refine List.rel_append ?_ ?_
    · rw [List.forall₂_map_left_iff, List.forall₂_map_right_iff, List.forall₂_same]
      intro v _
      constructor <;> simp
    · rw [List.forall₂_map_left_iff, List.forall₂_map_right_iff, List.forall₂_same]
      intro q' hq'
      obtain ⟨_, _, _, _, hi⟩ := h
      exact ih q' hq' (hi q' hq')

end FA
