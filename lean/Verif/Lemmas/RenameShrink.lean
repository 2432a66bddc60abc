import Verif.Lemmas.RenameSearch

/-!
# Shrinking an FBAS with renamed nodes
-/

namespace FA
open Spec QuorumSet

theorem shrunken_sorted (m : Map ℕ ℕ) (q : QuorumSet) : SortedQSet (q.shrunken m) := by
  induction q using QuorumSet.induct with
  | h t vs qs ih =>
    refine .intro _ ?_ ?_ ?_
    · rw [QuorumSet.shrunken]; exact sortIds_pairwise _
    · rw [QuorumSet.shrunken]; exact sortQs_pairwise _
    · intro q' hq'
      have := (shrunken_inner_perm m _).mem_iff.1 hq'
      obtain ⟨q, hq, rfl⟩ := List.mem_map.1 (List.mem_filter.1 this).1
      exact ih q hq

theorem card_img {σ : Equiv.Perm ℕ} (K : NodeSet) : (img σ K).card = K.card := Finset.card_map _

/-- The renaming of the shrunken IDs that goes with the renaming `σ` of the original ones. -/
theorem exists_shrunken_perm (σ : Equiv.Perm ℕ) (K : NodeSet) :
    ∃ τ : Equiv.Perm ℕ, (∀ i, τ i < K.card ↔ i < K.card) ∧
      ∀ i < K.card, un (img σ K) (τ i) = σ (un K i) := by
  have hex : ∀ i : {i // i < K.card}, ∃ j : {i // i < K.card}, un (img σ K) j = σ (un K i) := by
    rintro ⟨i, hi⟩
    obtain ⟨j, hj, h⟩ := un_surj (apply_mem_img.2 (un_mem hi) : σ (un K i) ∈ img σ K)
    exact ⟨⟨j, by rwa [card_img] at hj⟩, h⟩
  choose e he using hex
  have hex' : ∀ j : {i // i < K.card}, ∃ i : {i // i < K.card}, σ (un K i) = un (img σ K) j := by
    rintro ⟨j, hj⟩
    obtain ⟨x, hx⟩ := σ.surjective (un (img σ K) j)
    have hm : un (img σ K) j ∈ img σ K := un_mem (by rw [card_img]; exact hj)
    rw [← hx, apply_mem_img] at hm
    obtain ⟨i, hi, rfl⟩ := un_surj hm
    exact ⟨⟨i, hi⟩, hx⟩
  choose e' he' using hex'
  let E : Equiv.Perm {i // i < K.card} :=
    { toFun := e
      invFun := e'
      left_inv := fun i => Subtype.ext (un_inj (e' (e i)).2 i.2
        (σ.injective ((he' (e i)).trans (he i))))
      right_inv := fun j => Subtype.ext (un_inj (K := img σ K) (by rw [card_img]; exact (e (e' j)).2)
        (by rw [card_img]; exact j.2) ((he (e' j)).trans (he' j))) }
  refine ⟨Equiv.Perm.subtypeCongr E (Equiv.refl _), fun i => ?_, fun i hi => ?_⟩
  · by_cases hi : i < K.card
    · rw [Equiv.Perm.subtypeCongr.left_apply E _ hi]
      exact ⟨fun _ => hi, fun _ => (E ⟨i, hi⟩).2⟩
    · rw [Equiv.Perm.subtypeCongr.right_apply E _ hi]
      exact Iff.rfl
  · rw [Equiv.Perm.subtypeCongr.left_apply E _ hi]
    exact he ⟨i, hi⟩

theorem rename_empty {σ : ℕ → ℕ} : rename σ QuorumSet.empty = QuorumSet.empty := by
  simp [QuorumSet.empty, rename_eq, sortIds, QuorumSet.sortQs]

theorem rename_eq_empty {σ : Equiv.Perm ℕ} {q : QuorumSet} :
    rename σ q = QuorumSet.empty ↔ q = QuorumSet.empty := by
  constructor
  · intro h
    obtain ⟨t, vs, qs⟩ := q
    rw [rename_eq] at h
    simp only [QuorumSet.empty, QuorumSet.mk.injEq] at h ⊢
    refine ⟨h.1, ?_, ?_⟩
    · have := (sortIds_perm (vs.map σ)).length_eq
      rw [h.2.1, List.length_map] at this
      exact List.length_eq_zero_iff.1 this.symm
    · have := (sortQs_perm (qs.map (rename σ))).length_eq
      rw [h.2.2, List.length_map] at this
      exact List.length_eq_zero_iff.1 this.symm
  · rintro rfl
    exact rename_empty

theorem shrunken_rename {σ τ : Equiv.Perm ℕ} {K : NodeSet}
    (hτ : ∀ i, τ i < K.card ↔ i < K.card) (hu : ∀ i < K.card, un (img σ K) (τ i) = σ (un K i))
    (q : QuorumSet) :
    (rename σ q).shrunken (ShrinkManager.new (img σ K)).shrinkMap =
      rename τ (q.shrunken (ShrinkManager.new K).shrinkMap) := by
  have hm : ∀ x, (ShrinkManager.new (img σ K)).shrinkMap.get? (σ x) =
      ((ShrinkManager.new K).shrinkMap.get? x).map τ := by
    intro x
    cases h : (ShrinkManager.new K).shrinkMap.get? x with
    | none =>
      rw [shrinkMap_none] at h
      rw [Option.map_none, shrinkMap_none, apply_mem_img]
      exact h
    | some i =>
      obtain ⟨hi, rfl⟩ := (shrinkMap_get? K x i).1 h
      rw [Option.map_some, shrinkMap_get?, card_img]
      exact ⟨(hτ i).2 hi, hu i hi⟩
  induction q using QuorumSet.induct with
  | h t vs qs ih =>
    have h1 : sortIds ((sortIds (vs.map σ)).filterMap
          (ShrinkManager.new (img σ K)).shrinkMap.get?) =
        sortIds ((sortIds (vs.filterMap (ShrinkManager.new K).shrinkMap.get?)).map τ) := by
      rw [sortIds_of_perm ((sortIds_perm (vs.map σ)).filterMap _),
        sortIds_of_perm ((sortIds_perm (vs.filterMap _)).map τ), List.filterMap_map,
        List.map_filterMap]
      congr 1
      exact List.filterMap_congr (fun x _ => hm x)
    have h2 : sortQs (shrunkenList (ShrinkManager.new (img σ K)).shrinkMap
          (sortQs (qs.map (rename σ)))) =
        sortQs ((sortQs (shrunkenList (ShrinkManager.new K).shrinkMap qs)).map (rename τ)) := by
      rw [shrunkenList_eq, shrunkenList_eq,
        sortQs_of_perm (((sortQs_perm (qs.map (rename σ))).map _).filter _),
        sortQs_of_perm ((sortQs_perm _).map (rename τ)), List.map_map]
      congr 1
      rw [List.map_congr_left
          (f := QuorumSet.shrunken (ShrinkManager.new (img σ K)).shrinkMap ∘ rename σ) (g := rename τ ∘ QuorumSet.shrunken (ShrinkManager.new K).shrinkMap)
        (fun q hq => ih q hq), ← List.map_map, List.filter_map]
      congr 1
      refine List.filter_congr (fun q _ => ?_)
      simp only [Function.comp_apply, ne_eq, rename_eq_empty]
    rw [rename_eq, QuorumSet.shrunken, QuorumSet.shrunken, rename_eq]
    dsimp only
    rw [h1, h2]

theorem Renamed.shrunken {σ : Equiv.Perm ℕ} {f g f' g' : Fbas} (h : Renamed σ f g) {K : NodeSet}
    (hf : IsShrunken f K f') (hg : IsShrunken g (img σ K) g') :
    ∃ τ : Equiv.Perm ℕ, Renamed τ f' g' ∧ ∀ i < K.card, un (img σ K) (τ i) = σ (un K i) := by
  obtain ⟨τ, hτ, hu⟩ := exists_shrunken_perm σ K
  have hout : ∀ {e : Fbas} {x : ℕ}, ¬ x < e.nodes.length → e.qset x = QuorumSet.empty := by
    intro e x hx
    rw [Fbas.qset, List.getElem?_eq_none (Nat.le_of_not_lt hx)]
  refine ⟨τ, ⟨fun x => ?_, fun x => ?_, fun x => ?_⟩, hu⟩
  · rw [hf.len, hg.len, card_img, hτ]
  · by_cases hx : x < K.card
    · rw [hf.qset x hx, hg.qset _ (by rw [card_img, hτ]; exact hx), hu x hx, h.qset,
        shrunken_rename hτ hu]
    · rw [hout (e := f') (by rw [hf.len]; exact hx),
        hout (e := g') (by rw [hg.len, card_img, hτ]; exact hx), rename_empty]
  · by_cases hx : x < K.card
    · rw [hf.qset x hx]
      exact shrunken_sorted _ _
    · rw [hout (by rw [hf.len]; exact hx), ← rename_empty (σ := (Equiv.refl ℕ : Equiv.Perm ℕ))]
      exact rename_sorted _

end FA
