import Verif.Lemmas.Canonical
import Verif.Model.Blocking

/-! Lemmas about the search for minimal blocking sets. -/

namespace FA
open Spec QuorumSet

/-- `B` blocks all quorums inside `K`. -/
def Hits (f : Fbas) (K B : NodeSet) : Prop := ∀ Q, IsQuorum f Q → ¬ Q ⊆ K \ B

theorem Hits.mono {f : Fbas} {K B C : NodeSet} (h : Hits f K B) (hBC : B ⊆ C) : Hits f K C :=
  fun Q hQ hsub => h Q hQ (hsub.trans (Finset.sdiff_subset_sdiff (Finset.Subset.refl _) hBC))

theorem isBlockedSet_iff {f : Fbas} {S : NodeSet} :
    isBlockedSet f S = true ↔ ∀ Q, IsQuorum f Q → ¬ Q ⊆ S := by
  rw [isBlockedSet, Bool.not_eq_true', Fbas.containsQuorum_false]

theorem isBlockedSet_sdiff {f : Fbas} {K B : NodeSet} :
    isBlockedSet f (K \ B) = true ↔ Hits f K B := isBlockedSet_iff

theorem minimalForBlockingSetLoop_iff (f : Fbas) (l : List ℕ) (T : NodeSet)
    (hl : ∀ x ∈ l, x ∉ T) :
    minimalForBlockingSetLoop f l T = true ↔ ∀ x ∈ l, isBlockedSet f (insert x T) = false := by
  induction l with
  | nil => simp [minimalForBlockingSetLoop]
  | cons x l ih =>
    simp only [minimalForBlockingSetLoop]
    rw [Finset.erase_insert (hl x (by simp)), List.forall_mem_cons]
    split
    next h => simp [h]
    next h =>
      rw [ih (fun y hy => hl y (by simp [hy]))]
      simp [h]

theorem minimal_hits_iff {f : Fbas} {K B : NodeSet} :
    Minimal (Hits f K) B ↔ Hits f K B ∧ ∀ x ∈ B, ¬ Hits f K (B.erase x) := by
  rw [minimal_iff]
  refine and_congr_right (fun _ => ⟨fun h x hx hb => ?_, fun h C hC hCB => ?_⟩)
  · have := h hb (Finset.erase_subset _ _)
    rw [this] at hx; simp at hx
  · by_contra hne
    obtain ⟨x, hxB, hxC⟩ := Finset.exists_of_ssubset (hCB.ssubset_of_ne (Ne.symm hne))
    refine h x hxB (hC.mono (fun y hy => Finset.mem_erase.2 ⟨fun h => hxC (h ▸ hy), hCB hy⟩))

theorem isMinimalForBlockingSetPre_iff {f : Fbas} {K B : NodeSet} (hB : B ⊆ K)
    (hh : Hits f K B) :
    isMinimalForBlockingSetPre f B (K \ B) = true ↔ Minimal (Hits f K) B := by
  rw [isMinimalForBlockingSetPre, minimalForBlockingSetLoop_iff _ _ _
    (fun x hx h => (Finset.mem_sdiff.1 h).2 (mem_elems.1 hx)), minimal_hits_iff]
  simp only [hh, true_and, mem_elems]
  refine forall₂_congr (fun x hx => ?_)
  have : insert x (K \ B) = K \ B.erase x := by
    ext y
    simp only [Finset.mem_insert, Finset.mem_sdiff, Finset.mem_erase]
    constructor
    · rintro (rfl | h)
      · exact ⟨hB hx, by simp⟩
      · exact ⟨h.1, fun h' => h.2 h'.2⟩
    · rintro ⟨h1, h2⟩
      by_cases e : y = x
      · exact .inl e
      · exact .inr ⟨h1, fun h' => h2 ⟨e, h'⟩⟩
  rw [this, Bool.eq_false_iff, ne_eq, isBlockedSet_sdiff]

theorem Minimal.hits_eq {f : Fbas} {K B C : NodeSet} (hB : Minimal (Hits f K) B)
    (hC : Hits f K C) (h : C ⊆ B) : C = B := ((minimal_iff.1 hB).2 hC h).symm

/-- Invariant of the search: the call restores its state and appends exactly the minimal sets
between `selection` and `selection ∪ unprocessed` that block all quorums inside `K`. -/
theorem mbStep_spec (f : Fbas) (K : NodeSet) (fuel : ℕ) (changed : Bool) (st : MbState)
    (hfuel : st.unprocessed.length < fuel) (hnd : st.unprocessed.Nodup)
    (hdis : ∀ x ∈ st.unprocessed, x ∉ st.selection)
    (hselK : st.selection ⊆ K) (hunK : ∀ x ∈ st.unprocessed, x ∈ K)
    (hrem : st.remaining = K \ st.selection)
    (hmax : st.maxRemaining = K \ (st.selection ∪ st.unprocessed.toFinset))
    (hch : changed = false → ¬ Hits f K st.selection) :
    ∃ L : List NodeSet, mbStep f fuel changed st = { st with found := st.found ++ L } ∧ L.Nodup ∧
      ∀ S, S ∈ L ↔ Minimal (Hits f K) S ∧ st.selection ⊆ S ∧
        S ⊆ st.selection ∪ st.unprocessed.toFinset := by
  induction fuel generalizing changed st with
  | zero => omega
  | succ fuel ih =>
    obtain ⟨un, sel, rem, mr, found⟩ := st
    simp only at hfuel hnd hdis hselK hunK hrem hmax hch ⊢
    subst hrem hmax
    rw [mbStep]
    split
    next h =>
      simp only [Bool.and_eq_true, isBlockedSet_sdiff] at h
      split
      next hm =>
        rw [isMinimalForBlockingSetPre_iff hselK h.2] at hm
        refine ⟨[sel], rfl, by simp, fun S => ?_⟩
        rw [List.mem_singleton]
        constructor
        · rintro rfl; exact ⟨hm, Finset.Subset.refl _, Finset.subset_union_left⟩
        · rintro ⟨hS, hsub, _⟩
          exact (Minimal.hits_eq hS h.2 hsub).symm
      next hm =>
        rw [isMinimalForBlockingSetPre_iff hselK h.2] at hm
        refine ⟨[], by simp, by simp, fun S => ?_⟩
        simp only [List.not_mem_nil, false_iff, not_and]
        intro hS hsub
        exact absurd (Minimal.hits_eq hS h.2 hsub ▸ hS) hm
    next h =>
      have hnq : ¬ Hits f K sel := by
        cases changed with
        | false => exact hch rfl
        | true => simpa [isBlockedSet_sdiff] using h
      cases un with
      | nil =>
        refine ⟨[], by simp, by simp, fun S => ?_⟩
        simp only [List.not_mem_nil, false_iff, not_and, List.toFinset_nil, Finset.union_empty]
        intro hS h1 h2
        exact hnq (Finset.Subset.antisymm h1 h2 ▸ hS.prop)
      | cons x rest =>
        rw [List.nodup_cons] at hnd
        have hxsel : x ∉ sel := hdis x (by simp)
        have hxK : x ∈ K := hunK x (by simp)
        have hun : insert x sel ∪ rest.toFinset = sel ∪ (x :: rest).toFinset := by
          simp [Finset.insert_union]
        have hrem1 : (K \ sel).erase x = K \ insert x sel := by
          ext y; simp only [Finset.mem_erase, Finset.mem_sdiff, Finset.mem_insert]; tauto
        obtain ⟨L₁, h1, hL₁, hm₁⟩ := ih true
          ⟨rest, insert x sel, (K \ sel).erase x, K \ (sel ∪ (x :: rest).toFinset), found⟩
          (by simpa using hfuel) hnd.2
          (by
            intro y hy
            simp only [Finset.mem_insert, not_or]
            exact ⟨fun h => hnd.1 (h ▸ hy), hdis y (by simp [hy])⟩)
          (Finset.insert_subset hxK hselK) (fun y hy => hunK y (by simp [hy])) hrem1
          (by rw [← hun]) (by simp)
        simp only [h1]
        simp only at hm₁
        rw [hun] at hm₁
        have hsel : (insert x sel).erase x = sel := Finset.erase_insert hxsel
        have hrem2 : insert x ((K \ sel).erase x) = K \ sel :=
          Finset.insert_erase (Finset.mem_sdiff.2 ⟨hxK, hxsel⟩)
        have hxr : x ∉ sel ∪ rest.toFinset := by
          simp only [Finset.mem_union, List.mem_toFinset, not_or]; exact ⟨hxsel, hnd.1⟩
        have hU : sel ∪ (x :: rest).toFinset = insert x (sel ∪ rest.toFinset) := by simp
        rw [hU]
        rw [hU] at hm₁
        clear hU hun
        generalize hA : sel ∪ rest.toFinset = A at *
        have hmr : insert x (K \ insert x A) = K \ A := by
          ext y
          simp only [Finset.mem_insert, Finset.mem_sdiff]
          constructor
          · rintro (rfl | ⟨h1, h2⟩)
            · exact ⟨hxK, hxr⟩
            · exact ⟨h1, fun h => h2 (.inr h)⟩
          · rintro ⟨h1, h2⟩
            by_cases e : y = x
            · exact .inl e
            · exact .inr ⟨h1, by rintro (h | h) <;> contradiction⟩
        have hmr' : (K \ A).erase x = K \ insert x A := by
          ext y; simp only [Finset.mem_erase, Finset.mem_sdiff, Finset.mem_insert]; tauto
        rw [hsel, hrem2, hmr]
        have hsplit : ∀ S, (Minimal (Hits f K) S ∧ sel ⊆ S ∧ S ⊆ insert x A) ↔
            S ∈ L₁ ∨ (Minimal (Hits f K) S ∧ sel ⊆ S ∧ S ⊆ A) := by
          intro S
          rw [hm₁]
          by_cases hxS : x ∈ S
          · have : ¬ S ⊆ A := fun h => hxr (h hxS)
            simp [this, Finset.insert_subset_iff, hxS]
          · have h2 : ¬ insert x sel ⊆ S := fun h => hxS (h (by simp))
            rw [Finset.subset_insert_iff_of_notMem hxS]
            simp [h2]
        have hdisj : ∀ S ∈ L₁, ¬ (S ⊆ A) := by
          intro S hS hsub
          exact hxr (hsub (((hm₁ S).1 hS).2.1 (Finset.mem_insert_self x sel)))
        split
        next hsat =>
          obtain ⟨L₂, h2, hL₂, hm₂⟩ := ih false
            ⟨rest, sel, K \ sel, K \ A, found ++ L₁⟩ (by simpa using hfuel) hnd.2
            (fun y hy => hdis y (by simp [hy])) hselK (fun y hy => hunK y (by simp [hy])) rfl
            (by rw [hA]) (fun _ => hnq)
          refine ⟨L₁ ++ L₂, ?_, ?_, ?_⟩
          · rw [h2]; simp only [hmr', List.append_assoc]
          · rw [List.nodup_append]
            refine ⟨hL₁, hL₂, ?_⟩
            rintro S hS _ hS' rfl
            simp only at hm₂
            rw [hA] at hm₂
            exact hdisj S hS ((hm₂ S).1 hS').2.2
          · intro S
            simp only at hm₂
            rw [hA] at hm₂
            rw [hsplit, List.mem_append, hm₂]
        next hsat =>
          rw [isBlockedSet_sdiff] at hsat
          refine ⟨L₁, ?_, hL₁, ?_⟩
          · simp only [hmr']
          · intro S
            rw [hsplit]
            refine (or_iff_left ?_).symm
            rintro ⟨hS, h1, h2⟩
            exact hsat (hS.prop.mono h2)

/-- Starting the search on all nodes of a list. -/
theorem mbStep_start (f : Fbas) (l : List ℕ) (hl : l.Nodup) (found : List NodeSet) :
    ∃ L : List NodeSet,
      (mbStep f (l.length + 1) true ⟨l, ∅, ofList l, ∅, found⟩).found = found ++ L ∧
      L.Nodup ∧ ∀ S, S ∈ L ↔ Minimal (Hits f l.toFinset) S ∧ S ⊆ l.toFinset := by
  obtain ⟨L, h1, h2, h3⟩ := mbStep_spec f l.toFinset (l.length + 1) true
    ⟨l, ∅, ofList l, ∅, found⟩ (by simp) hl (by simp) (by simp) (by simp) (by simp) (by simp)
    (by simp)
  exact ⟨L, by rw [h1], h2, fun S => by simpa using h3 S⟩

/-- Minimal sets only contain nodes of `K`. -/
theorem minimal_hits_subset {f : Fbas} {K B : NodeSet} (h : Minimal (Hits f K) B) : B ⊆ K := by
  have : Hits f K (B ∩ K) := by
    intro Q hQ hsub
    refine h.prop Q hQ (fun x hx => ?_)
    have := hsub hx
    simp only [Finset.mem_sdiff, Finset.mem_inter] at this ⊢
    tauto
  rw [← Minimal.hits_eq h this Finset.inter_subset_left]
  exact Finset.inter_subset_right

end FA

namespace FA
open Spec QuorumSet

/-! ### `to_blocking_sets` -/

theorem toBlockingSetsList_eq (qs : List QuorumSet) :
    toBlockingSetsList qs = qs.map toBlockingSets := by
  induction qs with
  | nil => simp [toBlockingSetsList]
  | cons q qs ih => rw [toBlockingSetsList, ih, List.map_cons]

theorem toBlockingSets_eq (q : QuorumSet) : q.toBlockingSets =
    combineGroups q.blockingThreshold
      (q.validators.map (fun v => [({v} : NodeSet)]) ++ q.inner.map toBlockingSets) := by
  obtain ⟨t, vs, qs⟩ := q
  rw [toBlockingSets, toBlockingSetsList_eq]

theorem toBlockingSets_generates {q : QuorumSet} (hq : Sane q) (B U : NodeSet)
    (hU : ∀ x, Mentions q x → x ∈ U) :
    (∃ T ∈ q.toBlockingSets, T ⊆ B) ↔ ¬ Slice (U \ B) q := by
  induction q using QuorumSet.induct with
  | h t vs qs ih =>
    obtain ⟨_, hpos, hle, hi⟩ := hq
    simp only at hpos hle hi
    rw [toBlockingSets_eq, exists_combineGroups_subset, slice_iff_count, List.filter_append,
      List.length_append, List.filter_map, List.filter_map, List.length_map, List.length_map]
    simp only
    have h1 : (vs.filter ((fun g : List NodeSet => g.any (fun s => decide (s ⊆ B))) ∘
        fun v => [({v} : NodeSet)])).length +
        (vs.filter (fun x => decide (x ∈ U \ B))).length = vs.length := by
      have hcong : vs.filter (fun x => decide (x ∈ U \ B)) =
          vs.filter (fun v => !((fun g : List NodeSet => g.any (fun s => decide (s ⊆ B))) ∘
            fun v => [({v} : NodeSet)]) v) := by
        refine List.filter_congr (fun v hv => ?_)
        have := hU v (.validator hv)
        simp [this]
      rw [hcong, ← List.length_eq_length_filter_add]
    have h2 : (qs.filter ((fun g : List NodeSet => g.any (fun s => decide (s ⊆ B))) ∘
        toBlockingSets)).length +
        (qs.filter (fun q' => decide (Slice (U \ B) q'))).length = qs.length := by
      have hcong : qs.filter (fun q' => decide (Slice (U \ B) q')) =
          qs.filter (fun q' => !((fun g : List NodeSet => g.any (fun s => decide (s ⊆ B))) ∘
            toBlockingSets) q') := by
        refine List.filter_congr (fun q' hq' => ?_)
        have h3 := ih q' hq' (hi q' hq') (fun x hx => hU x (.inner hq' hx))
        by_cases h : Slice (U \ B) q'
        · have h4 : ¬ ∃ T ∈ q'.toBlockingSets, T ⊆ B := fun h5 => h3.1 h5 h
          simp only [h, decide_true, Function.comp_apply]
          symm
          rw [Bool.not_eq_true', List.any_eq_false]
          intro T hT
          simp only [decide_eq_true_eq]
          exact fun h5 => h4 ⟨T, hT, h5⟩
        · obtain ⟨T, hT, hTB⟩ := h3.2 h
          simp only [h, decide_false, Function.comp_apply]
          symm
          rw [Bool.not_eq_false', List.any_eq_true]
          exact ⟨T, hT, by simpa using hTB⟩
      rw [hcong, ← List.length_eq_length_filter_add]
    have h3 : blockingThreshold ⟨t, vs, qs⟩ = vs.length + qs.length - t + 1 := by
      simp only [blockingThreshold]
      rw [if_pos hle]
    rw [h3]
    omega

theorem toBlockingSets_good {q : QuorumSet} (h : DupFree q) :
    GoodGroup q.toBlockingSets q.containedNodes := by
  induction q using QuorumSet.induct with
  | h t vs qs ih =>
    rw [toBlockingSets_eq, ← unionAll_supports]
    refine combineGroups_good ?_ (supports_disjoint h) _
    refine List.rel_append ?_ ?_
    · simp only [List.forall₂_map_left_iff, List.forall₂_map_right_iff, List.forall₂_same]
      intro v _
      exact ⟨by simp, by simp, by simp, by simp⟩
    · simp only [List.forall₂_map_left_iff, List.forall₂_map_right_iff, List.forall₂_same]
      intro q' hq'
      obtain ⟨_, _, _, _, hi⟩ := h
      exact ih q' hq' (hi q' hq')

/-- In a symmetric cluster without repeated nodes and with sane thresholds, the blocking sets are
generated exactly. -/
theorem toMinimalBlockingSets_spec {f : Fbas} {K : NodeSet} {q : QuorumSet}
    (hK : q.containedNodes = K) (hall : ∀ x ∈ K, f.qset x = q) (hd : DupFree q) (hs : Sane q) :
    (q.toMinimalBlockingSets f).Nodup ∧
      ∀ S, S ∈ q.toMinimalBlockingSets f ↔ Minimal (Hits f K) S := by
  have hnd : ¬ q.containsDuplicates = true := by
    rw [Bool.not_eq_true, containsDuplicates_iff, ← dupFree_iff]; exact hd
  simp only [toMinimalBlockingSets, if_neg hnd]
  have hgood := toBlockingSets_good hd
  have hits_iff : ∀ B, Hits f K B ↔ ∃ T ∈ q.toBlockingSets, T ⊆ B := by
    intro B
    rw [toBlockingSets_generates hs B K (fun x hx => hK ▸ mem_containedNodes.2 hx)]
    constructor
    · intro h hsl
      exact h _ ((symmetric_quorum_iff hall Finset.sdiff_subset).2 hsl) (Finset.Subset.refl _)
    · intro h Q hQ hsub
      exact h (((symmetric_quorum_iff hall (hsub.trans Finset.sdiff_subset)).1 hQ).mono hsub)
  refine ⟨hgood.nodup, fun S => ?_⟩
  rw [minimal_iff]
  constructor
  · intro hS
    refine ⟨(hits_iff S).2 ⟨S, hS, Finset.Subset.refl _⟩, fun C hC hCS => ?_⟩
    obtain ⟨T, hT, hTC⟩ := (hits_iff C).1 hC
    have := hgood.antichain T hT S hS (hTC.trans hCS)
    subst this
    exact Finset.Subset.antisymm hTC hCS
  · rintro ⟨hS, hmin⟩
    obtain ⟨T, hT, hTS⟩ := (hits_iff S).1 hS
    rw [hmin ((hits_iff T).2 ⟨T, hT, Finset.Subset.refl _⟩) hTS]
    exact hT

/-! ### Several clusters -/

theorem hits_congr {f : Fbas} {K B C : NodeSet} (h : ∀ x ∈ K, (x ∈ B ↔ x ∈ C)) :
    Hits f K B ↔ Hits f K C := by
  have : K \ B = K \ C := by
    ext x; simp only [Finset.mem_sdiff]; exact and_congr_right (fun hx => not_congr (h x hx))
  unfold Hits; rw [this]

/-- `B` blocks all quorums inside each of the sets. -/
def HitsAll (f : Fbas) (Ks : List NodeSet) (B : NodeSet) : Prop := ∀ K ∈ Ks, Hits f K B

theorem minimal_hitsAll_cons {f : Fbas} {K : NodeSet} {Ks : List NodeSet}
    (hd : ∀ K' ∈ Ks, Disjoint K K') (B : NodeSet) :
    Minimal (HitsAll f (K :: Ks)) B ↔
      Minimal (Hits f K) (B ∩ K) ∧ Minimal (HitsAll f Ks) (B \ K) := by
  have hHits : ∀ C, Hits f K C ↔ Hits f K (C ∩ K) := fun C =>
    hits_congr (fun x hx => by simp [hx])
  have hAll : ∀ C, HitsAll f Ks C ↔ HitsAll f Ks (C \ K) := by
    intro C
    refine forall₂_congr (fun K' hK' => hits_congr (fun x hx => ?_))
    have := Finset.disjoint_right.1 (hd K' hK') hx
    simp [this]
  have hcons : ∀ C, HitsAll f (K :: Ks) C ↔ Hits f K C ∧ HitsAll f Ks C := by
    intro C; simp [HitsAll]
  simp only [minimal_iff, hcons]
  constructor
  · rintro ⟨⟨h1, h2⟩, hmin⟩
    refine ⟨⟨(hHits B).1 h1, fun C hC hCB => ?_⟩, ⟨(hAll B).1 h2, fun C hC hCB => ?_⟩⟩
    · have hCK : C ⊆ K := hCB.trans Finset.inter_subset_right
      have := @hmin (C ∪ (B \ K)) ⟨hC.mono Finset.subset_union_left,
        fun K' hK' => (((hAll B).1 h2) K' hK').mono Finset.subset_union_right⟩
        (Finset.union_subset (hCB.trans Finset.inter_subset_left) Finset.sdiff_subset)
      refine Finset.Subset.antisymm (fun x hx => ?_) hCB
      rw [Finset.mem_inter] at hx
      have hx' := hx.1
      rw [this, Finset.mem_union, Finset.mem_sdiff] at hx'
      exact hx'.resolve_right (fun h => h.2 hx.2)
    · have := @hmin (C ∪ (B ∩ K)) ⟨((hHits B).1 h1).mono Finset.subset_union_right,
        fun K' hK' => (hC K' hK').mono Finset.subset_union_left⟩
        (Finset.union_subset (hCB.trans Finset.sdiff_subset) Finset.inter_subset_left)
      refine Finset.Subset.antisymm (fun x hx => ?_) hCB
      rw [Finset.mem_sdiff] at hx
      have hx' := hx.1
      rw [this, Finset.mem_union, Finset.mem_inter] at hx'
      exact hx'.resolve_right (fun h => hx.2 h.2)
  · rintro ⟨⟨h1, hm1⟩, ⟨h2, hm2⟩⟩
    refine ⟨⟨(hHits B).2 h1, (hAll B).2 h2⟩, fun C hC hCB => ?_⟩
    have e1 := @hm1 (C ∩ K) ((hHits C).1 hC.1) (Finset.inter_subset_inter_right hCB)
    have e2 := @hm2 (C \ K) ((hAll C).1 hC.2) (Finset.sdiff_subset_sdiff hCB (Finset.Subset.refl _))
    ext x
    by_cases hx : x ∈ K
    · have := Finset.ext_iff.1 e1 x
      simpa [hx] using this
    · have := Finset.ext_iff.1 e2 x
      simpa [hx] using this

theorem minimal_hitsAll_subset {f : Fbas} {Ks : List NodeSet} {B : NodeSet}
    (h : Minimal (HitsAll f Ks) B) : B ⊆ unionAll Ks := by
  have h1 : HitsAll f Ks (B ∩ unionAll Ks) := by
    intro K hK
    refine (hits_congr (fun x hx => ?_)).1 (h.prop K hK)
    have : x ∈ unionAll Ks := mem_unionAll.2 ⟨K, hK, hx⟩
    simp [this]
  have := (minimal_iff.1 h).2 h1 Finset.inter_subset_left
  rw [this]; exact Finset.inter_subset_right

/-- The combination of per-cluster results. -/
def productUnion (Ls : List (List NodeSet)) : List NodeSet := (product Ls).map unionAll

theorem productUnion_cons (g : List NodeSet) (gs : List (List NodeSet)) :
    productUnion (g :: gs) = g.flatMap (fun s => (productUnion gs).map (s ∪ ·)) := by
  simp only [productUnion, product, List.map_flatMap, List.map_map]
  congr 1
  funext s
  refine List.map_congr_left (fun c _ => ?_)
  simp [unionAll_cons]

theorem productUnion_spec {f : Fbas} {Ks : List NodeSet} {Ls : List (List NodeSet)}
    (hd : Ks.Pairwise Disjoint)
    (h : List.Forall₂ (fun K L => L.Nodup ∧ ∀ S, S ∈ L ↔ Minimal (Hits f K) S) Ks Ls) :
    (productUnion Ls).Nodup ∧ ∀ S, S ∈ productUnion Ls ↔ Minimal (HitsAll f Ks) S := by
  induction h with
  | nil =>
    refine ⟨by simp [productUnion, product], fun S => ?_⟩
    simp only [productUnion, product, List.map_cons, List.map_nil, List.mem_singleton,
      unionAll_nil]
    constructor
    · rintro rfl; exact ⟨by simp [HitsAll], fun _ _ _ => by simp⟩
    · intro hS
      exact Finset.subset_empty.1 (hS.le_of_le (y := ∅) (by simp [HitsAll]) (by simp))
  | @cons K L Ks Ls hKL hrest ih =>
    rw [List.pairwise_cons] at hd
    obtain ⟨ih1, ih2⟩ := ih hd.2
    have hsubK : ∀ s ∈ L, s ⊆ K := fun s hs => minimal_hits_subset ((hKL.2 s).1 hs)
    have hdisK : ∀ T ∈ productUnion Ls, Disjoint T K := by
      intro T hT
      have h1 := minimal_hitsAll_subset ((ih2 T).1 hT)
      rw [Finset.disjoint_left]
      intro x hx hxK
      obtain ⟨K', hK', hxK'⟩ := mem_unionAll.1 (h1 hx)
      exact Finset.disjoint_left.1 (hd.1 K' hK') hxK hxK'
    have hint : ∀ s ∈ L, ∀ T ∈ productUnion Ls, (s ∪ T) ∩ K = s ∧ (s ∪ T) \ K = T := by
      intro s hs T hT
      have h1 := hsubK s hs
      have h2 := Finset.disjoint_left.1 (hdisK T hT)
      constructor
      · ext x
        simp only [Finset.mem_inter, Finset.mem_union]
        exact ⟨fun h => h.1.resolve_right (fun h' => h2 h' h.2), fun h => ⟨.inl h, h1 h⟩⟩
      · ext x
        simp only [Finset.mem_sdiff, Finset.mem_union]
        exact ⟨fun h => h.1.resolve_left (fun h' => h.2 (h1 h')), fun h => ⟨.inr h, h2 h⟩⟩
    rw [productUnion_cons]
    constructor
    · rw [List.nodup_flatMap]
      constructor
      · intro s hs
        rw [List.nodup_map_iff_inj_on ih1]
        intro T hT T' hT' he
        rw [← (hint s hs T hT).2, ← (hint s hs T' hT').2, he]
      · refine List.Pairwise.imp_of_mem ?_ hKL.1
        intro s s' hs hs' hne X hX hX'
        obtain ⟨T, hT, rfl⟩ := List.mem_map.1 hX
        obtain ⟨T', hT', he⟩ := List.mem_map.1 hX'
        refine hne ?_
        rw [← (hint s hs T hT).1, ← (hint s' hs' T' hT').1, he]
    · intro S
      rw [minimal_hitsAll_cons hd.1, List.mem_flatMap]
      constructor
      · rintro ⟨s, hs, hS⟩
        obtain ⟨T, hT, rfl⟩ := List.mem_map.1 hS
        rw [(hint s hs T hT).1, (hint s hs T hT).2]
        exact ⟨(hKL.2 s).1 hs, (ih2 T).1 hT⟩
      · rintro ⟨h1, h2⟩
        refine ⟨S ∩ K, (hKL.2 _).2 h1, List.mem_map.2 ⟨S \ K, (ih2 _).2 h2, ?_⟩⟩
        ext x
        simp only [Finset.mem_union, Finset.mem_inter, Finset.mem_sdiff]
        tauto

theorem IsClusters.blocking_iff {f : Fbas} {Ks : List NodeSet} (h : IsClusters f Ks)
    (B : NodeSet) : Blocking f B ↔ HitsAll f Ks B := by
  constructor
  · intro hB K _ Q hQ hsub
    obtain ⟨x, hx, hxB⟩ := hB Q hQ
    exact (Finset.mem_sdiff.1 (hsub hx)).2 hxB
  · intro hB Q hQ
    obtain ⟨Q', hQ', hsub⟩ := hQ.exists_min
    obtain ⟨K, hK, hK'⟩ := h.cover Q' hQ'
    by_contra hno
    push Not at hno
    exact hB K hK Q' hQ'.prop (fun x hx => Finset.mem_sdiff.2 ⟨hK' hx, hno x (hsub hx)⟩)

/-- What one cluster contributes. -/
def clusterBlocking (env : Env) (f : Fbas) (K : NodeSet) : List NodeSet :=
  match findSymmetricClusterInConsensusCluster f K with
  | .ok (some q) => q.toMinimalBlockingSets f
  | _ => (mbStep f ((env.rank f (elems K)).length + 1) true
      ⟨env.rank f (elems K), ∅, ofList (env.rank f (elems K)), ∅, []⟩).found

theorem minimalBlockingSetsPerCluster_eq (env : Env) {f : Fbas} {Ks₀ : List NodeSet}
    (hKs : IsClusters f Ks₀) (Ks : List NodeSet) (found : List (List NodeSet))
    (hsub : ∀ K ∈ Ks, K ∈ Ks₀) :
    minimalBlockingSetsPerCluster env f Ks found = .ok (found ++ Ks.map (clusterBlocking env f)) := by
  induction Ks generalizing found with
  | nil => simp [minimalBlockingSetsPerCluster]
  | cons K Ks ih =>
    have hK := hsub K (by simp)
    rw [minimalBlockingSetsPerCluster, List.map_cons]
    rcases hKs.findSymmetric hK with ⟨q, h1, _, h2, h3⟩ | ⟨h1, _⟩ <;>
    · rw [h1]
      dsimp only
      rw [ih _ (fun K hK => hsub K (by simp [hK])), clusterBlocking, h1]
      simp

theorem findMinimalBlockingSets_eq (env : Env) {f : Fbas} (hwf : WF f) :
    findMinimalBlockingSets env f = .ok (sortLen (sortLex ((multiCartesianProduct
      ((consensusClusters env f).map (clusterBlocking env f))).map unionAll))) := by
  have hKs := consensusClusters_spec env hwf
  simp [findMinimalBlockingSets, findMinimalSets, findSets, minimalBlockingSetsFinder,
    minimalBlockingSetsPerCluster_eq env hKs _ [] (fun _ h => h)]

theorem findMinimalBlockingSets_spec (env : Env) {f : Fbas} (hwf : WF f)
    (hq : ∃ Q, IsQuorum f Q) (hsym : ∀ q, SymCluster f q → DupFree q ∧ Sane q) :
    ∃ L, findMinimalBlockingSets env f = .ok L ∧ (∀ S, S ∈ L ↔ IsMinBlocking f S) ∧
      L.Nodup ∧ L.Pairwise lenLexLe := by
  have hKs := consensusClusters_spec env hwf
  rw [findMinimalBlockingSets_eq env hwf]
  have hne : consensusClusters env f ≠ [] := fun h => (hKs.eq_nil_iff.1 h) hq
  rw [multiCartesianProduct_eq_product (by simpa using hne)]
  have hper : List.Forall₂ (fun K L => L.Nodup ∧ ∀ S, S ∈ L ↔ Minimal (Hits f K) S)
      (consensusClusters env f) ((consensusClusters env f).map (clusterBlocking env f)) := by
    rw [List.forall₂_map_right_iff, List.forall₂_same]
    intro K hK
    unfold clusterBlocking
    rcases hKs.findSymmetric hK with ⟨q, h1, _, h2, h3⟩ | ⟨h1, _⟩
    · rw [h1]
      obtain ⟨h4, h5⟩ := hsym q (hKs.symCluster_of_mem hK h2 h3)
      exact toMinimalBlockingSets_spec h2 h3 h4 h5
    · rw [h1]
      dsimp only
      obtain ⟨hr1, hr2⟩ := rank_elems env f K
      obtain ⟨L, hL1, hL2, hL3⟩ := mbStep_start f (env.rank f (elems K)) hr1 []
      rw [hL1, List.nil_append]
      refine ⟨hL2, fun S => ?_⟩
      rw [hL3, hr2]
      exact ⟨fun h => h.1, fun h => ⟨h, minimal_hits_subset h⟩⟩
  obtain ⟨h1, h2⟩ := productUnion_spec hKs.disjoint hper
  refine ⟨_, rfl, fun S => ?_, sort_nodup h1, sort_sorted _⟩
  rw [sort_mem]
  rw [← productUnion, h2]
  have : HitsAll f (consensusClusters env f) = Blocking f :=
    funext (fun B => propext (hKs.blocking_iff B).symm)
  rw [this, IsMinBlocking]

/-! ### Independence from ranking and component order -/

theorem clusterBlocking_perm (env₁ env₂ : Env) {f : Fbas} {Ks : List NodeSet}
    (hKs : IsClusters f Ks) {K : NodeSet} (hK : K ∈ Ks) :
    (clusterBlocking env₁ f K).Perm (clusterBlocking env₂ f K) := by
  unfold clusterBlocking
  rcases hKs.findSymmetric hK with ⟨q, h1, _, h2, h3⟩ | ⟨h1, _⟩
  · rw [h1]
  · rw [h1]
    dsimp only
    obtain ⟨ha1, ha2⟩ := rank_elems env₁ f K
    obtain ⟨hb1, hb2⟩ := rank_elems env₂ f K
    obtain ⟨L, hL1, hL2, hL3⟩ := mbStep_start f (env₁.rank f (elems K)) ha1 []
    obtain ⟨M, hM1, hM2, hM3⟩ := mbStep_start f (env₂.rank f (elems K)) hb1 []
    rw [hL1, hM1, List.nil_append, List.nil_append]
    refine (List.perm_ext_iff_of_nodup hL2 hM2).2 (fun S => ?_)
    rw [hL3, hM3, ha2, hb2]

theorem flatMap_comm_perm {α β γ : Type} (l : List α) (m : List β) (F : α → β → List γ) :
    (l.flatMap (fun a => m.flatMap (F a))).Perm (m.flatMap (fun b => l.flatMap (fun a => F a b))) := by
  induction l with
  | nil =>
    simp only [List.flatMap_nil]
    induction m with
    | nil => simp
    | cons b m ih => simp
  | cons a l ih =>
    simp only [List.flatMap_cons]
    exact (List.Perm.append_left _ ih).trans (List.flatMap_append_perm m (F a) _)

theorem productUnion_perm {gs gs' : List (List NodeSet)} (h : gs.Perm gs') :
    (productUnion gs).Perm (productUnion gs') := by
  induction h with
  | nil => exact .refl _
  | cons g _ ih =>
    rw [productUnion_cons, productUnion_cons]
    exact List.Perm.flatMap_left _ (fun s _ => ih.map _)
  | swap g g' gs =>
    simp only [productUnion_cons, List.map_flatMap, List.map_map]
    refine (flatMap_comm_perm g' g _).trans (List.Perm.of_eq ?_)
    congr 1; funext a; congr 1; funext b
    refine List.map_congr_left (fun T _ => ?_)
    simp only [Function.comp_apply]
    rw [← Finset.union_assoc, ← Finset.union_assoc, Finset.union_comm b a]
  | trans _ _ ih₁ ih₂ => exact ih₁.trans ih₂

theorem productUnion_forall₂ {gs gs' : List (List NodeSet)} (h : List.Forall₂ List.Perm gs gs') :
    (productUnion gs).Perm (productUnion gs') := by
  induction h with
  | nil => exact .refl _
  | cons hg _ ih =>
    rw [productUnion_cons, productUnion_cons]
    exact flatMap_perm hg (fun s _ => ih.map _)

theorem findMinimalBlockingSets_env (env₁ env₂ : Env) {f : Fbas} (hwf : WF f) :
    findMinimalBlockingSets env₁ f = findMinimalBlockingSets env₂ f := by
  have h₁ := consensusClusters_spec env₁ hwf
  have h₂ := consensusClusters_spec env₂ hwf
  have hp := h₁.perm h₂
  rw [findMinimalBlockingSets_eq env₁ hwf, findMinimalBlockingSets_eq env₂ hwf]
  congr 1
  apply sort_eq_of_perm
  by_cases hne : consensusClusters env₁ f = []
  · have hne' : consensusClusters env₂ f = [] := by rw [hne] at hp; exact hp.nil_eq.symm
    rw [hne, hne']; exact .refl _
  · have hne' : consensusClusters env₂ f ≠ [] := by
      intro h; rw [h] at hp; exact hne hp.eq_nil
    rw [multiCartesianProduct_eq_product (by simpa using hne),
      multiCartesianProduct_eq_product (by simpa using hne'), ← productUnion, ← productUnion]
    refine (productUnion_forall₂ ?_).trans (productUnion_perm (hp.map (clusterBlocking env₂ f)))
    rw [List.forall₂_map_left_iff, List.forall₂_map_right_iff, List.forall₂_same]
    exact fun K hK => clusterBlocking_perm env₁ env₂ h₁ hK

theorem findMinimalBlockingSets_none (env : Env) {f : Fbas} (hwf : WF f)
    (hq : ¬ ∃ Q, IsQuorum f Q) : findMinimalBlockingSets env f = .ok [] := by
  have hKs := consensusClusters_spec env hwf
  rw [findMinimalBlockingSets_eq env hwf, hKs.eq_nil_iff.2 hq]
  rfl

end FA
