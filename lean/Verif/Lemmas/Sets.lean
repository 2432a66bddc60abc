import Verif.Lemmas.Base
import Verif.Model.Sets
import Mathlib.Order.Minimal

/-! Lemmas about operations on lists of node sets. -/

namespace FA

/-! ### `all_intersect` -/

theorem allIntersectSlow_iff (l : List NodeSet) :
    allIntersectSlow l = true ↔ l.Pairwise (fun a b => ∃ x, x ∈ a ∧ x ∈ b) := by
  induction l with
  | nil => simp [allIntersectSlow]
  | cons a l ih =>
    rw [allIntersectSlow, Bool.and_eq_true, ih, List.pairwise_cons]
    refine and_congr_left (fun _ => ?_)
    simp [Finset.not_disjoint_iff]

theorem allIntersect_iff (l : List NodeSet) :
    allIntersect l = true ↔ l.Pairwise (fun a b => ∃ x, x ∈ a ∧ x ∈ b) := by
  simp only [allIntersect]
  split
  next h =>
    simp only [true_iff]
    simp only [List.all_eq_true, decide_eq_true_eq] at h
    refine List.Pairwise.imp_of_mem (R := fun _ _ => True) ?_ (List.pairwise_of_forall (by simp))
    intro a b ha hb _
    rw [← Finset.not_disjoint_iff]
    intro hd
    have h1 : (a ∪ b).card = a.card + b.card := Finset.card_union_of_disjoint hd
    have h2 : (a ∪ b).card ≤ (involvedNodes l).card :=
      Finset.card_le_card (Finset.union_subset (unionAll_subset.1 (Finset.Subset.refl _) a ha)
        (unionAll_subset.1 (Finset.Subset.refl _) b hb))
    have := h a ha
    have := h b hb
    omega
  next => exact allIntersectSlow_iff l

@[simp] theorem mem_involvedNodes {l : List NodeSet} {x : ℕ} :
    x ∈ involvedNodes l ↔ ∃ s ∈ l, x ∈ s := mem_unionAll

/-! ### `remove_non_minimal_node_sets` -/

theorem mem_dedupAdj {l : List NodeSet} {s : NodeSet} : s ∈ dedupAdj l ↔ s ∈ l := by
  induction l with
  | nil => simp [dedupAdj]
  | cons a l ih =>
    cases l with
    | nil => simp [dedupAdj]
    | cons b l =>
      rw [dedupAdj]
      split
      next h => subst h; rw [ih]; simp
      next => rw [List.mem_cons, ih, List.mem_cons (a := s) (b := a)]

theorem dedupAdj_pairwise {l : List NodeSet} (h : l.Pairwise lexLe) :
    (dedupAdj l).Pairwise (fun a b => lexLe a b ∧ a ≠ b) := by
  induction l with
  | nil => simp [dedupAdj]
  | cons a l ih =>
    rw [List.pairwise_cons] at h
    cases l with
    | nil => simp [dedupAdj]
    | cons b l =>
      rw [dedupAdj]
      split
      next => exact ih h.2
      next hne =>
        rw [List.pairwise_cons]
        refine ⟨?_, ih h.2⟩
        intro s hs
        rw [mem_dedupAdj] at hs
        refine ⟨h.1 s hs, ?_⟩
        rintro rfl
        rcases List.mem_cons.1 hs with rfl | hs'
        · exact hne rfl
        · have h1 : lexLe b a := (List.pairwise_cons.1 h.2).1 _ hs'
          exact hne (antisymm_of lexLe (h.1 b (by simp)) h1)

theorem le_maxD {l : List ℕ} {x : ℕ} (h : x ∈ l) : x ≤ maxD l := by
  unfold maxD
  have key : ∀ (l : List ℕ) (a : ℕ), a ≤ l.foldl max a ∧ ∀ x ∈ l, x ≤ l.foldl max a := by
    intro l
    induction l with
    | nil => simp
    | cons b l ih =>
      intro a
      rw [List.foldl_cons]
      obtain ⟨h1, h2⟩ := ih (max a b)
      refine ⟨(le_max_left a b).trans h1, ?_⟩
      intro x hx
      rcases List.mem_cons.1 hx with rfl | hx
      · exact (le_max_right a x).trans h1
      · exact h2 x hx
  exact (key l 0).2 x h

theorem maxD_mem {l : List ℕ} (h : l ≠ []) : maxD l ∈ l := by
  unfold maxD
  have key : ∀ (l : List ℕ) (a : ℕ), l.foldl max a = a ∨ l.foldl max a ∈ l := by
    intro l
    induction l with
    | nil => simp
    | cons b l ih =>
      intro a
      rw [List.foldl_cons]
      rcases ih (max a b) with h | h
      · rw [h]
        rcases max_choice a b with h' | h'
        · exact .inl h'
        · right; rw [h']; simp
      · right; exact List.mem_cons_of_mem _ h
  cases l with
  | nil => contradiction
  | cons b l =>
    rw [List.foldl_cons]
    rcases key l (max 0 b) with h | h
    · rw [h]; simp
    · exact List.mem_cons_of_mem _ h

theorem length_intoBuckets (l : List NodeSet) (bs : List (List NodeSet)) :
    (intoBuckets l bs).length = bs.length := by
  unfold intoBuckets
  induction l generalizing bs with
  | nil => rfl
  | cons a l ih => rw [List.foldl_cons, ih]; simp

theorem getElem?_intoBuckets (l : List NodeSet) (bs : List (List NodeSet)) (i : ℕ) :
    (intoBuckets l bs)[i]? = bs[i]?.map (fun b => b ++ l.filter (fun s => decide (s.card = i))) := by
  unfold intoBuckets
  induction l generalizing bs with
  | nil => simp
  | cons a l ih =>
    rw [List.foldl_cons, ih, List.getElem?_modify, List.filter_cons]
    by_cases h : a.card = i
    · simp only [h, if_true, Option.map_eq_map, Option.map_map, decide_true]
      congr 1
      funext b
      simp
    · simp [h]

theorem intoBuckets_replicate (l : List NodeSet) (n : ℕ) :
    intoBuckets l (List.replicate n []) =
      (List.range n).map (fun i => l.filter (fun s => decide (s.card = i))) := by
  apply List.ext_getElem?
  intro i
  rw [getElem?_intoBuckets, List.getElem?_map]
  by_cases h : i < n
  · rw [List.getElem?_eq_getElem (by simpa using h), List.getElem?_eq_getElem (by simpa using h)]
    simp
  · rw [List.getElem?_eq_none (by simpa using h), List.getElem?_eq_none (by simpa using h)]
    simp

/-- Strict version of the order in which results are listed. -/
def lenLexLt (a b : NodeSet) : Prop := lenLexLe a b ∧ a ≠ b

theorem exists_minimal_mem {l : List NodeSet} {s : NodeSet} (h : s ∈ l) :
    ∃ t, Minimal (· ∈ l) t ∧ t ⊆ s := by
  induction hn : s.card using Nat.strong_induction_on generalizing s with
  | _ n ih =>
    by_cases hmin : Minimal (· ∈ l) s
    · exact ⟨s, hmin, Finset.Subset.refl _⟩
    · rw [minimal_iff_forall_lt] at hmin
      push Not at hmin
      obtain ⟨p, hps, hp⟩ := hmin h
      obtain ⟨t, ht, hsub⟩ := ih p.card (hn ▸ Finset.card_lt_card hps) hp rfl
      exact ⟨t, ht, hsub.trans hps.1⟩

theorem minimalFromBuckets_spec (l : List NodeSet)
    (hl : l.Pairwise (fun a b => lexLe a b ∧ a ≠ b)) (n : ℕ) :
    (∀ s, s ∈ minimalFromBuckets ((List.range n).map
        (fun i => l.filter (fun s => decide (s.card = i)))) ↔
      Minimal (· ∈ l) s ∧ s.card < n) ∧
    (minimalFromBuckets ((List.range n).map
        (fun i => l.filter (fun s => decide (s.card = i))))).Pairwise lenLexLt := by
  induction n with
  | zero => simp [minimalFromBuckets]
  | succ n ih =>
    rw [List.range_succ, List.map_append, minimalFromBuckets, List.foldl_append]
    rw [minimalFromBuckets] at ih
    generalize hM : List.foldl _ _ (List.map _ (List.range n)) = M at ih ⊢
    obtain ⟨h1, h2⟩ := ih
    simp only [List.map_cons, List.map_nil, List.foldl_cons, List.foldl_nil]
    constructor
    · intro s
      rw [List.mem_append, h1, List.mem_filter, List.mem_filter]
      simp only [decide_eq_true_eq, List.all_eq_true, Bool.not_eq_true', decide_eq_false_iff_not]
      constructor
      · rintro (⟨h3, h4⟩ | ⟨⟨h3, h4⟩, h5⟩)
        · exact ⟨h3, by omega⟩
        · refine ⟨?_, by omega⟩
          obtain ⟨t, ht, hts⟩ := exists_minimal_mem h3
          by_cases hcard : t.card < n
          · exact absurd hts (h5 t ((h1 t).2 ⟨ht, hcard⟩))
          · have : t = s := Finset.eq_of_subset_of_card_le hts (by omega)
            exact this ▸ ht
      · rintro ⟨h3, h4⟩
        by_cases hcard : s.card < n
        · exact .inl ⟨h3, hcard⟩
        · refine .inr ⟨⟨h3.prop, by omega⟩, ?_⟩
          intro t ht hts
          obtain ⟨ht1, ht2⟩ := (h1 t).1 ht
          have : s ⊆ t := h3.le_of_le ht1.prop hts
          have := Finset.card_le_card this
          omega
    · rw [List.pairwise_append]
      refine ⟨h2, ?_, ?_⟩
      · refine List.Pairwise.filter _ ?_
        have := (hl.filter (fun s => decide (s.card = n)))
        refine List.Pairwise.imp_of_mem ?_ this
        intro a b ha hb hab
        have ha' := (List.mem_filter.1 ha).2
        have hb' := (List.mem_filter.1 hb).2
        simp only [decide_eq_true_eq] at ha' hb'
        exact ⟨.inr ⟨by omega, hab.1⟩, hab.2⟩
      · intro a ha b hb
        have ha' := ((h1 a).1 ha).2
        have hb' := (List.mem_filter.1 (List.mem_filter.1 hb).1).2
        simp only [decide_eq_true_eq] at hb'
        refine ⟨.inl (by omega), ?_⟩
        rintro rfl
        omega

theorem removeNonMinimal_spec (l : List NodeSet) :
    (∀ s, s ∈ removeNonMinimalNodeSets l ↔ Minimal (· ∈ l) s) ∧
      (removeNonMinimalNodeSets l).Pairwise lenLexLt := by
  have hmem : ∀ s, s ∈ dedupAdj (sortLex l) ↔ s ∈ l := by
    intro s; rw [mem_dedupAdj]; exact (sortLex_perm l).mem_iff
  have := minimalFromBuckets_spec (dedupAdj (sortLex l)) (dedupAdj_pairwise (sortLex_pairwise l))
    (maxD ((dedupAdj (sortLex l)).map Finset.card) + 1)
  rw [← intoBuckets_replicate] at this
  refine ⟨fun s => ?_, this.2⟩
  have h1 := this.1 s
  simp only [hmem] at h1
  rw [removeNonMinimalNodeSets, h1, and_iff_left_iff_imp]
  intro hs
  exact Nat.lt_succ_of_le (le_maxD (List.mem_map.2 ⟨s, (hmem s).2 hs.prop, rfl⟩))

theorem removeNonMinimal_nodup (l : List NodeSet) : (removeNonMinimalNodeSets l).Nodup :=
  (removeNonMinimal_spec l).2.imp (fun h => h.2)

theorem removeNonMinimal_sorted (l : List NodeSet) :
    (removeNonMinimalNodeSets l).Pairwise lenLexLe :=
  (removeNonMinimal_spec l).2.imp (fun h => h.1)

theorem removeNonMinimalX_eq (l : List NodeSet) (p : NodeSet → Bool) :
    removeNonMinimalX l p = l.filter p := by
  unfold removeNonMinimalX
  have key : ∀ (l acc : List NodeSet),
      l.foldl (fun m s => if p s then m ++ [s] else m) acc = acc ++ l.filter p := by
    intro l
    induction l with
    | nil => simp
    | cons a l ih =>
      intro acc
      rw [List.foldl_cons, ih, List.filter_cons]
      split <;> simp
  simpa using key l []

end FA
