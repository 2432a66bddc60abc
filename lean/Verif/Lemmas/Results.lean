import Verif.Lemmas.FrontEndModes
import Verif.Model.Groupings

/-!
# Proofs about results
-/

namespace FA
open Spec

theorem minimal_of_cofinal {X Y : NodeSet → Prop} (h1 : ∀ S, X S → Y S)
    (h2 : ∀ S, Y S → ∃ T, X T ∧ T ⊆ S) (S : NodeSet) : Minimal X S ↔ Minimal Y S := by
  constructor
  · intro h
    refine ⟨h1 _ h.1, fun T hT hTS => ?_⟩
    obtain ⟨U, hU, hUT⟩ := h2 T hT
    exact (h.2 hU (Finset.Subset.trans hUT hTS)).trans hUT
  · intro h
    obtain ⟨U, hU, hUS⟩ := h2 S h.1
    have : U = S := h.eq_of_le (h1 _ hU) hUS
    subst this
    exact ⟨hU, fun T hT hTS => h.2 (h1 _ hT) hTS⟩

theorem exists_minimal_sub {P : NodeSet → Prop} {S : NodeSet} (h : P S) :
    ∃ T, Minimal P T ∧ T ⊆ S := by
  obtain ⟨T, hT, hmin⟩ := exists_minimal_le_of_wellFoundedLT P S h
  exact ⟨T, hmin, hT⟩

theorem mem_minimal_iff {l : List NodeSet} {S : NodeSet} :
    Minimal (· ∈ l) S ↔ S ∈ l ∧ ∀ T ∈ l, ¬ T ⊂ S := by
  constructor
  · intro h
    exact ⟨h.1, fun T hT hTS => hTS.2 (h.2 hT hTS.1)⟩
  · rintro ⟨h1, h2⟩
    refine ⟨h1, fun T hT hTS => ?_⟩
    by_contra hne
    exact h2 T hT ⟨hTS, hne⟩

/-- Removing the nodes `F` from the minimal members of a monotone family. -/
theorem minimal_sdiff {P : NodeSet → Prop} (hP : ∀ S T, S ⊆ T → P S → P T) {l : List NodeSet}
    (hl : ∀ S, S ∈ l ↔ Minimal P S) (F S : NodeSet) :
    Minimal (· ∈ l.map (· \ F)) S ↔ Minimal (fun B => Disjoint B F ∧ P (B ∪ F)) S := by
  apply minimal_of_cofinal
  · intro T hT
    obtain ⟨U, hU, rfl⟩ := List.mem_map.1 hT
    refine ⟨Finset.sdiff_disjoint, hP U _ (fun x hx => ?_) ((hl U).1 hU).1⟩
    by_cases hF : x ∈ F
    · exact Finset.mem_union_right _ hF
    · exact Finset.mem_union_left _ (Finset.mem_sdiff.2 ⟨hx, hF⟩)
  · rintro T ⟨-, hT⟩
    obtain ⟨U, hU, hUT⟩ := exists_minimal_sub hT
    refine ⟨U \ F, List.mem_map.2 ⟨U, (hl U).2 hU, rfl⟩, fun x hx => ?_⟩
    rw [Finset.mem_sdiff] at hx
    rcases Finset.mem_union.1 (hUT hx.1) with h | h
    · exact h
    · exact absurd h hx.2

/-- Merging the minimal members of a monotone family along `m`. -/
theorem minimal_image {P : NodeSet → Prop} (hP : ∀ S T, S ⊆ T → P S → P T) {l : List NodeSet}
    (hl : ∀ S, S ∈ l ↔ Minimal P S) {m : ℕ → ℕ} {R : ℕ → Prop} {E : NodeSet → NodeSet}
    (hR : ∀ S ∈ l, ∀ x ∈ S, R (m x)) (hE : ∀ S ∈ l, S ⊆ E (S.image m))
    (hm : ∀ G, (∀ x ∈ G, R x) → ∀ x ∈ E G, m x ∈ G) (S : NodeSet) :
    Minimal (· ∈ l.map (Finset.image m)) S ↔
      Minimal (fun G => (∀ x ∈ G, R x) ∧ P (E G)) S := by
  apply minimal_of_cofinal
  · intro T hT
    obtain ⟨U, hU, rfl⟩ := List.mem_map.1 hT
    refine ⟨fun x hx => ?_, hP U _ (hE U hU) ((hl U).1 hU).1⟩
    obtain ⟨y, hy, rfl⟩ := Finset.mem_image.1 hx
    exact hR U hU y hy
  · rintro T ⟨hTR, hT⟩
    obtain ⟨U, hU, hUT⟩ := exists_minimal_sub hT
    refine ⟨_, List.mem_map.2 ⟨U, (hl U).2 hU, rfl⟩, fun x hx => ?_⟩
    obtain ⟨y, hy, rfl⟩ := Finset.mem_image.1 hx
    exact hm T hTR y (hUT hy)

/-! ### The families -/

theorem Blocking.mono {f : Fbas} (S T : NodeSet) (h : S ⊆ T) (hS : Blocking f S) : Blocking f T :=
  fun Q hQ => by
    obtain ⟨x, h1, h2⟩ := hS Q hQ
    exact ⟨x, h1, h h2⟩

theorem Splitting.mono {f : Fbas} (S T : NodeSet) (h : S ⊆ T) (hS : Splitting f S) :
    Splitting f T := by
  obtain ⟨Q₁, Q₂, h1, h2, h3, h4⟩ := hS
  exact ⟨Q₁, Q₂, h1, h2, h3, h4.trans h⟩

theorem isMinQuorum_iff_contains {f : Fbas} (S : NodeSet) :
    IsMinQuorum f S ↔ Minimal (fun T => ∃ Q, IsQuorum f Q ∧ Q ⊆ T) S :=
  minimal_of_cofinal (fun Q hQ => ⟨Q, hQ, Finset.Subset.refl _⟩) (fun _ h => h) S

/-! ### Unshrinking -/

theorem removeNonMinimal_unSet {K : NodeSet} {l : List NodeSet}
    (h : ∀ S ∈ l, S ⊆ Finset.range K.card) :
    removeNonMinimalNodeSets (l.map (unSet K)) = (removeNonMinimalNodeSets l).map (unSet K) := by
  have hsub : ∀ S ∈ removeNonMinimalNodeSets l, S ⊆ Finset.range K.card := fun S hS =>
    h S (((removeNonMinimal_spec l).1 S).1 hS).1
  apply eq_of_lenLex
  · exact removeNonMinimal_sorted _
  · exact (sorted_unSet hsub).2 (removeNonMinimal_sorted _)
  · exact removeNonMinimal_nodup _
  · exact (nodup_unSet hsub).2 (removeNonMinimal_nodup _)
  · intro S
    rw [(removeNonMinimal_spec _).1, mem_minimal_iff, List.mem_map, List.mem_map]
    constructor
    · rintro ⟨⟨T, hT, rfl⟩, hmin⟩
      refine ⟨T, ((removeNonMinimal_spec _).1 T).2 (mem_minimal_iff.2 ⟨hT, fun U hU hUT => ?_⟩), rfl⟩
      refine hmin _ (List.mem_map.2 ⟨U, hU, rfl⟩) ?_
      rw [Finset.ssubset_iff_subset_ne] at hUT ⊢
      exact ⟨(unSet_subset_iff (h U hU) (h T hT)).2 hUT.1, fun e => hUT.2 (unSet_injOn (h U hU) (h T hT) e)⟩
    · rintro ⟨T, hT, rfl⟩
      obtain ⟨hT, hmin⟩ := mem_minimal_iff.1 (((removeNonMinimal_spec _).1 T).1 hT)
      refine ⟨⟨T, hT, rfl⟩, fun V hV hUT => ?_⟩
      obtain ⟨U, hU, rfl⟩ := List.mem_map.1 hV
      refine hmin U hU ?_
      rw [Finset.ssubset_iff_subset_ne] at hUT ⊢
      exact ⟨(unSet_subset_iff (h U hU) (h T hT)).1 hUT.1, fun e => hUT.2 (by rw [e])⟩

namespace SetVecResult

theorem unwrap_none {l : List NodeSet} : unwrap ⟨l, none⟩ = .ok l := rfl

theorem unshrink_of_unwrap {r : SetVecResult} {l : List NodeSet} (h : r.unwrap = .ok l) :
    r.unshrink = .ok ⟨l, none⟩ := by
  unfold unwrap at h
  split at h
  · cases h
  next r' hr =>
    rw [hr]
    have : r'.nodeSets = l := Except.ok.inj h
    rw [← this]
    unfold unshrink at hr
    split at hr
    · split at hr
      · cases hr
      · rw [← Except.ok.inj hr]
    · rw [← Except.ok.inj hr]

theorem unwrap_new {l : List NodeSet} {K : NodeSet} (h : ∀ S ∈ l, S ⊆ Finset.range K.card) :
    (SetVecResult.new l (some (ShrinkManager.new K))).unwrap = .ok (l.map (unSet K)) := by
  unfold unwrap unshrink SetVecResult.new
  simp only [Option.map_some]
  rw [unshrinkSets_ok h]

theorem unwrap_new_error {l : List NodeSet} {K : NodeSet}
    (h : ¬ ∀ S ∈ l, S ⊆ Finset.range K.card) :
    (SetVecResult.new l (some (ShrinkManager.new K))).unwrap = .error .outOfBounds := by
  push Not at h
  obtain ⟨S, hS, hS'⟩ := h
  unfold unwrap unshrink SetVecResult.new
  simp only [Option.map_some]
  have : unshrinkSets (ShrinkManager.new K).unshrinkTable l = .error .outOfBounds := by
    refine mapE_error (fun T _ => ?_) hS (unshrinkSet_error hS')
    by_cases hT : T ⊆ Finset.range K.card
    · exact .inl ⟨_, unshrinkSet_ok hT⟩
    · exact .inr (unshrinkSet_error hT)
  rw [this]

/-- The table of a result comes from a shrink manager (or there is none). -/
theorem ok_subset {l l' : List NodeSet} {K : NodeSet}
    (h : (SetVecResult.new l (some (ShrinkManager.new K))).unwrap = .ok l') :
    (∀ S ∈ l, S ⊆ Finset.range K.card) ∧ l' = l.map (unSet K) := by
  by_cases hs : ∀ S ∈ l, S ⊆ Finset.range K.card
  · rw [unwrap_new hs] at h
    exact ⟨hs, (Except.ok.inj h).symm⟩
  · rw [unwrap_new_error hs] at h; cases h

/-! ### Statistics -/

theorem foldl_max_eq (l : List ℕ) (x : ℕ) :
    x ≤ l.foldl Max.max x ∧ (∀ y ∈ l, y ≤ l.foldl Max.max x) ∧
      (l.foldl Max.max x = x ∨ l.foldl Max.max x ∈ l) := by
  induction l generalizing x with
  | nil => simp
  | cons a l ih =>
    obtain ⟨h1, h2, h3⟩ := ih (Max.max x a)
    simp only [List.foldl_cons, List.mem_cons, forall_eq_or_imp]
    refine ⟨by omega, ⟨by omega, h2⟩, ?_⟩
    rcases h3 with h3 | h3
    · rcases max_choice x a with h | h
      · exact .inl (by rw [h3, h])
      · exact .inr (.inl (by rw [h3, h]))
    · exact .inr (.inr h3)

theorem foldl_min_eq (l : List ℕ) (x : ℕ) :
    l.foldl Min.min x ≤ x ∧ (∀ y ∈ l, l.foldl Min.min x ≤ y) ∧
      (l.foldl Min.min x = x ∨ l.foldl Min.min x ∈ l) := by
  induction l generalizing x with
  | nil => simp
  | cons a l ih =>
    obtain ⟨h1, h2, h3⟩ := ih (Min.min x a)
    simp only [List.foldl_cons, List.mem_cons, forall_eq_or_imp]
    refine ⟨by omega, ⟨by omega, h2⟩, ?_⟩
    rcases h3 with h3 | h3
    · rcases min_choice x a with h | h
      · exact .inl (by rw [h3, h])
      · exact .inr (.inl (by rw [h3, h]))
    · exact .inr (.inr h3)

theorem max_spec (r : SetVecResult) :
    (∀ S ∈ r.nodeSets, S.card ≤ r.max) ∧ (r.nodeSets ≠ [] → ∃ S ∈ r.nodeSets, S.card = r.max) ∧
      (r.nodeSets = [] → r.max = 0) := by
  unfold max
  cases hl : r.nodeSets with
  | nil => simp
  | cons S l =>
    simp only [List.map_cons, List.mem_cons, forall_eq_or_imp, ne_eq, reduceCtorEq, not_false_eq_true,
      forall_const, exists_eq_or_imp, IsEmpty.forall_iff, and_true]
    obtain ⟨h1, h2, h3⟩ := foldl_max_eq (l.map Finset.card) S.card
    refine ⟨⟨h1, fun T hT => h2 _ (List.mem_map_of_mem hT)⟩, ?_⟩
    rcases h3 with h3 | h3
    · exact .inl h3.symm
    · obtain ⟨T, hT, h⟩ := List.mem_map.1 h3
      exact .inr ⟨T, hT, h⟩

theorem min_spec (r : SetVecResult) :
    (∀ S ∈ r.nodeSets, r.min ≤ S.card) ∧ (r.nodeSets ≠ [] → ∃ S ∈ r.nodeSets, S.card = r.min) ∧
      (r.nodeSets = [] → r.min = 0) := by
  unfold min
  cases hl : r.nodeSets with
  | nil => simp
  | cons S l =>
    simp only [List.map_cons, List.mem_cons, forall_eq_or_imp, ne_eq, reduceCtorEq, not_false_eq_true,
      forall_const, exists_eq_or_imp, IsEmpty.forall_iff, and_true]
    obtain ⟨h1, h2, h3⟩ := foldl_min_eq (l.map Finset.card) S.card
    refine ⟨⟨h1, fun T hT => h2 _ (List.mem_map_of_mem hT)⟩, ?_⟩
    rcases h3 with h3 | h3
    · exact .inl h3.symm
    · obtain ⟨T, hT, h⟩ := List.mem_map.1 h3
      exact .inr ⟨T, hT, h⟩

theorem histogramLoop_ok (l : List NodeSet) (h : List ℕ) (hl : ∀ S ∈ l, S.card < h.length) :
    ∃ h', histogramLoop l h = .ok h' ∧ h'.length = h.length ∧
      ∀ k, k < h.length → h'[k]? = (h[k]?).map (· + l.countP (fun S => decide (S.card = k))) := by
  induction l generalizing h with
  | nil => exact ⟨h, rfl, rfl, fun k hk => by simp⟩
  | cons S l ih =>
    have hS := hl S List.mem_cons_self
    unfold histogramLoop
    rw [List.getElem?_eq_getElem hS]
    dsimp only
    obtain ⟨h', h1, h2, h3⟩ := ih (h.set S.card (h[S.card] + 1))
      (fun T hT => by rw [List.length_set]; exact hl T (List.mem_cons_of_mem _ hT))
    rw [List.length_set] at h2 h3
    refine ⟨h', h1, h2, fun k hk => ?_⟩
    rw [h3 k hk, List.countP_cons]
    by_cases hkS : S.card = k
    · subst hkS
      rw [List.getElem?_set_self hS, List.getElem?_eq_getElem hS]
      simp only [Option.map_some, decide_true, if_true]
      congr 1
      omega
    · rw [List.getElem?_set_ne hkS]
      simp [hkS]

theorem histogram_ok (r : SetVecResult) :
    ∃ h, r.histogram = .ok h ∧ h.length = r.max + 1 ∧
      ∀ k < r.max + 1, h[k]? = some (r.nodeSets.countP (fun S => decide (S.card = k))) := by
  obtain ⟨h, h1, h2, h3⟩ := histogramLoop_ok r.nodeSets (List.replicate (r.max + 1) 0)
    (fun S hS => by rw [List.length_replicate]; exact Nat.lt_succ_of_le (r.max_spec.1 S hS))
  rw [List.length_replicate] at h2 h3
  refine ⟨h, h1, h2, fun k hk => ?_⟩
  rw [h3 k hk, List.getElem?_replicate_of_lt hk]
  simp

theorem sum_countP (l : List NodeSet) (n : ℕ) (hl : ∀ S ∈ l, S.card < n) :
    ((List.range n).map (fun k => l.countP (fun S => decide (S.card = k)))).sum = l.length := by
  induction l with
  | nil =>
    simp only [List.countP_nil, List.map_const', List.length_nil]
    simp
  | cons S l ih =>
    have h1 := ih (fun T hT => hl T (List.mem_cons_of_mem _ hT))
    have h2 : ((List.range n).map (fun k => if S.card = k then 1 else 0)).sum = 1 := by
      have : ∀ n, S.card < n → ((List.range n).map (fun k => if S.card = k then 1 else 0)).sum = 1 := by
        intro n hn
        induction n with
        | zero => omega
        | succ n ih =>
          rw [List.range_succ, List.map_append, List.sum_append]
          by_cases h : S.card = n
          · have : ∀ k ∈ List.range n, (if S.card = k then 1 else 0) = 0 := by
              intro k hk; rw [List.mem_range] at hk; rw [if_neg (by omega)]
            rw [List.map_congr_left this]
            simp [h]
          · rw [ih (by omega)]; simp [h]
      exact this n (hl S List.mem_cons_self)
    simp only [List.countP_cons, List.length_cons, decide_eq_true_eq]
    rw [List.sum_map_add, h1, h2]

end SetVecResult
end FA
