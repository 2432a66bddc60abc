import Verif.Lemmas.Graph

/-!
# Lemmas about full mesh and tiered full mesh graphs
-/

namespace FA
open Spec

theorem link_newFullMesh {n i j : ℕ} :
    Link (Graph.newFullMesh n) i j ↔ i < n ∧ j < n ∧ i ≠ j := by
  unfold Link Graph.newFullMesh
  simp only [List.getElem?_map, Option.map_eq_some_iff, List.getElem?_eq_some_iff,
    List.length_range, List.getElem_range]
  constructor
  · rintro ⟨l, ⟨a, ⟨h, rfl⟩, rfl⟩, hj⟩
    simp at hj
    omega
  · rintro ⟨h1, h2, h3⟩
    refine ⟨_, ⟨i, ⟨h1, rfl⟩, rfl⟩, ?_⟩
    simp
    omega

theorem othersInRange {a b i : ℕ} :
    (rangeFT a i ++ rangeFT (i + 1) b).Pairwise (· < ·) := by
  rw [List.pairwise_append]
  refine ⟨sorted_rangeFT _ _, sorted_rangeFT _ _, fun x hx y hy => ?_⟩
  rw [mem_rangeFT] at hx hy; omega

theorem nodup_of_sorted {l : List ℕ} (h : l.Pairwise (· < ·)) : l.Nodup :=
  h.imp (fun h => Nat.ne_of_lt h)

theorem inTier_append {pre : List ℕ} {a t x : ℕ} :
    InTier (pre ++ [a]) t x ↔
      InTier pre t x ∨ (t = pre.length ∧ pre.sum ≤ x ∧ x < pre.sum + a) := by
  unfold InTier
  rcases Nat.lt_trichotomy t pre.length with h | h | h
  · rw [List.take_append_of_le_length (by omega), List.take_append_of_le_length (by omega)]
    simp only [List.length_append, List.length_singleton]
    omega
  · subst h
    rw [List.take_append_of_le_length (Nat.le_refl _), List.take_length,
      List.take_of_length_le (by simp)]
    simp
  · simp only [List.length_append, List.length_singleton]
    omega

theorem _root_.FA.Spec.InTier.lt {sizes : List ℕ} {t x : ℕ} (h : InTier sizes t x) : x < sizes.sum := by
  have h1 := h.2.2
  have : sizes.sum = (sizes.take (t + 1)).sum + (sizes.drop (t + 1)).sum := by
    rw [← List.sum_append, List.take_append_drop]
  omega

theorem take_sum_mono {sizes : List ℕ} {a b : ℕ} (h : a ≤ b) :
    (sizes.take a).sum ≤ (sizes.take b).sum := by
  have : sizes.take b = sizes.take a ++ (sizes.take b).drop a := by
    conv_lhs => rw [← List.take_append_drop a (sizes.take b), List.take_take, Nat.min_eq_left h]
  rw [this, List.sum_append]; omega

theorem _root_.FA.Spec.InTier.unique {sizes : List ℕ} {t t' x : ℕ} (h : InTier sizes t x)
    (h' : InTier sizes t' x) : t = t' := by
  by_contra hne
  rcases Nat.lt_or_gt_of_ne hne with hlt | hlt
  · have := take_sum_mono (sizes := sizes) (show t + 1 ≤ t' from hlt)
    have h1 := h.2.2
    have h2 := h'.2.1
    omega
  · have := take_sum_mono (sizes := sizes) (show t' + 1 ≤ t from hlt)
    have h1 := h'.2.2
    have h2 := h.2.1
    omega

/-- Documented links between tiers. -/
def TierLink (sizes : List ℕ) (x y : ℕ) : Prop :=
  x ≠ y ∧ ∃ t, (InTier sizes t x ∧ InTier sizes t y) ∨ (InTier sizes (t + 1) x ∧ InTier sizes t y)

/-- Invariant of the outer loop. -/
def TierInv (N : ℕ) (pre : List ℕ) (st : List (List NodeId) × List NodeId) : Prop :=
  st.1.length = N ∧ st.2 = rangeFT pre.dropLast.sum pre.sum ∧
    ∀ (x : ℕ) (l : List NodeId), st.1[x]? = some l →
      l.Nodup ∧ ∀ y, y ∈ l ↔ TierLink pre x y

theorem not_tierLink_of_ge {pre : List ℕ} {x y : ℕ} (h : pre.sum ≤ x) :
    ¬ TierLink pre x y := by
  rintro ⟨-, t, ⟨h1, -⟩ | ⟨h1, -⟩⟩ <;> · have := h1.lt; omega

theorem tierStep_spec {N : ℕ} {pre : List ℕ} {a : ℕ} {st : List (List NodeId) × List ℕ}
    (hN : pre.sum + a ≤ N)
    (hpos : 0 < a → pre.sum = 0 ∨ ∃ b, pre.getLast? = some b ∧ 0 < b)
    (h : TierInv N pre st) :
    ∃ st', Graph.tierStep st a = .ok st' ∧ TierInv N (pre ++ [a]) st' := by
  obtain ⟨o, higher⟩ := st
  obtain ⟨h1, h2, h3⟩ := h
  dsimp only at h1 h2 h3
  rcases Nat.eq_zero_or_pos a with rfl | ha
  · refine ⟨(o, []), ?_, h1, ?_, ?_⟩
    · unfold Graph.tierStep
      simp [rangeFT_self, foldE]
    · simp [rangeFT_self]
    · intro x l hl
      obtain ⟨g1, g2⟩ := h3 x l hl
      refine ⟨g1, fun y => ?_⟩
      rw [g2]
      have : ∀ t x, InTier (pre ++ [0]) t x ↔ InTier pre t x := by
        intro t x; rw [inTier_append]
        constructor
        · rintro (h | h)
          · exact h
          · omega
        · exact .inl
      unfold TierLink
      simp only [this]
  · set S := pre.sum with hS
    have hlast : Graph.nextTierStart higher = S := by
      unfold Graph.nextTierStart
      rw [h2]
      rcases hpos ha with h | ⟨b, hb, hb0⟩
      · have : (rangeFT pre.dropLast.sum pre.sum) = [] := by
          rw [← hS, h]; simp [rangeFT]
        rw [← hS] at this
        rw [this]; exact h.symm
      · obtain ⟨ys, hys⟩ := List.getLast?_eq_some_iff.1 hb
        have hsum : S = pre.dropLast.sum + b := by rw [hS, hys]; simp
        have : rangeFT pre.dropLast.sum S = rangeFT pre.dropLast.sum (S - 1) ++ [S - 1] := by
          conv_lhs => rw [show S = (S - 1) + 1 by omega]
          rw [rangeFT_succ (by omega)]
        rw [this, List.getLast?_concat]
        show S - 1 + 1 = S
        omega
    have hm : ∀ y, y ∈ higher ↔ ∃ t, t + 1 = pre.length ∧ InTier pre t y := by
      intro y
      rw [h2, mem_rangeFT]
      unfold InTier
      cases hp : pre with
      | nil => simp [hS, hp]
      | cons p ps =>
        have hd : pre.dropLast = pre.take (pre.length - 1) := List.dropLast_eq_take
        have hlen : pre.length = ps.length + 1 := by rw [hp, List.length_cons]
        rw [hlen, Nat.add_sub_cancel] at hd
        rw [hp] at hd
        rw [hd]
        constructor
        · rintro ⟨h4, h5⟩
          refine ⟨ps.length, by rw [List.length_cons], by simp, h4, ?_⟩
          rw [List.take_of_length_le (by simp)]
          rw [hS, hp] at h5; exact h5
        · rintro ⟨t, ht, -, h5, h6⟩
          rw [List.length_cons] at ht
          obtain rfl : t = ps.length := by omega
          refine ⟨h5, ?_⟩
          rw [List.take_of_length_le (by simp)] at h6
          rw [hS, hp]; exact h6
    have hnd : higher.Nodup := by rw [h2]; exact nodup_rangeFT _ _
    -- the inner loop
    obtain ⟨o', e1, e2, e3⟩ := foldE_range
      (g := fun o i => modifyE o i (fun l => l ++ higher ++
        (rangeFT S i ++ rangeFT (i + 1) (S + a))))
      (fun i o' => o'.length = N ∧ ∀ x, o'[x]? = if S ≤ x ∧ x < i then
          (o[x]?).map (fun l => l ++ higher ++ (rangeFT S x ++ rangeFT (x + 1) (S + a)))
        else o[x]?)
      (lo := S) (hi := S + a) (by omega) (b := o)
      ⟨h1, fun x => by rw [if_neg (by omega)]⟩ (by
        intro i b hi1 hi2 ⟨hb1, hb2⟩
        obtain ⟨b', g1, g2, g3⟩ := modifyE_spec (v := b) (i := i)
          (g := fun l => l ++ higher ++ (rangeFT S i ++ rangeFT (i + 1) (S + a))) (by omega)
        refine ⟨b', g1, g2.trans hb1, fun x => ?_⟩
        rw [g3, hb2]
        by_cases hx : x = i
        · subst hx
          rw [if_pos rfl, if_neg (by omega), if_pos (by omega)]
        · rw [if_neg hx]
          by_cases hx2 : S ≤ x ∧ x < i
          · rw [if_pos hx2, if_pos (by omega)]
          · rw [if_neg hx2, if_neg (by omega)])
    refine ⟨(o', rangeFT S (S + a)), ?_, e2, ?_, ?_⟩
    · unfold Graph.tierStep
      dsimp only
      rw [hlast, e1]
    · simp [hS]
    · intro x l hl
      dsimp only at hl
      rw [e3] at hl
      by_cases hx : S ≤ x ∧ x < S + a
      · rw [if_pos hx] at hl
        obtain ⟨l0, hl0, rfl⟩ := Option.map_eq_some_iff.1 hl
        obtain ⟨g1, g2⟩ := h3 x l0 hl0
        have hl0' : l0 = [] := by
          rw [List.eq_nil_iff_forall_not_mem]
          intro y hy
          exact not_tierLink_of_ge hx.1 ((g2 y).1 hy)
        subst hl0'
        have hlow : ∀ y ∈ higher, y < S := fun y hy => by
          obtain ⟨t, -, h⟩ := (hm y).1 hy
          exact h.lt
        constructor
        · rw [List.nil_append, List.nodup_append']
          refine ⟨hnd, nodup_of_sorted othersInRange, fun y hy hy' => ?_⟩
          have h4 := hlow y hy
          rw [List.mem_append, mem_rangeFT, mem_rangeFT] at hy'
          omega
        · intro y
          rw [List.nil_append, List.mem_append, List.mem_append, hm, mem_rangeFT, mem_rangeFT]
          have htx : InTier (pre ++ [a]) pre.length x := inTier_append.2 (.inr ⟨rfl, hx⟩)
          constructor
          · rintro (⟨t, ht, hy⟩ | hy)
            · refine ⟨fun he => ?_, t, .inr ⟨by rw [ht]; exact htx, inTier_append.2 (.inl hy)⟩⟩
              have := hy.lt; omega
            · refine ⟨by omega, pre.length, .inl ⟨htx, inTier_append.2 (.inr ⟨rfl, by omega⟩)⟩⟩
          · rintro ⟨hne, t, ⟨h4, h5⟩ | ⟨h4, h5⟩⟩
            · have := h4.unique htx
              subst this
              right
              rcases inTier_append.1 h5 with h | h
              · exact absurd h.1 (Nat.lt_irrefl _)
              · omega
            · have := h4.unique htx
              left
              refine ⟨t, this, ?_⟩
              rcases inTier_append.1 h5 with h | h
              · exact h
              · omega
      · rw [if_neg hx] at hl
        obtain ⟨g1, g2⟩ := h3 x l hl
        refine ⟨g1, fun y => ?_⟩
        rw [g2]
        have hix : ∀ t, InTier (pre ++ [a]) t x ↔ InTier pre t x := by
          intro t
          rw [inTier_append]
          exact ⟨fun h => h.elim id (fun h => absurd ⟨h.2.1, h.2.2⟩ hx), .inl⟩
        unfold TierLink
        simp only [hix]
        constructor
        · rintro ⟨hne, t, ⟨h4, h5⟩ | ⟨h4, h5⟩⟩
          · exact ⟨hne, t, .inl ⟨h4, inTier_append.2 (.inl h5)⟩⟩
          · exact ⟨hne, t, .inr ⟨h4, inTier_append.2 (.inl h5)⟩⟩
        · rintro ⟨hne, t, ⟨h4, h5⟩ | ⟨h4, h5⟩⟩
          · refine ⟨hne, t, .inl ⟨h4, ?_⟩⟩
            rcases inTier_append.1 h5 with h | h
            · exact h
            · have := h4.1; omega
          · refine ⟨hne, t, .inr ⟨h4, ?_⟩⟩
            rcases inTier_append.1 h5 with h | h
            · exact h
            · have := h4.1; omega

/-- Every non-empty tier is the first non-empty one or directly follows a non-empty one. -/
def Contiguous (sizes : List ℕ) : Prop :=
  ∀ pre a suf, sizes = pre ++ a :: suf → 0 < a → pre.sum = 0 ∨ ∃ b, pre.getLast? = some b ∧ 0 < b

theorem newTieredFullMesh_spec {sizes : List ℕ} (h : Contiguous sizes) :
    ∃ g, Graph.newTieredFullMesh sizes = .ok g ∧ g.outlinks.length = sizes.sum ∧
      (∀ (x : ℕ) (l : List NodeId), g.outlinks[x]? = some l → l.Nodup) ∧
      ∀ x y, Link g x y ↔ TierLink sizes x y := by
  obtain ⟨⟨o, hi⟩, h1, h2, -, h3⟩ := foldE_inv (g := Graph.tierStep) (TierInv sizes.sum)
    (l := sizes) (b := (List.replicate sizes.sum [], [])) (by
      refine ⟨by simp, rfl, fun x l hl => ?_⟩
      obtain ⟨-, rfl⟩ : x < sizes.sum ∧ [] = l := by simpa [List.getElem?_replicate] using hl
      refine ⟨List.nodup_nil, fun y => ?_⟩
      simp only [List.not_mem_nil, false_iff]
      exact not_tierLink_of_ge (Nat.zero_le _)) (by
      intro pre a suf b hs hP
      exact tierStep_spec (by rw [hs]; simp) (h pre a suf hs) hP)
  dsimp only at h2 h3
  refine ⟨⟨o⟩, by unfold Graph.newTieredFullMesh; rw [h1], h2, fun x l hl => (h3 x l hl).1,
    fun x y => ?_⟩
  constructor
  · rintro ⟨l, hl, hy⟩
    exact ((h3 x l hl).2 y).1 hy
  · intro hxy
    have hx : x < o.length := by
      rw [h2]
      by_contra hn
      exact not_tierLink_of_ge (Nat.not_lt.1 hn) hxy
    exact ⟨_, List.getElem?_eq_getElem hx,
      ((h3 x _ (List.getElem?_eq_getElem hx)).2 y).2 hxy⟩

end FA
