import Verif.Lemmas.Threshold
import Verif.SpecRange
import Verif.SpecThreshold
import Mathlib.Data.Finset.Max

/-!
# Networks in which nodes choose at random whom to trust
-/

namespace FA
open Spec

/-- The threshold for `k` validators: a majority, and at least two of two or more. -/
theorem thresholdFor_bounds {k t : ℕ} (h : ThresholdFor none k t) (hk : 1 ≤ k) :
    1 ≤ t ∧ t ≤ k ∧ k < 2 * t ∧ (2 ≤ k → 2 ≤ t) := by
  have h1 := (h t).1 (Nat.le_refl _)
  have h2 := (h k).2 (.inr (by omega))
  omega

/-- All nodes have a flat quorum set as described by `CanTrust`, with threshold `t`. -/
def Chosen (size i n t : ℕ) (f : Fbas) : Prop :=
  f.nodes.length = n ∧ ∀ x q, HasQSet f x q → ∃ vs, q = ⟨t, vs, []⟩ ∧ vs.Nodup ∧ CanTrust size i n x vs.toFinset

variable {size i n t : ℕ} {f : Fbas}

theorem slice_card_iff {Q : NodeSet} {vs : List NodeId} (h : vs.Nodup) :
    Slice Q ⟨t, vs, []⟩ ↔ 1 ≤ t ∧ t ≤ (vs.toFinset ∩ Q).card := by
  rw [slice_flat_iff, ← List.toFinset_card_of_nodup (h.filter _)]
  have : (vs.filter (fun x => decide (x ∈ Q))).toFinset = vs.toFinset ∩ Q := by
    ext x; simp
  rw [this]

theorem hasQSet_of_lt {x : ℕ} (h : x < f.nodes.length) : ∃ q, HasQSet f x q :=
  ⟨_, _, List.getElem?_eq_getElem h, rfl⟩

/-- All nodes together form a quorum. -/
theorem Chosen.quorum (h : Chosen size i n t f) (hin : i ≤ n) (hn : 1 ≤ n) (h1 : 1 ≤ t)
    (h2 : t ≤ min size n) : IsQuorum f (Finset.range n) := by
  refine ⟨⟨0, Finset.mem_range.2 hn⟩, fun x hx => ?_⟩
  have hx' : x < n := Finset.mem_range.1 hx
  obtain ⟨q, hq⟩ := hasQSet_of_lt (f := f) (x := x) (by rw [h.1]; exact hx')
  obtain ⟨vs, rfl, hnd, hc⟩ := h.2 x q hq
  refine ⟨_, hq, (slice_card_iff hnd).2 ⟨h1, ?_⟩⟩
  rw [Finset.inter_eq_left.2 (fun v hv => Finset.mem_range.2 ?_), hc.card]
  · exact h2
  · have key : ∀ a b : ℕ, b < n → a < max (b + 1) (max i (min size n)) → a < n := by omega
    exact key v x hx' (hc.near v hv)

/-- Each quorum contains as many early nodes as the threshold demands. -/
theorem Chosen.early (h : Chosen size i n t f) (h2 : 2 ≤ min size n → 2 ≤ t) (hs : 1 < size)
    {Q : NodeSet} (hQ : IsQuorum f Q) :
    t ≤ (Finset.range (max i (min size n)) ∩ Q).card := by
  have hm := Finset.min'_mem Q hQ.1
  obtain ⟨q, hq, hsl⟩ := hQ.2 _ hm
  obtain ⟨vs, rfl, hnd, hc⟩ := h.2 _ q hq
  have hlt : Q.min' hQ.1 < n := by
    obtain ⟨node, hn, -⟩ := hq
    rw [← h.1]; exact (List.getElem?_eq_some_iff.1 hn).1
  have hcard := ((slice_card_iff hnd).1 hsl).2
  by_cases hlo : Q.min' hQ.1 < max i (min size n)
  · refine hcard.trans (Finset.card_le_card (fun v hv => ?_))
    rw [Finset.mem_inter] at hv ⊢
    refine ⟨Finset.mem_range.2 ?_, hv.2⟩
    have key : ∀ a b c : ℕ, b < c → a < max (b + 1) c → a < c := by omega
    exact key v _ _ hlo (hc.near v hv.1)
  · exfalso
    have h3 : vs.toFinset ∩ Q ⊆ {Q.min' hQ.1} := by
      intro v hv
      rw [Finset.mem_inter] at hv
      have key : ∀ a b c : ℕ, ¬ b < c → a < max (b + 1) c → b ≤ a → a = b := by omega
      exact Finset.mem_singleton.2 (key v _ _ hlo (hc.near v hv.1) (Finset.min'_le Q v hv.2))
    have h4 := hcard.trans (Finset.card_le_card h3)
    rw [Finset.card_singleton] at h4
    have key : ∀ b : ℕ, b < n → ¬ b < max i (min size n) → False := by omega
    exact key _ hlt hlo

/-- With fewer than `2 * t` early nodes all quorums intersect. -/
theorem Chosen.intersection (h : Chosen size i n t f) (hin : i ≤ n) (hn : 1 ≤ n) (hs : 1 < size)
    (ht : ThresholdFor none (min size n) t) (hi : i < 2 * t) : QuorumIntersection f := by
  obtain ⟨h1, h2, h3, h4⟩ := thresholdFor_bounds ht (by omega)
  refine ⟨⟨_, h.quorum hin hn h1 h2⟩, fun Q₁ Q₂ hQ₁ hQ₂ => ?_⟩
  have e1 := h.early h4 hs hQ₁
  have e2 := h.early h4 hs hQ₂
  by_contra hne
  push Not at hne
  have hd : Disjoint (Finset.range (max i (min size n)) ∩ Q₁) (Finset.range (max i (min size n)) ∩ Q₂) := by
    rw [Finset.disjoint_left]
    intro x hx hx'
    exact hne x (Finset.mem_inter.1 hx).2 (Finset.mem_inter.1 hx').2
  have h5 := Finset.card_le_card (Finset.union_subset
    (Finset.inter_subset_left (s₁ := Finset.range (max i (min size n))) (s₂ := Q₁))
    (Finset.inter_subset_left (s₁ := Finset.range (max i (min size n))) (s₂ := Q₂)))
  rw [Finset.card_union_of_disjoint hd, Finset.card_range] at h5
  omega

/-- Choices with two groups that only need themselves. -/
def twoGroups (size t : ℕ) (x : NodeId) : Finset NodeId :=
  if x < t then Finset.range size
  else if x < 2 * t then Finset.Ico (2 * t - size) (2 * t)
  else insert x (Finset.range (size - 1))

theorem canTrust_twoGroups (hin : i ≤ n) (hs : 1 < size) (h2 : t ≤ size) (h3 : size < 2 * t) (hi : 2 * t ≤ i)
    {x : ℕ} (hx : x < n) : CanTrust size i n x (twoGroups size t x) := by
  have hmin : min size n = size := by omega
  have near : ∀ a : ℕ, a < i → a < max (x + 1) (max i (min size n)) := by
    intro a ha
    exact lt_of_lt_of_le ha ((le_max_left _ _).trans (le_max_right _ _))
  have hsi : size ≤ i := by omega
  unfold twoGroups
  by_cases c1 : x < t
  · rw [if_pos c1]
    exact ⟨Finset.mem_range.2 (lt_of_lt_of_le c1 h2), by rw [Finset.card_range, hmin],
      fun v hv => near v (lt_of_lt_of_le (Finset.mem_range.1 hv) hsi)⟩
  · rw [if_neg c1]
    by_cases c2 : x < 2 * t
    · rw [if_pos c2]
      have e1 : 2 * t - size ≤ x := by omega
      have e2 : 2 * t - (2 * t - size) = size := by omega
      exact ⟨Finset.mem_Ico.2 ⟨e1, c2⟩, by rw [Nat.card_Ico, hmin, e2],
        fun v hv => near v (lt_of_lt_of_le (Finset.mem_Ico.1 hv).2 hi)⟩
    · rw [if_neg c2]
      have e1 : ¬ x < size - 1 := by omega
      have e2 : size - 1 + 1 = size := by omega
      refine ⟨Finset.mem_insert_self _ _, ?_, fun v hv => ?_⟩
      · rw [Finset.card_insert_of_notMem (fun h => e1 (Finset.mem_range.1 h)), Finset.card_range, hmin, e2]
      · rcases Finset.mem_insert.1 hv with rfl | hv
        · exact lt_of_lt_of_le (Nat.lt_succ_self _) (le_max_left _ _)
        · have e3 : ∀ a : ℕ, a < size - 1 → a < i := by omega
          exact near v (e3 v (Finset.mem_range.1 hv))

/-- The two groups are quorums. -/
theorem twoGroups_split (hn : f.nodes.length = n) (hin : i ≤ n) (h1 : 1 ≤ t) (h2 : t ≤ size) (h3 : size < 2 * t)
    (hi : 2 * t ≤ i)
    (h : ∀ x q, HasQSet f x q → ∃ vs, q = ⟨t, vs, []⟩ ∧ vs.Nodup ∧ vs.toFinset = twoGroups size t x) :
    ∃ Q₁ Q₂, IsQuorum f Q₁ ∧ IsQuorum f Q₂ ∧ ∀ x ∈ Q₁, x ∉ Q₂ := by
  have key : ∀ Q : NodeSet, Q.Nonempty → Q.card = t →
      (∀ x ∈ Q, x < n ∧ Q ⊆ twoGroups size t x) → IsQuorum f Q := by
    intro Q hne hc hQ
    refine ⟨hne, fun x hx => ?_⟩
    obtain ⟨q, hq⟩ := hasQSet_of_lt (f := f) (x := x) (by rw [hn]; exact (hQ x hx).1)
    obtain ⟨vs, rfl, hnd, hv⟩ := h x q hq
    refine ⟨_, hq, (slice_card_iff hnd).2 ⟨h1, ?_⟩⟩
    rw [hv, Finset.inter_eq_right.2 (hQ x hx).2, hc]
  refine ⟨Finset.range t, Finset.Ico t (2 * t), key _ ⟨0, Finset.mem_range.2 h1⟩ (Finset.card_range t) ?_,
    key _ ⟨t, Finset.mem_Ico.2 ⟨Nat.le_refl _, by omega⟩⟩ (by rw [Nat.card_Ico]; omega) ?_, ?_⟩
  · intro x hx
    have hx := Finset.mem_range.1 hx
    refine ⟨by revert hx; generalize (x : ℕ) = a; intro h; omega, ?_⟩
    rw [twoGroups, if_pos hx]
    exact Finset.range_subset_range.2 h2
  · intro x hx
    have hx := Finset.mem_Ico.1 hx
    refine ⟨by revert hx; generalize (x : ℕ) = a; intro h; omega, ?_⟩
    rw [twoGroups, if_neg (Nat.not_lt.2 hx.1), if_pos hx.2]
    exact Finset.Ico_subset_Ico (by omega) (Nat.le_refl _)
  · intro x hx hx'
    exact absurd (Finset.mem_range.1 hx) (Nat.not_lt.2 (Finset.mem_Ico.1 hx').1)

/-! ### Nodes that nobody chooses -/

/-- If only nodes in `P` are chosen by others, each quorum contains as many of them as the threshold demands. -/
theorem Chosen.earlyFamous (h : Chosen size i n t f) (h2 : 2 ≤ t) (hs : 1 < size) {P : Finset NodeId}
    (hP : ∀ x q, HasQSet f x q → ∀ v ∈ q.validators, v ≠ x → v < max i (min size n) → v ∈ P)
    {Q : NodeSet} (hQ : IsQuorum f Q) : t ≤ (P ∩ Q).card := by
  have he := h.early (fun _ => h2) hs hQ
  obtain ⟨x, hx⟩ : (Finset.range (max i (min size n)) ∩ Q).Nonempty := by
    rw [← Finset.card_pos]; omega
  obtain ⟨hx1, hx2⟩ := Finset.mem_inter.1 hx
  have hnear : ∀ y : ℕ, y < max i (min size n) → y ∈ Q → ∃ vs : List NodeId, HasQSet f y ⟨t, vs, []⟩ ∧
      t ≤ (vs.toFinset ∩ Q).card ∧ ∀ v ∈ vs, v < max i (min size n) := by
    intro y hy hyQ
    obtain ⟨q, hq, hsl⟩ := hQ.2 y hyQ
    obtain ⟨vs, rfl, hnd, hc⟩ := h.2 y q hq
    refine ⟨vs, hq, ((slice_card_iff hnd).1 hsl).2, fun v hv => ?_⟩
    have key : ∀ a b c : ℕ, b < c → a < max (b + 1) c → a < c := by omega
    exact key v _ _ hy (hc.near v (List.mem_toFinset.2 hv))
  obtain ⟨y, hy, hyP, hyQ⟩ : ∃ y : ℕ, y < max i (min size n) ∧ y ∈ P ∧ y ∈ Q := by
    obtain ⟨vs, g1, g2, g3⟩ := hnear x (Finset.mem_range.1 hx1) hx2
    obtain ⟨y, hy, hne⟩ := Finset.exists_mem_ne (s := vs.toFinset ∩ Q) (by omega) x
    obtain ⟨hy1, hy2⟩ := Finset.mem_inter.1 hy
    have hy1 := List.mem_toFinset.1 hy1
    exact ⟨y, g3 y hy1, hP x _ g1 y hy1 hne (g3 y hy1), hy2⟩
  obtain ⟨vs, g1, g2, g3⟩ := hnear y hy hyQ
  refine g2.trans (Finset.card_le_card (fun v hv => ?_))
  obtain ⟨hv1, hv2⟩ := Finset.mem_inter.1 hv
  have hv1 := List.mem_toFinset.1 hv1
  refine Finset.mem_inter.2 ⟨?_, hv2⟩
  by_cases hne : v = y
  · rw [hne]; exact hyP
  · exact hP y _ g1 v hv1 hne (g3 v hv1)

/-- With fewer than `2 * t` nodes that can be chosen all quorums intersect. -/
theorem Chosen.intersectionAmong (h : Chosen size i n t f) (hin : i ≤ n) (hn : 2 ≤ n) (hs : 1 < size)
    (h2 : t ≤ min size n) (h4 : 2 ≤ t) {P : Finset NodeId}
    (hP : ∀ x q, HasQSet f x q → ∀ v ∈ q.validators, v ≠ x → v < max i (min size n) → v ∈ P)
    (hi : P.card < 2 * t) : QuorumIntersection f := by
  refine ⟨⟨_, h.quorum hin (by omega) (by omega) h2⟩, fun Q₁ Q₂ hQ₁ hQ₂ => ?_⟩
  have e1 := h.earlyFamous h4 hs hP hQ₁
  have e2 := h.earlyFamous h4 hs hP hQ₂
  by_contra hne
  push Not at hne
  have hd : Disjoint (P ∩ Q₁) (P ∩ Q₂) := by
    rw [Finset.disjoint_left]
    intro x hx hx'
    exact hne x (Finset.mem_inter.1 hx).2 (Finset.mem_inter.1 hx').2
  have h5 := Finset.card_le_card (Finset.union_subset
    (Finset.inter_subset_left (s₁ := P) (s₂ := Q₁)) (Finset.inter_subset_left (s₁ := P) (s₂ := Q₂)))
  rw [Finset.card_union_of_disjoint hd] at h5
  omega

theorem Chosen.intersectionFamous (h : Chosen size i n t f) (hin : i ≤ n) (hn : 2 ≤ n) (hs : 1 < size)
    (ht : ThresholdFor none (min size n) t) {P : Finset NodeId}
    (hP : ∀ x q, HasQSet f x q → ∀ v ∈ q.validators, v ≠ x → v < max i (min size n) → v ∈ P)
    (hi : P.card < 2 * t) : QuorumIntersection f := by
  obtain ⟨h1, h2, h3, h4⟩ := thresholdFor_bounds ht (by omega)
  exact h.intersectionAmong hin hn hs h2 (h4 (by omega)) hP hi

/-- With `2 * t` nodes that can be chosen, two groups of them can ignore each other. -/
theorem two_groups_among {P : Finset NodeId} (hin : i ≤ n) (hs : 1 < size) (h2 : t ≤ min size n)
    (hk : min size n ≤ P.card) (hPr : ∀ v ∈ P, v < max i (min size n)) (hP : 2 * t ≤ P.card) :
    ∃ (A B : Finset NodeId) (V : NodeId → Finset NodeId), A.card = t ∧ B.card = t ∧ Disjoint A B ∧
      (∀ x ∈ A, x < n ∧ A ⊆ V x) ∧ (∀ x ∈ B, x < n ∧ B ⊆ V x) ∧ (∀ x < n, CanTrust size i n x (V x)) ∧
      ∀ x < n, ∀ v ∈ V x, v = x ∨ v ∈ P := by
  classical
  obtain ⟨A, hA, hAc⟩ := Finset.exists_subset_card_eq (s := P) (n := t) (by omega)
  obtain ⟨B, hB, hBc⟩ := Finset.exists_subset_card_eq (s := P \ A) (n := t) (by
    rw [Finset.card_sdiff_of_subset hA]; omega)
  have hBP : B ⊆ P := hB.trans Finset.sdiff_subset
  obtain ⟨SA, hSA1, hSA2, hSA3⟩ := Finset.exists_subsuperset_card_eq hA (n := min size n) (by omega) (by omega)
  obtain ⟨SB, hSB1, hSB2, hSB3⟩ := Finset.exists_subsuperset_card_eq hBP (n := min size n) (by omega) (by omega)
  have hT : ∀ x : NodeId, ∃ T : Finset NodeId, T ⊆ P.erase x ∧ T.card = min size n - 1 := fun x =>
    Finset.exists_subset_card_eq (by
      have := Finset.pred_card_le_card_erase (s := P) (a := x)
      omega)
  choose T hT1 hT2 using hT
  have hd : Disjoint A B := by
    rw [Finset.disjoint_left]
    exact fun x hx hx' => (Finset.mem_sdiff.1 (hB hx')).2 hx
  have near : ∀ x a : ℕ, a < max i (min size n) → a < max (x + 1) (max i (min size n)) := by
    intro x a ha
    exact lt_of_lt_of_le ha (le_max_right _ _)
  have hlt : ∀ x ∈ P, x < n := fun x hx => lt_of_lt_of_le (hPr x hx) (max_le hin (min_le_right _ _))
  refine ⟨A, B, fun x => if x ∈ A then SA else if x ∈ B then SB else insert x (T x), hAc, hBc, hd,
    fun x hx => ⟨hlt x (hA hx), ?_⟩, fun x hx => ⟨hlt x (hBP hx), ?_⟩, fun x hx => ?_, fun x hx v hv => ?_⟩
  · dsimp only
    rw [if_pos hx]; exact hSA1
  · dsimp only
    rw [if_neg (fun h => Finset.disjoint_left.1 hd h hx), if_pos hx]; exact hSB1
  · dsimp only
    split
    · rename_i hxA
      exact ⟨hSA1 hxA, hSA3, fun v hv => near x v (hPr v (hSA2 hv))⟩
    · split
      · rename_i hxB
        exact ⟨hSB1 hxB, hSB3, fun v hv => near x v (hPr v (hSB2 hv))⟩
      · refine ⟨Finset.mem_insert_self _ _, ?_, fun v hv => ?_⟩
        · rw [Finset.card_insert_of_notMem (fun h => Finset.notMem_erase x P (hT1 x h)), hT2]
          have key : ∀ x : ℕ, x < n → min size n - 1 + 1 = min size n := by omega
          exact key x hx
        · rcases Finset.mem_insert.1 hv with rfl | hv
          · exact lt_of_lt_of_le (Nat.lt_succ_self _) (le_max_left _ _)
          · exact near x v (hPr v (Finset.mem_of_mem_erase (hT1 x hv)))
  · dsimp only at hv
    split at hv
    · exact .inr (hSA2 hv)
    · split at hv
      · exact .inr (hSB2 hv)
      · rcases Finset.mem_insert.1 hv with h | h
        · exact .inl h
        · exact .inr (Finset.mem_of_mem_erase (hT1 x h))

theorem two_famous_groups {P : Finset NodeId} (hin : i ≤ n) (hs : 1 < size) (ht : ThresholdFor none (min size n) t)
    (hPr : ∀ v ∈ P, v < max i (min size n)) (hP : 2 * t ≤ P.card) :
    ∃ (A B : Finset NodeId) (V : NodeId → Finset NodeId), A.card = t ∧ B.card = t ∧ Disjoint A B ∧
      (∀ x ∈ A, x < n ∧ A ⊆ V x) ∧ (∀ x ∈ B, x < n ∧ B ⊆ V x) ∧ (∀ x < n, CanTrust size i n x (V x)) ∧
      ∀ x < n, ∀ v ∈ V x, v = x ∨ v ∈ P := by
  rcases Nat.eq_zero_or_pos n with h0 | hn
  · have hPc := Finset.card_le_card
      (fun v hv => Finset.mem_range.2 (hPr v hv) : P ⊆ Finset.range (max i (min size n)))
    rw [Finset.card_range] at hPc
    exact two_groups_among hin hs (by omega) (by omega) hPr hP
  · obtain ⟨h1, h2, h3, h4⟩ := thresholdFor_bounds ht (by omega)
    exact two_groups_among hin hs h2 (by omega) hPr hP

/-- Groups that need only themselves are quorums. -/
theorem group_quorum {A : Finset NodeId} {V : NodeId → Finset NodeId} (hn : f.nodes.length = n) (h1 : 1 ≤ t)
    (hc : A.card = t) (hA : ∀ x ∈ A, x < n ∧ A ⊆ V x)
    (h : ∀ x q, HasQSet f x q → ∃ vs, q = ⟨t, vs, []⟩ ∧ vs.Nodup ∧ vs.toFinset = V x) : IsQuorum f A := by
  refine ⟨Finset.card_pos.1 (by omega), fun x hx => ?_⟩
  obtain ⟨q, hq⟩ := hasQSet_of_lt (f := f) (x := x) (by rw [hn]; exact (hA x hx).1)
  obtain ⟨vs, rfl, hnd, hv⟩ := h x q hq
  refine ⟨_, hq, (slice_card_iff hnd).2 ⟨h1, ?_⟩⟩
  rw [hv, Finset.inter_eq_right.2 (hA x hx).2, hc]

end FA
