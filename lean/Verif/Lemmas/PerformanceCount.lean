import Verif.Lemmas.Performance
import Mathlib.Data.Finset.Powerset
import Mathlib.Data.Finset.Pi
import Mathlib.Algebra.BigOperators.Ring.Finset
import Mathlib.Algebra.BigOperators.Fin
import Mathlib.Algebra.Order.Field.Rat

/-!
# Minimal sets in the FBASs of the performance experiment, and their number
-/

namespace FA.Bulk
open Spec Props

/-! ### All nodes require `t` of `n` nodes -/

section
variable {f : Fbas} {n t : ℕ}

theorem flat_minQuorum_iff (hq : ∀ Q, IsQuorum f Q ↔ (∀ x ∈ Q, x < n) ∧ t ≤ Q.card) (Q : NodeSet) :
    IsMinQuorum f Q ↔ Q ∈ (Finset.range n).powersetCard t := by
  rw [Finset.mem_powersetCard]
  constructor
  · intro h
    obtain ⟨h1, h2⟩ := (hq Q).1 h.prop
    refine ⟨fun x hx => Finset.mem_range.2 (h1 x hx), ?_⟩
    obtain ⟨P, hP, hc⟩ := Finset.exists_subset_card_eq h2
    have h3 : IsQuorum f P := (hq P).2 ⟨fun x hx => h1 x (hP hx), hc.ge⟩
    have := Finset.card_le_card (h.le_of_le h3 hP)
    omega
  · rintro ⟨h1, h2⟩
    refine ⟨(hq Q).2 ⟨fun x hx => Finset.mem_range.1 (h1 hx), h2.ge⟩, fun P hP hle => ?_⟩
    have h3 := ((hq P).1 hP).2
    rw [Finset.eq_of_subset_of_card_le hle (by omega)]

theorem flat_inTopTier (hq : ∀ Q, IsQuorum f Q ↔ (∀ x ∈ Q, x < n) ∧ t ≤ Q.card) (h1 : 1 ≤ t)
    (h2 : t ≤ n) {x : ℕ} (hx : x < n) : InTopTier f x := by
  obtain ⟨Q, hQ, hQ', hc⟩ := Finset.exists_subsuperset_card_eq (s := {x}) (t := Finset.range n) (n := t)
    (by intro y hy; rw [Finset.mem_singleton.1 hy]; exact Finset.mem_range.2 hx)
    (by simpa using h1) (by simpa using h2)
  exact ⟨Q, (flat_minQuorum_iff hq Q).2 (Finset.mem_powersetCard.2 ⟨hQ', hc⟩), hQ (by simp)⟩

theorem flat_splitting_iff (hq : ∀ Q, IsQuorum f Q ↔ (∀ x ∈ Q, x < n) ∧ t ≤ Q.card) (h2 : t < n)
    (h3 : n ≤ 2 * t) (S : NodeSet) : Splitting f S ↔ 2 * t - n ≤ (S ∩ Finset.range n).card := by
  have hm := flat_minQuorum_iff hq
  constructor
  · rintro ⟨P, Q, hP, hQ, -, hs⟩
    obtain ⟨p1, p2⟩ := Finset.mem_powersetCard.1 ((hm P).1 hP)
    obtain ⟨q1, q2⟩ := Finset.mem_powersetCard.1 ((hm Q).1 hQ)
    have e1 := Finset.card_union_add_card_inter P Q
    have e2 := Finset.card_le_card (Finset.union_subset p1 q1)
    have e3 := Finset.card_le_card (Finset.subset_inter hs (Finset.inter_subset_left.trans p1))
    rw [Finset.card_range] at e2
    omega
  · intro h
    obtain ⟨C, hC, hc⟩ := Finset.exists_subset_card_eq h
    have hCn : C ⊆ Finset.range n := hC.trans Finset.inter_subset_right
    have hr : (Finset.range n \ C).card = 2 * (n - t) := by
      rw [Finset.card_sdiff_of_subset hCn, Finset.card_range, hc]; omega
    obtain ⟨A, hA, hAc⟩ := Finset.exists_subset_card_eq (s := Finset.range n \ C) (n := n - t)
      (by omega)
    have hB : ((Finset.range n \ C) \ A).card = n - t := by
      rw [Finset.card_sdiff_of_subset hA, hr, hAc]; omega
    have dA : Disjoint C A := Finset.disjoint_left.2 fun x hx hx' => (Finset.mem_sdiff.1 (hA hx')).2 hx
    have dB : Disjoint C ((Finset.range n \ C) \ A) := Finset.disjoint_left.2 fun x hx hx' =>
      (Finset.mem_sdiff.1 (Finset.mem_sdiff.1 hx').1).2 hx
    have hsub : ∀ X, X ⊆ Finset.range n \ C → X.card = n - t → Disjoint C X → IsMinQuorum f (C ∪ X) := by
      intro X hX hXc hd
      rw [hm, Finset.mem_powersetCard]
      refine ⟨Finset.union_subset hCn (hX.trans Finset.sdiff_subset), ?_⟩
      rw [Finset.card_union_of_disjoint hd, hc, hXc]; omega
    refine ⟨C ∪ A, C ∪ ((Finset.range n \ C) \ A), hsub A hA hAc dA,
      hsub _ Finset.sdiff_subset hB dB, ?_, ?_⟩
    · intro he
      obtain ⟨x, hx⟩ := Finset.card_pos.1 (show 0 < A.card by omega)
      have : x ∈ C ∪ ((Finset.range n \ C) \ A) := he ▸ Finset.mem_union_right _ hx
      rcases Finset.mem_union.1 this with h | h
      · exact Finset.disjoint_left.1 dA h hx
      · exact (Finset.mem_sdiff.1 h).2 hx
    · intro x hx
      obtain ⟨x1, x2⟩ := Finset.mem_inter.1 hx
      rcases Finset.mem_union.1 x1 with h | h
      · exact Finset.mem_of_mem_inter_left (hC h)
      · rcases Finset.mem_union.1 x2 with h' | h'
        · exact Finset.mem_of_mem_inter_left (hC h')
        · exact absurd h (Finset.mem_sdiff.1 h').2

/-- The minimal sets with at least `k` elements below `n`. -/
theorem minimal_card_iff {P : NodeSet → Prop} {n k : ℕ}
    (hP : ∀ S, P S ↔ k ≤ (S ∩ Finset.range n).card) (S : NodeSet) :
    Minimal P S ↔ S ∈ (Finset.range n).powersetCard k := by
  rw [Finset.mem_powersetCard]
  constructor
  · intro h
    obtain ⟨C, hC, hc⟩ := Finset.exists_subset_card_eq ((hP S).1 h.prop)
    have hC' : C ⊆ Finset.range n := hC.trans Finset.inter_subset_right
    have h1 : P C := by
      rw [hP, Finset.inter_eq_left.2 hC', hc]
    have h2 : S ⊆ C := h.le_of_le h1 (hC.trans Finset.inter_subset_left)
    have h3 : S = C := Finset.Subset.antisymm h2 (hC.trans Finset.inter_subset_left)
    rw [h3]; exact ⟨hC', hc⟩
  · rintro ⟨h1, h2⟩
    refine ⟨(hP S).2 (by rw [Finset.inter_eq_left.2 h1, h2]), fun C hC hle => ?_⟩
    have h3 := (hP C).1 hC
    rw [Finset.inter_eq_left.2 (Finset.Subset.trans hle h1)] at h3
    rw [Finset.eq_of_subset_of_card_le hle (by omega)]

theorem flat_blocking_iff (hq : ∀ Q, IsQuorum f Q ↔ (∀ x ∈ Q, x < n) ∧ t ≤ Q.card) (h2 : t ≤ n)
    (S : NodeSet) : Blocking f S ↔ n - t + 1 ≤ (S ∩ Finset.range n).card := by
  have hc : (Finset.range n \ S).card + (S ∩ Finset.range n).card = n := by
    have := Finset.card_sdiff_add_card_inter (Finset.range n) S
    rw [Finset.card_range] at this
    rwa [Finset.inter_comm S]
  constructor
  · intro h
    by_contra hlt
    obtain ⟨x, h1, h2⟩ := h (Finset.range n \ S)
      ((hq _).2 ⟨fun x hx => Finset.mem_range.1 (Finset.mem_sdiff.1 hx).1, by omega⟩)
    exact (Finset.mem_sdiff.1 h1).2 h2
  · intro h Q hQ
    obtain ⟨h1, h2⟩ := (hq _).1 hQ
    by_contra hno
    have : Q ⊆ Finset.range n \ S := fun x hx =>
      Finset.mem_sdiff.2 ⟨Finset.mem_range.2 (h1 x hx), fun hb => hno ⟨x, hx, hb⟩⟩
    have := Finset.card_le_card this
    omega

theorem flat_intersection (hq : ∀ Q, IsQuorum f Q ↔ (∀ x ∈ Q, x < n) ∧ t ≤ Q.card) (h2 : t ≤ n)
    (h3 : n < 2 * t) : QuorumIntersection f := by
  refine ⟨⟨Finset.range n, (hq _).2 ⟨fun x hx => Finset.mem_range.1 hx, by simpa using h2⟩⟩, ?_⟩
  intro P Q hP hQ
  obtain ⟨a1, a2⟩ := (hq _).1 hP
  obtain ⟨b1, b2⟩ := (hq _).1 hQ
  by_contra hno
  have hd : Disjoint P Q := Finset.disjoint_left.2 (fun x hx hx' => hno ⟨x, hx, hx'⟩)
  have h4 : P ∪ Q ⊆ Finset.range n := Finset.union_subset (fun x hx => Finset.mem_range.2 (a1 x hx))
    (fun x hx => Finset.mem_range.2 (b1 x hx))
  have h5 := Finset.card_le_card h4
  rw [Finset.card_union_of_disjoint hd, Finset.card_range] at h5
  omega

/-- With one minimal quorum, there are no splitting sets. -/
theorem flat_no_splitting (hq : ∀ Q, IsQuorum f Q ↔ (∀ x ∈ Q, x < n) ∧ n ≤ Q.card) (S : NodeSet) :
    ¬ IsMinSplitting f S := by
  rintro ⟨⟨P, Q, hP, hQ, hne, -⟩, -⟩
  have hm := flat_minQuorum_iff hq
  have key : ∀ P, IsMinQuorum f P → P = Finset.range n := by
    intro P hP
    obtain ⟨p1, p2⟩ := Finset.mem_powersetCard.1 ((hm P).1 hP)
    exact Finset.eq_of_subset_of_card_le p1 (by rw [Finset.card_range, p2])
  exact hne ((key P hP).trans (key Q hQ).symm)
end

/-! ### Organizations with three nodes -/

/-- The nodes of an organization. -/
def org (o : ℕ) : NodeSet := {3 * o, 3 * o + 1, 3 * o + 2}

theorem mem_org {o x : ℕ} : x ∈ org o ↔ x / 3 = o := by
  unfold org
  simp only [Finset.mem_insert, Finset.mem_singleton]
  constructor
  · rintro (h | h | h) <;> omega
  · intro h; omega

theorem card_org (o : ℕ) : (org o).card = 3 := by
  unfold org
  rw [Finset.card_insert_of_notMem (by simp), Finset.card_insert_of_notMem (by simp),
    Finset.card_singleton]

theorem org_subset {m o : ℕ} (h : o < m) : org o ⊆ Finset.range (3 * m) := by
  intro x hx
  have := mem_org.1 hx
  exact Finset.mem_range.2 (by omega)

/-- Sets chosen from the organizations `O`. -/
def pick (O : Finset ℕ) (g : ℕ → NodeSet) : NodeSet := O.biUnion g

theorem org_inter_pick {O : Finset ℕ} {g : ℕ → NodeSet} (hg : ∀ o ∈ O, g o ⊆ org o) (o : ℕ) :
    org o ∩ pick O g = if o ∈ O then g o else ∅ := by
  ext x
  rw [Finset.mem_inter, pick, Finset.mem_biUnion]
  constructor
  · rintro ⟨h1, o', h2, h3⟩
    have : o' = o := by rw [← mem_org.1 (hg o' h2 h3), mem_org.1 h1]
    subst this
    rw [if_pos h2]; exact h3
  · intro h
    split at h
    next h1 => exact ⟨hg o h1 h, o, h1, h⟩
    next => exact absurd h (Finset.notMem_empty x)

/-- The sets that consist of `c` nodes of each of `k` organizations. -/
structure Picks (m k c : ℕ) (S : NodeSet) : Prop where
  sub : S ⊆ Finset.range (3 * m)
  num : ((Finset.range m).filter (fun o => (org o ∩ S).card = c)).card = k
  each : ∀ o < m, (org o ∩ S).card = c ∨ (org o ∩ S).card = 0

theorem picks_pick {m k c : ℕ} (hc : 1 ≤ c) {O : Finset ℕ} {g : ℕ → NodeSet} (hO : O ⊆ Finset.range m)
    (hk : O.card = k) (hg : ∀ o ∈ O, g o ⊆ org o ∧ (g o).card = c) : Picks m k c (pick O g) := by
  have h := org_inter_pick (fun o ho => (hg o ho).1)
  refine ⟨?_, ?_, ?_⟩
  · intro x hx
    obtain ⟨o, h1, h2⟩ := Finset.mem_biUnion.1 hx
    exact org_subset (Finset.mem_range.1 (hO h1)) ((hg o h1).1 h2)
  · rw [← hk]
    congr 1
    ext o
    rw [Finset.mem_filter, h]
    constructor
    · rintro ⟨-, h1⟩
      by_contra ho
      rw [if_neg ho] at h1
      simp at h1; omega
    · intro ho
      rw [if_pos ho]
      exact ⟨hO ho, (hg o ho).2⟩
  · intro o _
    rw [h]
    split
    next ho => exact .inl (hg o ho).2
    next => exact .inr rfl

theorem picks_eq {m k c : ℕ} {S : NodeSet} (h : Picks m k c S) :
    S = pick ((Finset.range m).filter (fun o => (org o ∩ S).card = c)) (fun o => org o ∩ S) := by
  ext x
  rw [pick, Finset.mem_biUnion]
  constructor
  · intro hx
    have hx' : x ∈ org (x / 3) ∩ S := Finset.mem_inter.2 ⟨mem_org.2 rfl, hx⟩
    have hm := Finset.mem_range.1 (h.sub hx)
    refine ⟨x / 3, Finset.mem_filter.2 ⟨Finset.mem_range.2 (by omega), ?_⟩, hx'⟩
    rcases h.each (x / 3) (by omega) with h1 | h1
    · exact h1
    · rw [Finset.card_eq_zero] at h1
      rw [h1] at hx'
      exact absurd hx' (Finset.notMem_empty x)
  · rintro ⟨o, -, h2⟩
    exact (Finset.mem_inter.1 h2).2

theorem picks_card {m k c : ℕ} {S : NodeSet} (h : Picks m k c S) : S.card = c * k := by
  rw [picks_eq h, pick, Finset.card_biUnion]
  · rw [Finset.sum_congr rfl (fun o ho => (Finset.mem_filter.1 ho).2), Finset.sum_const, h.num,
      smul_eq_mul, Nat.mul_comm]
  · intro a _ b _ hab
    exact Finset.disjoint_left.2 fun x hx hx' => hab (by
      rw [← mem_org.1 (Finset.mem_inter.1 hx).1, mem_org.1 (Finset.mem_inter.1 hx').1])

/-- The minimal sets with at least `c` nodes in at least `k` organizations. -/
theorem minimal_orgs_iff {P : NodeSet → Prop} {m k c : ℕ} (hc : 1 ≤ c)
    (hP : ∀ S, P S ↔ k ≤ ((Finset.range m).filter (fun o => c ≤ (org o ∩ S).card)).card)
    (S : NodeSet) : Minimal P S ↔ Picks m k c S := by
  constructor
  · intro h
    obtain ⟨O, hO, hk⟩ := Finset.exists_subset_card_eq ((hP S).1 h.prop)
    have h1 : ∀ o, ∃ g : NodeSet, o ∈ O → g ⊆ org o ∩ S ∧ g.card = c := by
      intro o
      by_cases ho : o ∈ O
      · obtain ⟨g, hg1, hg2⟩ := Finset.exists_subset_card_eq (Finset.mem_filter.1 (hO ho)).2
        exact ⟨g, fun _ => ⟨hg1, hg2⟩⟩
      · exact ⟨∅, fun h => absurd h ho⟩
    choose g hg using h1
    have hO' : O ⊆ Finset.range m := hO.trans (Finset.filter_subset _ _)
    have hg' : ∀ o ∈ O, g o ⊆ org o ∧ (g o).card = c := fun o ho =>
      ⟨(hg o ho).1.trans Finset.inter_subset_left, (hg o ho).2⟩
    have hp := picks_pick hc hO' hk hg'
    have hPp : P (pick O g) := by
      rw [hP]
      calc k = _ := hp.num.symm
        _ ≤ _ := Finset.card_le_card (Finset.monotone_filter_right _ (fun o _ ho => ho.ge))
    have hsub : pick O g ⊆ S := by
      intro x hx
      obtain ⟨o, h1, h2⟩ := Finset.mem_biUnion.1 hx
      exact (Finset.mem_inter.1 ((hg o h1).1 h2)).2
    rw [Finset.Subset.antisymm (h.le_of_le hPp hsub) hsub]
    exact hp
  · intro h
    refine ⟨?_, fun T hT hle => ?_⟩
    · rw [hP]
      calc k = _ := h.num.symm
        _ ≤ _ := Finset.card_le_card (Finset.monotone_filter_right _ (fun o _ ho => ho.ge))
    · have hle' : ∀ o, (org o ∩ T).card ≤ (org o ∩ S).card := fun o =>
        Finset.card_le_card (Finset.inter_subset_inter_left hle)
      have hsub : (Finset.range m).filter (fun o => c ≤ (org o ∩ T).card) ⊆
          (Finset.range m).filter (fun o => (org o ∩ S).card = c) := by
        intro o ho
        obtain ⟨h1, h2⟩ := Finset.mem_filter.1 ho
        refine Finset.mem_filter.2 ⟨h1, ?_⟩
        have := hle' o
        rcases h.each o (Finset.mem_range.1 h1) with h3 | h3 <;> omega
      have heq := Finset.eq_of_subset_of_card_le hsub (by rw [h.num]; exact (hP T).1 hT)
      intro x hx
      rw [picks_eq h, pick, Finset.mem_biUnion] at hx
      obtain ⟨o, h1, h2⟩ := hx
      have h3 := h1
      rw [← heq] at h3
      have h4 : org o ∩ T = org o ∩ S := Finset.eq_of_subset_of_card_le
        (Finset.inter_subset_inter_left hle)
        (by rw [(Finset.mem_filter.1 h1).2]; exact (Finset.mem_filter.1 h3).2)
      rw [← h4] at h2
      exact (Finset.mem_inter.1 h2).2

/-- A function on a finite set, with value `∅` elsewhere. -/
def total (O : Finset ℕ) (g : (o : ℕ) → o ∈ O → NodeSet) (o : ℕ) : NodeSet :=
  if h : o ∈ O then g o h else ∅

theorem total_mem {O : Finset ℕ} (g : (o : ℕ) → o ∈ O → NodeSet) {o : ℕ} (h : o ∈ O) :
    total O g o = g o h := dif_pos h

open Classical in
/-- The number of sets that consist of `c` nodes of each of `k` organizations. -/
theorem card_picks {m k c : ℕ} (hc : 1 ≤ c) :
    ((Finset.range (3 * m)).powerset.filter (fun S => Picks m k c S)).card =
      m.choose k * (Nat.choose 3 c) ^ k := by
  have h1 : (((Finset.range m).powersetCard k).sigma
      (fun O => O.pi (fun o => (org o).powersetCard c))).card = m.choose k * (Nat.choose 3 c) ^ k := by
    rw [Finset.card_sigma]
    rw [Finset.sum_congr rfl (fun O hO => by
      rw [Finset.card_pi, Finset.prod_congr rfl (fun o _ => by
        rw [Finset.card_powersetCard, card_org]), Finset.prod_const,
        (Finset.mem_powersetCard.1 hO).2])]
    rw [Finset.sum_const, Finset.card_powersetCard, Finset.card_range, smul_eq_mul]
  rw [← h1]
  symm
  refine Finset.card_bij (fun x _ => pick x.1 (total x.1 x.2)) ?_ ?_ ?_
  · rintro ⟨O, g⟩ hx
    obtain ⟨x1, x2⟩ := Finset.mem_sigma.1 hx
    obtain ⟨x3, x4⟩ := Finset.mem_powersetCard.1 x1
    have hp : Picks m k c (pick O (total O g)) := by
      refine picks_pick hc x3 x4 (fun o ho => ?_)
      have := Finset.mem_powersetCard.1 (Finset.mem_pi.1 x2 o ho)
      rw [total_mem g ho]
      exact this
    exact Finset.mem_filter.2 ⟨Finset.mem_powerset.2 hp.sub, hp⟩
  · rintro ⟨O, g⟩ hx ⟨O', g'⟩ hx' he
    have key : ∀ (O : Finset ℕ) (g : (a : ℕ) → a ∈ O → NodeSet), (⟨O, g⟩ : Σ O : Finset ℕ, (a : ℕ) → a ∈ O → NodeSet) ∈
        ((Finset.range m).powersetCard k).sigma (fun O => O.pi (fun o => (org o).powersetCard c)) →
        ∀ o (_ : o ∈ O), g o ‹_› ⊆ org o ∧ (g o ‹_›).card = c := by
      intro O g hx o ho
      exact Finset.mem_powersetCard.1 (Finset.mem_pi.1 (Finset.mem_sigma.1 hx).2 o ho)
    have e1 : ∀ o, org o ∩ pick O (total O g) =
        if o ∈ O then (total O g) o else ∅ :=
      org_inter_pick (fun o ho => by rw [total_mem g ho]; exact (key O g hx o ho).1)
    have e2 : ∀ o, org o ∩ pick O' (total O' g') =
        if o ∈ O' then (total O' g') o else ∅ :=
      org_inter_pick (fun o ho => by rw [total_mem g' ho]; exact (key O' g' hx' o ho).1)
    dsimp only at he
    have e3 : ∀ o, (if o ∈ O then (total O g) o else ∅) =
        if o ∈ O' then (total O' g') o else ∅ := fun o => by
      rw [← e1, ← e2, he]
    have hO : O = O' := by
      ext o
      have := e3 o
      constructor
      · intro ho
        by_contra ho'
        rw [if_pos ho, if_neg ho', total_mem g ho] at this
        have h2 := (key O g hx o ho).2
        rw [this] at h2
        simp at h2; omega
      · intro ho'
        by_contra ho
        rw [if_neg ho, if_pos ho', total_mem g' ho'] at this
        have h2 := (key O' g' hx' o ho').2
        rw [← this] at h2
        simp at h2; omega
    subst hO
    congr 1
    funext o ho
    have := e3 o
    rwa [if_pos ho, if_pos ho, total_mem g ho, total_mem g' ho] at this
  · intro S hS
    have hp := (Finset.mem_filter.1 hS).2
    refine ⟨⟨(Finset.range m).filter (fun o => (org o ∩ S).card = c), fun o _ => org o ∩ S⟩, ?_, ?_⟩
    · refine Finset.mem_sigma.2 ⟨Finset.mem_powersetCard.2 ⟨Finset.filter_subset _ _, hp.num⟩,
        Finset.mem_pi.2 fun o ho => Finset.mem_powersetCard.2 ⟨Finset.inter_subset_left, ?_⟩⟩
      exact (Finset.mem_filter.1 ho).2
    · dsimp only
      conv_rhs => rw [picks_eq hp]
      unfold pick
      refine Finset.biUnion_congr rfl (fun o ho => ?_)
      exact total_mem _ ho

/-! ### All nodes require two nodes of each of `t` of `m` organizations -/

section
variable {f : Fbas} {m t : ℕ}

/-- The organizations with at least `c` nodes in `S`. -/
def orgsWith (m c : ℕ) (S : NodeSet) : Finset ℕ :=
  (Finset.range m).filter (fun o => c ≤ (org o ∩ S).card)

theorem nested_minQuorum_iff
    (hq : ∀ Q, IsQuorum f Q ↔ (∀ x ∈ Q, x < 3 * m) ∧ t ≤ (orgsWith m 2 Q).card) (Q : NodeSet) :
    IsMinQuorum f Q ↔ Picks m t 2 Q := by
  rw [← minimal_orgs_iff (P := fun S => t ≤ (orgsWith m 2 S).card) (by omega) (fun S => Iff.rfl)]
  constructor
  · intro h
    refine ⟨((hq Q).1 h.prop).2, fun P hP hle => h.le_of_le ((hq P).2 ⟨?_, hP⟩) hle⟩
    exact fun x hx => ((hq Q).1 h.prop).1 x (hle hx)
  · intro h
    have hp := (minimal_orgs_iff (P := fun S => t ≤ (orgsWith m 2 S).card) (by omega)
      (fun S => Iff.rfl) Q).1 h
    refine ⟨(hq Q).2 ⟨fun x hx => Finset.mem_range.1 (hp.sub hx), h.prop⟩, fun P hP hle => ?_⟩
    exact h.le_of_le ((hq P).1 hP).2 hle

theorem card_org_compl {S : NodeSet} {o : ℕ} (ho : o < m) :
    (org o ∩ (Finset.range (3 * m) \ S)).card + (org o ∩ S).card = 3 := by
  have h1 := Finset.card_sdiff_add_card_inter (org o) S
  have h2 : org o ∩ (Finset.range (3 * m) \ S) = org o \ S := by
    ext x
    simp only [Finset.mem_inter, Finset.mem_sdiff]
    exact ⟨fun h => ⟨h.1, h.2.2⟩, fun h => ⟨h.1, org_subset ho h.1, h.2⟩⟩
  rw [h2, h1, card_org]

theorem nested_blocking_iff
    (hq : ∀ Q, IsQuorum f Q ↔ (∀ x ∈ Q, x < 3 * m) ∧ t ≤ (orgsWith m 2 Q).card)
    (h2 : t ≤ m) (S : NodeSet) : Blocking f S ↔ m - t + 1 ≤ (orgsWith m 2 S).card := by
  have hc : (orgsWith m 2 (Finset.range (3 * m) \ S)).card + (orgsWith m 2 S).card = m := by
    have h := Finset.card_filter_add_card_filter_not (s := Finset.range m)
      (p := fun o => 2 ≤ (org o ∩ S).card)
    rw [Finset.card_range] at h
    have h' : orgsWith m 2 (Finset.range (3 * m) \ S) =
        (Finset.range m).filter (fun o => ¬ 2 ≤ (org o ∩ S).card) := by
      unfold orgsWith
      refine Finset.filter_congr (fun o ho => ?_)
      have := card_org_compl (S := S) (Finset.mem_range.1 ho)
      constructor <;> intro h <;> omega
    rw [h', Nat.add_comm]
    exact h
  constructor
  · intro h
    by_contra hlt
    obtain ⟨x, h1, h2⟩ := h (Finset.range (3 * m) \ S)
      ((hq _).2 ⟨fun x hx => Finset.mem_range.1 (Finset.mem_sdiff.1 hx).1, by omega⟩)
    exact (Finset.mem_sdiff.1 h1).2 h2
  · intro h Q hQ
    obtain ⟨h3, h4⟩ := (hq _).1 hQ
    by_contra hno
    have h5 : Q ⊆ Finset.range (3 * m) \ S := fun x hx =>
      Finset.mem_sdiff.2 ⟨Finset.mem_range.2 (h3 x hx), fun hb => hno ⟨x, hx, hb⟩⟩
    have h6 : orgsWith m 2 Q ⊆ orgsWith m 2 (Finset.range (3 * m) \ S) :=
      Finset.monotone_filter_right _ (fun o _ ho => Nat.le_trans ho
        (Finset.card_le_card (Finset.inter_subset_inter_left h5)))
    have := Finset.card_le_card h6
    omega

/-- Two sets that have two of three nodes each have a common node. -/
theorem org_meet {P Q : NodeSet} {o : ℕ} (hP : 2 ≤ (org o ∩ P).card) (hQ : 2 ≤ (org o ∩ Q).card) :
    1 ≤ (org o ∩ (P ∩ Q)).card := by
  have h1 := Finset.card_union_add_card_inter (org o ∩ P) (org o ∩ Q)
  have h2 : (org o ∩ P ∪ org o ∩ Q).card ≤ 3 := by
    rw [← card_org o]
    exact Finset.card_le_card (Finset.union_subset Finset.inter_subset_left Finset.inter_subset_left)
  have h3 : (org o ∩ P) ∩ (org o ∩ Q) = org o ∩ (P ∩ Q) := by
    ext x; simp only [Finset.mem_inter]; tauto
  rw [h3] at h1
  omega

theorem card_orgs_meet {A B : Finset ℕ} (hA : A ⊆ Finset.range m) (hB : B ⊆ Finset.range m)
    (h1 : t ≤ A.card) (h2 : t ≤ B.card) : 2 * t - m ≤ (A ∩ B).card := by
  have e1 := Finset.card_union_add_card_inter A B
  have e2 := Finset.card_le_card (Finset.union_subset hA hB)
  rw [Finset.card_range] at e2
  omega

theorem nested_intersection
    (hq : ∀ Q, IsQuorum f Q ↔ (∀ x ∈ Q, x < 3 * m) ∧ t ≤ (orgsWith m 2 Q).card)
    (h2 : t ≤ m) (h3 : m < 2 * t) : QuorumIntersection f := by
  refine ⟨⟨Finset.range (3 * m), (hq _).2 ⟨fun x hx => Finset.mem_range.1 hx, ?_⟩⟩, ?_⟩
  · have : orgsWith m 2 (Finset.range (3 * m)) = Finset.range m := by
      unfold orgsWith
      refine Finset.filter_true_of_mem (fun o ho => ?_)
      rw [Finset.inter_eq_left.2 (org_subset (Finset.mem_range.1 ho)), card_org]
      omega
    rw [this, Finset.card_range]; exact h2
  · intro P Q hP hQ
    obtain ⟨o, ho⟩ := Finset.card_pos.1 (Nat.lt_of_lt_of_le (show 0 < 2 * t - m by omega)
      (card_orgs_meet (Finset.filter_subset _ _) (Finset.filter_subset _ _)
        ((hq P).1 hP).2 ((hq Q).1 hQ).2))
    obtain ⟨h4, h5⟩ := Finset.mem_inter.1 ho
    obtain ⟨x, hx⟩ := Finset.card_pos.1 (org_meet (Finset.mem_filter.1 h4).2 (Finset.mem_filter.1 h5).2)
    obtain ⟨-, hx⟩ := Finset.mem_inter.1 hx
    exact ⟨x, Finset.mem_inter.1 hx⟩

/-- The node of the same organization that comes `d` nodes later, starting over at the end. -/
def turn (x d : ℕ) : ℕ := 3 * (x / 3) + (x % 3 + d) % 3

theorem turn_org (x d : ℕ) : turn x d / 3 = x / 3 := by unfold turn; omega

theorem pair_org {x d o : ℕ} (hd : d = 1 ∨ d = 2) (hx : x ∈ org o) :
    ({x, turn x d} : NodeSet) ⊆ org o ∧ ({x, turn x d} : NodeSet).card = 2 := by
  rw [mem_org] at hx
  constructor
  · intro y hy
    rw [Finset.mem_insert, Finset.mem_singleton] at hy
    rw [mem_org]
    rcases hy with rfl | rfl
    · exact hx
    · rw [turn_org]; exact hx
  · refine Finset.card_pair ?_
    unfold turn
    rcases hd with rfl | rfl <;> omega

theorem nested_splitting_iff
    (hq : ∀ Q, IsQuorum f Q ↔ (∀ x ∈ Q, x < 3 * m) ∧ t ≤ (orgsWith m 2 Q).card)
    (h2 : t ≤ m) (h3 : m < 2 * t) (S : NodeSet) :
    Splitting f S ↔ 2 * t - m ≤ (orgsWith m 1 S).card := by
  have hm := nested_minQuorum_iff hq
  constructor
  · rintro ⟨P, Q, hP, hQ, -, hs⟩
    have h4 := card_orgs_meet (m := m) (t := t) (A := orgsWith m 2 P) (B := orgsWith m 2 Q)
      (Finset.filter_subset _ _) (Finset.filter_subset _ _)
      ((hq P).1 hP.prop).2 ((hq Q).1 hQ.prop).2
    refine Nat.le_trans h4 (Finset.card_le_card ?_)
    intro o ho
    obtain ⟨h5, h6⟩ := Finset.mem_inter.1 ho
    refine Finset.mem_filter.2 ⟨(Finset.mem_filter.1 h5).1, ?_⟩
    exact Nat.le_trans (org_meet (Finset.mem_filter.1 h5).2 (Finset.mem_filter.1 h6).2)
      (Finset.card_le_card (Finset.inter_subset_inter_left hs))
  · intro h
    obtain ⟨C, hC, hc⟩ := Finset.exists_subset_card_eq h
    have hCm : C ⊆ Finset.range m := hC.trans (Finset.filter_subset _ _)
    have hr : (Finset.range m \ C).card = 2 * (m - t) := by
      rw [Finset.card_sdiff_of_subset hCm, Finset.card_range, hc]; omega
    obtain ⟨A, hA, hAc⟩ := Finset.exists_subset_card_eq (s := Finset.range m \ C) (n := m - t)
      (by omega)
    have hB : ((Finset.range m \ C) \ A).card = m - t := by
      rw [Finset.card_sdiff_of_subset hA, hr, hAc]; omega
    have dA : Disjoint C A := Finset.disjoint_left.2 fun x hx hx' => (Finset.mem_sdiff.1 (hA hx')).2 hx
    have dB : Disjoint C ((Finset.range m \ C) \ A) := Finset.disjoint_left.2 fun x hx hx' =>
      (Finset.mem_sdiff.1 (Finset.mem_sdiff.1 hx').1).2 hx
    have h4 : ∀ o, ∃ x : ℕ, x ∈ org o ∧ (o ∈ C → x ∈ S) := by
      intro o
      by_cases ho : o ∈ C
      · obtain ⟨x, hx⟩ := Finset.card_pos.1 (Finset.mem_filter.1 (hC ho)).2
        exact ⟨x, (Finset.mem_inter.1 hx).1, fun _ => (Finset.mem_inter.1 hx).2⟩
      · exact ⟨3 * o, mem_org.2 (by omega), fun h => absurd h ho⟩
    choose c hc1 hc2 using h4
    have hsub : ∀ X d, X ⊆ Finset.range m \ C → X.card = m - t → Disjoint C X → d = 1 ∨ d = 2 →
        IsMinQuorum f (pick (C ∪ X) (fun o => {c o, turn (c o) d})) := by
      intro X d hX hXc hdis hd
      rw [hm]
      refine picks_pick (by omega) (Finset.union_subset hCm (hX.trans Finset.sdiff_subset)) ?_
        (fun o _ => pair_org hd (hc1 o))
      rw [Finset.card_union_of_disjoint hdis, hc, hXc]; omega
    have hin : ∀ {X d x}, d = 1 ∨ d = 2 → (x ∈ pick (C ∪ X) (fun o => {c o, turn (c o) d}) ↔
        x / 3 ∈ C ∪ X ∧ (x = c (x / 3) ∨ x = turn (c (x / 3)) d)) := by
      intro X d x hd
      rw [pick, Finset.mem_biUnion]
      constructor
      · rintro ⟨o, h5, h6⟩
        have : x / 3 = o := mem_org.1 ((pair_org hd (hc1 o)).1 h6)
        rw [this]
        refine ⟨h5, ?_⟩
        simpa using h6
      · rintro ⟨h5, h6⟩
        exact ⟨x / 3, h5, by simpa using h6⟩
    have hturn : ∀ o, turn (c o) 1 ≠ turn (c o) 2 := by
      intro o; unfold turn; omega
    have hturn' : ∀ o, turn (c o) 1 ≠ c o := by
      intro o; unfold turn; omega
    refine ⟨_, _, hsub A 1 hA hAc dA (.inl rfl), hsub _ 2 Finset.sdiff_subset hB dB (.inr rfl), ?_, ?_⟩
    · intro he
      obtain ⟨o, ho⟩ := Finset.card_pos.1 (show 0 < C.card by omega)
      have ho' : turn (c o) 1 / 3 = o := by rw [turn_org]; exact mem_org.1 (hc1 o)
      have h5 : turn (c o) 1 ∈ pick (C ∪ A) (fun o => {c o, turn (c o) 1}) := by
        rw [hin (.inl rfl), ho']
        exact ⟨Finset.mem_union_left _ ho, .inr rfl⟩
      rw [he, hin (.inr rfl), ho'] at h5
      rcases h5.2 with h6 | h6
      · exact hturn' o h6
      · exact hturn o h6
    · intro x hx
      obtain ⟨x1, x2⟩ := Finset.mem_inter.1 hx
      rw [hin (.inl rfl)] at x1
      rw [hin (.inr rfl)] at x2
      have h5 : x = c (x / 3) := by
        rcases x1.2 with h | h
        · exact h
        · rcases x2.2 with h' | h'
          · exact h'
          · exact absurd (h.symm.trans h') (hturn _)
      have h6 : x / 3 ∈ C := by
        rcases Finset.mem_union.1 x1.1 with h | h
        · exact h
        · rcases Finset.mem_union.1 x2.1 with h' | h'
          · exact h'
          · exact absurd h (Finset.mem_sdiff.1 h').2
      rw [h5]
      exact hc2 _ h6

theorem nested_inTopTier
    (hq : ∀ Q, IsQuorum f Q ↔ (∀ x ∈ Q, x < 3 * m) ∧ t ≤ (orgsWith m 2 Q).card) (h1 : 1 ≤ t)
    (h2 : t ≤ m) {x : ℕ} (hx : x < 3 * m) : InTopTier f x := by
  obtain ⟨O, hO, hO', hc⟩ := Finset.exists_subsuperset_card_eq (s := {x / 3}) (t := Finset.range m)
    (n := t) (by intro y hy; rw [Finset.mem_singleton.1 hy]; exact Finset.mem_range.2 (by omega))
    (by simpa using h1) (by simpa using h2)
  refine ⟨pick O (fun o => {3 * o + x % 3, turn (3 * o + x % 3) 1}), ?_, ?_⟩
  · rw [nested_minQuorum_iff hq]
    exact picks_pick (by omega) hO' hc (fun o _ => pair_org (.inl rfl) (mem_org.2 (by omega)))
  · rw [pick, Finset.mem_biUnion]
    refine ⟨x / 3, hO (by simp), ?_⟩
    rw [show 3 * (x / 3) + x % 3 = x by omega]
    simp

end

/-! ### Numbers -/

/-- A list without duplicates of the elements of `F`. -/
theorem length_eq_card {L : List NodeSet} (hn : L.Nodup) {F : Finset NodeSet} (h : ∀ P, P ∈ L ↔ P ∈ F) :
    L.length = F.card := by
  rw [← List.toFinset_card_of_nodup hn]
  congr 1
  ext P
  rw [List.mem_toFinset, h]

theorem mean_eq {L : List NodeSet} {k : ℕ} {r : ℚ} (hne : L ≠ []) (h : ∀ P ∈ L, P.card = k)
    (hr : r * L.length = ((L.map Finset.card).sum : ℕ)) : r = k := by
  have h1 : (L.map Finset.card).sum = L.length * k := by
    rw [List.map_congr_left h, List.map_const', List.sum_replicate, smul_eq_mul]
  rw [h1] at hr
  have h2 : (L.length : ℚ) ≠ 0 := by
    simpa using hne
  push_cast at hr
  rw [mul_comm] at hr
  exact mul_left_cancel₀ h2 hr

theorem ne_nil_of_length {L : List NodeSet} (h : 0 < L.length) : L ≠ [] := by
  rintro rfl; simp at h

end FA.Bulk
