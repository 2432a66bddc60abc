import Verif.Lemmas.RandomUniform
import Verif.Props.Probability
import Verif.SpecSmallWorld
import Mathlib.Data.Fintype.Perm
import Mathlib.Tactic.IntervalCases
import Mathlib.SetTheory.Cardinal.Finite

/-!
# C102: probabilities of shuffled graphs
-/

namespace FA
open Spec

theorem Spec.GivesNames.unique {g g1 g2 : Graph} {π : Equiv.Perm (Fin g.outlinks.length)} (h1 : GivesNames g π g1)
    (h2 : GivesNames g π g2) : g1 = g2 := by
  obtain ⟨o1⟩ := g1
  obtain ⟨o2⟩ := g2
  obtain ⟨l1, e1⟩ := h1
  obtain ⟨l2, e2⟩ := h2
  dsimp only at l1 l2 e1 e2
  congr 1
  refine List.ext_getElem? (fun k => ?_)
  by_cases hk : k < g.outlinks.length
  · have a := e1 (π.symm ⟨k, hk⟩)
    have b := e2 (π.symm ⟨k, hk⟩)
    rw [Equiv.apply_symm_apply] at a b
    exact a.trans b.symm
  · rw [List.getElem?_eq_none (by omega), List.getElem?_eq_none (by omega)]

/-- The list of the new names. -/
def namesOf {n : ℕ} (π : Equiv.Perm (Fin n)) : List ℕ := List.ofFn (fun i => (π i : ℕ))

theorem namesOf_perm {n : ℕ} (π : Equiv.Perm (Fin n)) : (namesOf π).Perm (List.range n) := by
  have hnd : (namesOf π).Nodup := by
    unfold namesOf
    rw [List.nodup_ofFn]
    intro i j h
    exact π.injective (Fin.ext h)
  refine (List.subperm_of_subset hnd (fun y hy => ?_)).perm_of_length_le (by simp [namesOf])
  obtain ⟨i, rfl⟩ := List.mem_ofFn.1 hy
  exact List.mem_range.2 (π i).2

theorem namesOf_injective {n : ℕ} {π ρ : Equiv.Perm (Fin n)} (h : namesOf π = namesOf ρ) : π = ρ := by
  have := List.ofFn_injective h
  ext i
  exact congrFun this i

theorem namesOf_surjective {n : ℕ} {l : List ℕ} (h : l.Perm (List.range n)) :
    ∃ π : Equiv.Perm (Fin n), l = namesOf π := by
  have hlen : l.length = n := by have := h.length_eq; simpa using this
  have hnd : l.Nodup := h.nodup_iff.2 List.nodup_range
  have hlt : ∀ i : Fin n, l[(i : ℕ)]'(by omega) < n := fun i =>
    List.mem_range.1 (h.mem_iff.1 (List.getElem_mem _))
  have hinj : Function.Injective (fun i : Fin n => (⟨l[(i : ℕ)]'(by omega), hlt i⟩ : Fin n)) := by
    intro i j hij
    have := congrArg Fin.val hij
    dsimp only at this
    exact Fin.ext ((hnd.getElem_inj_iff).1 this)
  refine ⟨Equiv.ofBijective _ (Finite.injective_iff_bijective.1 hinj), ?_⟩
  unfold namesOf
  refine List.ext_getElem (by simp [hlen]) (fun i h1 h2 => ?_)
  rw [List.getElem_ofFn]
  rfl

theorem shuffled_renames {R : Rand} {s : R.State} {g : Graph} (hg : LinksInRange g)
    {π : Equiv.Perm (Fin g.outlinks.length)} (h : (R.shuffle s (List.range g.outlinks.length)).1 = namesOf π) :
    ∃ g' s', g.shuffled R s = .ok (g', s') ∧ GivesNames g π g' := by
  obtain ⟨g', h1, h2, h3⟩ := shuffled_spec R s g hg
  refine ⟨g', _, h1, h2, fun i => ?_⟩
  rw [h3 i (π i) (g.outlinks.get i) (by
    rw [h]
    unfold namesOf
    rw [List.getElem?_ofFn, dif_pos i.2]) (by rw [List.getElem?_eq_getElem i.2]; rfl)]
  congr 1
  refine List.map_congr_left (fun x hx => ?_)
  have hlt : x < g.outlinks.length := hg i x ⟨g.outlinks.get i, by rw [List.getElem?_eq_getElem i.2]; rfl, hx⟩
  rw [dif_pos hlt, h]
  unfold namesOf
  rw [List.getD_eq_getElem?_getD, List.getElem?_ofFn, dif_pos hlt]
  rfl

theorem exists_givesNames {g : Graph} (hg : LinksInRange g) (π : Equiv.Perm (Fin g.outlinks.length)) :
    ∃ g', GivesNames g π g' := by
  obtain ⟨g', s', -, h⟩ := shuffled_renames (R := scripted (namesOf π)) (s := ([] : List NodeId)) hg (π := π) (by
    unfold scripted
    dsimp only
    rw [if_pos (List.isPerm_iff.2 (namesOf_perm π))])
  exact ⟨g', h⟩

end FA

namespace FA.Props
open FA Spec

/-- C102: `shuffled` chooses uniformly among the `n!` ways to rename the nodes: every property of graphs has the
probability of its share among these. -/
theorem C102_shuffled (L : ℕ) (hL : 0 < L) (g : Graph) (hg : LinksInRange g)
    (hd : ∀ d, 0 < d → d ≤ g.outlinks.length → d ∣ L) (A : Graph → Prop) :
    Probability L g.outlinks.length (fun r => ∃ g' s', g.shuffled (lottery L) r = .ok (g', s') ∧ A g') =
      (Nat.card {π : Equiv.Perm (Fin g.outlinks.length) // ∃ g', GivesNames g π g' ∧ A g'} : ℚ) /
        (g.outlinks.length.factorial : ℕ) := by
  classical
  rw [Nat.card_eq_fintype_card, Fintype.card_subtype]
  rw [probability_congr (Q := fun r => ∃ π ∈ Finset.univ.filter
      (fun π : Equiv.Perm (Fin g.outlinks.length) => ∃ g', GivesNames g π g' ∧ A g'),
      (orderBy g.outlinks.length r (List.range g.outlinks.length)).1 = namesOf π) (fun r _ _ => ?_),
    probability_sum _ (fun π _ ρ _ r h1 h2 => namesOf_injective (h1.symm.trans h2)),
    Finset.sum_congr rfl (fun π _ => orderBy_probability hL List.length_range List.nodup_range (namesOf_perm π) hd),
    Finset.sum_const, nsmul_eq_mul, mul_one_div]
  have hs : ((lottery L).shuffle r (List.range g.outlinks.length)).1 =
      (orderBy g.outlinks.length r (List.range g.outlinks.length)).1 := by
    show (orderBy (List.range g.outlinks.length).length r (List.range g.outlinks.length)).1 = _
    rw [List.length_range]
  obtain ⟨π, hπ⟩ := namesOf_surjective (orderBy_perm g.outlinks.length r (List.range g.outlinks.length))
  obtain ⟨g1, s1, h1, h2⟩ := shuffled_renames (R := lottery L) (s := r) hg (hs.trans hπ)
  constructor
  · rintro ⟨g', s', h3, h4⟩
    rw [h1] at h3
    obtain ⟨rfl, rfl⟩ := Prod.mk.inj (Except.ok.inj h3)
    exact ⟨π, Finset.mem_filter.2 ⟨Finset.mem_univ _, g1, h2, h4⟩, hπ⟩
  · rintro ⟨ρ, h3, h4⟩
    obtain ⟨-, g', h5, h6⟩ := Finset.mem_filter.1 h3
    obtain rfl := namesOf_injective (hπ.symm.trans h4)
    exact ⟨g1, s1, h1, by rw [h2.unique h5]; exact h6⟩

/-- A path of three nodes: its inner node is called 0 with probability 1/3. -/
example : Probability 6 3 (fun r => ∃ g' s', (Graph.mk [[1], [0, 2], [1]]).shuffled (lottery 6) r = .ok (g', s') ∧
    (g'.outlinks.getD 0 []).length = 2) = 1 / 3 := by
  have hg : LinksInRange ⟨[[1], [0, 2], [1]]⟩ := by
    rintro i j ⟨l, hl, hj⟩
    exact (by decide : ∀ l ∈ [[1], [0, 2], [1]], ∀ j ∈ l, j < 3) l (List.mem_of_getElem? hl) j hj
  refine (C102_shuffled 6 (by decide) ⟨[[1], [0, 2], [1]]⟩ hg ?_ (fun g' => (g'.outlinks.getD 0 []).length = 2)).trans ?_
  · intro d h1 h2
    have : d ≤ 3 := h2
    interval_cases d <;> decide
  · have key : ∀ π : Equiv.Perm (Fin 3), (∃ g', GivesNames ⟨[[1], [0, 2], [1]]⟩ π g' ∧
        (g'.outlinks.getD 0 []).length = 2) ↔ π 1 = 0 := by
      intro π
      constructor
      · rintro ⟨g', ⟨-, h1⟩, h2⟩
        have h3 := h1 (π.symm 0)
        rw [Equiv.apply_symm_apply] at h3
        rw [List.getD_eq_getElem?_getD, show g'.outlinks[0]? = _ from h3, Option.getD_some, List.length_map] at h2
        have h4 : ∀ i : Fin 3, ([[1], [0, 2], [1]].get i).length = 2 → i = 1 := by decide
        rw [← h4 _ h2, Equiv.apply_symm_apply]
      · intro h
        obtain ⟨g', h1⟩ := exists_givesNames (g := ⟨[[1], [0, 2], [1]]⟩) hg π
        refine ⟨g', h1, ?_⟩
        have h3 := h1.2 (1 : Fin 3)
        rw [show π (1 : Fin 3) = 0 from h] at h3
        rw [List.getD_eq_getElem?_getD, show g'.outlinks[0]? = _ from h3, Option.getD_some, List.length_map]
        rfl
    have hc : Nat.card {π : Equiv.Perm (Fin 3) // ∃ g', GivesNames ⟨[[1], [0, 2], [1]]⟩ π g' ∧
        (g'.outlinks.getD 0 []).length = 2} = 2 := by
      rw [Nat.card_congr (Equiv.subtypeEquivRight key), Nat.card_eq_fintype_card]
      decide
    exact (congrArg (fun x : ℕ => (x : ℚ) / (Nat.factorial 3 : ℕ)) hc).trans (by norm_num [Nat.factorial])

#print axioms C102_shuffled

end FA.Props
