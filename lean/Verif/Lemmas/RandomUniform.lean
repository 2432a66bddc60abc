import Verif.Lemmas.RandomEarly
import Verif.Props.RandomRange
import Mathlib.Data.Fintype.Pi
import Mathlib.Data.Set.Finite.Basic

/-!
# Lemmas for C102: all networks of random quorum sets together
-/

namespace FA
open Spec Simulator Props

theorem probability_sum {L N : ℕ} {α : Type*} (A : Finset α) {Q : α → List ℕ → Prop}
    (h : ∀ a ∈ A, ∀ b ∈ A, ∀ r, Q a r → Q b r → a = b) :
    Probability L N (fun r => ∃ a ∈ A, Q a r) = ∑ a ∈ A, Probability L N (Q a) := by
  classical
  unfold Probability
  rw [← Finset.sum_div, ← Nat.cast_sum]
  congr 2
  rw [← Finset.card_biUnion]
  · congr 1
    ext r
    simp only [Finset.mem_filter, Finset.mem_univ, true_and, Finset.mem_biUnion]
  · intro a ha b hb hne
    rw [Function.onFun, Finset.disjoint_left]
    intro r hr1 hr2
    exact hne (h a ha b hb _ (Finset.mem_filter.1 hr1).2 (Finset.mem_filter.1 hr2).2)

theorem chose_unique {f : Fbas} {x : NodeId} {S T : Finset ℕ} (h1 : Chose f x S) (h2 : Chose f x T) : S = T := by
  obtain ⟨q, ⟨node, a1, rfl⟩, -, a2⟩ := h1
  obtain ⟨q', ⟨node', b1, rfl⟩, -, b2⟩ := h2
  rw [a1] at b1
  obtain rfl := Option.some.inj b1
  rw [← a2, ← b2]

theorem random_total (R : Rand) {i g size : ℕ} (hsize : 2 ≤ size) (s : R.State) :
    ∃ f, QscSimulator.simulate (Qsc.random R size none []) i g s = .ok f ∧
      ∀ x < i + g, ∃ T, CanTrust size i (i + g) x T ∧ Chose f x T := by
  have hw : EnoughWeight size (max i (min size (i + g))) [] := by
    intro x hx
    have h3 : choosable (max i (min size (i + g))) [] [x] =
        (Finset.range (max i (min size (i + g)))).erase x := by
      ext y
      rw [mem_choosable, Finset.mem_erase, Finset.mem_range, List.mem_singleton]
      exact ⟨fun h => ⟨h.2.1, h.1⟩, fun h => ⟨h.2, h.1, by simp⟩⟩
    rw [h3, Finset.card_erase_of_mem (Finset.mem_range.2 hx), Finset.card_range]
    omega
  obtain ⟨f, h3, -, h4, h5⟩ := (gradual_random R (t := none) hw hsize).simulate g (Nat.le_refl _) s trivial
  refine ⟨f, h3, fun x hx => ?_⟩
  rw [← names_length h4] at hx
  have hq : HasQSet f x (f.nodes[x]).quorumSet := ⟨_, List.getElem?_eq_getElem hx, rfl⟩
  obtain ⟨-, h6⟩ := h5 x _ hq
  have h7 := canTrust_of_near h6
  obtain ⟨t', vs, h9, h8⟩ := wanted_random h6.1.1
  rw [h9] at h7 hq
  exact ⟨_, h7, _, hq, h8.1, rfl⟩

theorem CanTrust_finite (size i n : ℕ) :
    {V : Fin n → Finset NodeId | ∀ x : Fin n, CanTrust size i n x (V x)}.Finite := by
  classical
  by_cases hi : i ≤ n
  · refine Set.Finite.subset (Finset.finite_toSet (Fintype.piFinset (fun _ : Fin n => (Finset.range n).powerset)))
      (fun V hV => ?_)
    rw [Finset.mem_coe, Fintype.mem_piFinset]
    intro x
    rw [Finset.mem_powerset]
    intro v hv
    have h1 := (hV x).near v hv
    have := x.2
    rw [Finset.mem_range]
    have key : ∀ v x : ℕ, x < n → v < max (x + 1) (max i (min size n)) → v < n := fun v x h1 h2 => by omega
    exact key v x this h1
  · refine Set.Finite.subset (Finset.finite_toSet (Fintype.piFinset (fun _ : Fin n => (Finset.range i).powerset)))
      (fun V hV => ?_)
    rw [Finset.mem_coe, Fintype.mem_piFinset]
    intro x
    rw [Finset.mem_powerset]
    intro v hv
    have h1 := (hV x).near v hv
    have := x.2
    rw [Finset.mem_range]
    have key : ∀ v x : ℕ, x < n → v < max (x + 1) (max i (min size n)) → v < i := fun v x h1 h2 => by omega
    exact key v x this h1

end FA
