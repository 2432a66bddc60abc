import Verif.Lemmas.SmallWorldProbability
import Mathlib.Tactic.IntervalCases
import Mathlib.Tactic.NormNum

/-!
# C102: probabilities of small-world networks
-/

namespace FA.Props
open FA Spec

/-- C102: `new_random_small_world` with the probability `b / L` yields networks with the probabilities of the procedure
of Watts and Strogatz: starting with a ring, one node after the other flips a coin for each of its links with the next
nodes, and then replaces the links for which it was heads, choosing among the nodes with which it is not linked. `A` is
any property of networks; `n * k` random numbers are enough. -/
theorem C102_small_world (L b n k : ℕ) (hL : 0 < L) (hb : b ≤ L) (hd : ∀ d, 0 < d → d < n → d ∣ L) (hk : k ≤ n)
    (he : k % 2 = 0) (A : (ℕ → ℕ → Prop) → Prop) (N : ℕ) (hN : n * k ≤ N) :
    Probability L N (fun r => ∃ g s', Graph.newRandomSmallWorld (lottery L) r n k ((b : ℚ) / L) = .ok (g, s') ∧
      A (Link g)) = SmallWorldChance ((b : ℚ) / L) n (k / 2) A n 0 (RingLinks n (k / 2)) :=
  smallWorld_probability hL hb hd hk he A hN

/-- C102: if coins can be heads and tails, all networks of Watts and Strogatz have positive probability, and no
others. -/
theorem C102_small_world_possible (L b n k : ℕ) (h0 : 0 < b) (hb : b < L) (hd : ∀ d, 0 < d → d < n → d ∣ L)
    (hk : k ≤ n) (he : k % 2 = 0) (A : (ℕ → ℕ → Prop) → Prop) (N : ℕ) (hN : n * k ≤ N) :
    0 < Probability L N (fun r => ∃ g s', Graph.newRandomSmallWorld (lottery L) r n k ((b : ℚ) / L) = .ok (g, s') ∧
      A (Link g)) ↔ ∃ E, WattsStrogatz (fun _ => True) n (k / 2) n E ∧ A E := by
  have hL : (0 : ℚ) < L := by exact_mod_cast h0.trans hb
  rw [C102_small_world L b n k (h0.trans hb) hb.le hd hk he A N hN, smallWorldChance_pos
    (div_pos (by exact_mod_cast h0) hL) ((div_lt_one hL).2 (by exact_mod_cast hb))]
  constructor
  · rintro ⟨E, h1, h2⟩
    exact ⟨E, lastSteps_iff.1 h1, h2⟩
  · rintro ⟨E, h1, h2⟩
    exact ⟨E, lastSteps_iff.2 h1, h2⟩

/-- C102: the ring remains as it is at least with the probability that all coins are tails. -/
theorem C102_small_world_ring (L b n k : ℕ) (hL : 0 < L) (hb : b ≤ L) (hd : ∀ d, 0 < d → d < n → d ∣ L) (hk : k ≤ n)
    (he : k % 2 = 0) (N : ℕ) (hN : n * k ≤ N) :
    (1 - (b : ℚ) / L) ^ (n * (k / 2)) ≤
      Probability L N (fun r => ∃ g s', Graph.newRandomSmallWorld (lottery L) r n k ((b : ℚ) / L) = .ok (g, s') ∧
        Link g = RingLinks n (k / 2)) := by
  have hL' : (0 : ℚ) < L := by exact_mod_cast hL
  rw [C102_small_world L b n k hL hb hd hk he (fun E => E = RingLinks n (k / 2)) N hN]
  exact smallWorldChance_tails (A := fun E => E = RingLinks n (k / 2)) (div_nonneg (Nat.cast_nonneg _) hL'.le)
    ((div_le_one hL').2 (by exact_mod_cast hb)) rfl n 0

/-- A ring of four nodes, each link of which is replaced with probability 1/3. -/
example : 16 / 81 ≤ Probability 6 8 (fun r => ∃ g s', Graph.newRandomSmallWorld (lottery 6) r 4 2 (((2 : ℕ) : ℚ) / (6 : ℕ)) =
    .ok (g, s') ∧ Link g = RingLinks 4 1) := by
  refine le_trans (by norm_num) (C102_small_world_ring 6 2 4 2 (by decide) (by decide) (fun d h1 h2 => ?_) (by decide)
    rfl 8 (by decide))
  interval_cases d <;> decide

/-- It is possible that node 0 is linked with node 2 instead of node 1 in the end. -/
example : 0 < Probability 6 8 (fun r => ∃ g s', Graph.newRandomSmallWorld (lottery 6) r 4 2 (((2 : ℕ) : ℚ) / (6 : ℕ)) =
    .ok (g, s') ∧ Link g 0 2 ∧ ¬ Link g 0 1) := by
  refine (C102_small_world_possible 6 2 4 2 (by decide) (by decide) (fun d h1 h2 => ?_) (by decide) rfl
    (fun E => E 0 2 ∧ ¬ E 0 1) 8 (by decide)).2 ⟨MoveLink 0 1 2 (RingLinks 4 1), ?_, .inl ⟨rfl, rfl⟩, ?_⟩
  · interval_cases d <;> decide
  · have keep : ∀ {i E}, WattsStrogatz (fun _ => True) 4 1 i E → WattsStrogatz (fun _ => True) 4 1 (i + 1) E := by
      intro i E h
      refine .node h (js := []) ?_ .nil
      by_cases hp : E i ((i + 1 + 0) % 4)
      · exact .tails hp trivial .nil
      · exact .skip hp .nil
    refine keep (keep (keep (.node (js := [1]) .ring (.heads ⟨by decide, by decide, 1, ?_⟩ trivial .nil)
      (.move 2 (by decide) (by decide) ?_ .nil))))
    · exact ⟨by decide, by decide, .inl rfl⟩
    · rintro ⟨-, -, d, h1, h2, h⟩
      obtain rfl : d = 1 := by omega
      revert h
      decide
  · rintro (h | h | ⟨-, h⟩)
    · exact absurd h.2 (by decide)
    · exact absurd h.1 (by decide)
    · exact h (.inl ⟨rfl, rfl⟩)

#print axioms C102_small_world
#print axioms C102_small_world_possible
#print axioms C102_small_world_ring

end FA.Props
