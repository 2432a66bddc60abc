import Mathlib.Algebra.BigOperators.Group.Finset.Basic
import Mathlib.Data.Rat.Defs
import Mathlib.Algebra.Order.Ring.Rat
import Mathlib.Logic.Equiv.Defs
import Verif.SpecRange
import Verif.SpecGraph

/-!
# Specification: probabilities of small-world networks, renamed nodes
-/

namespace FA.Spec
open FA

open Classical in
/-- A coin that is heads with probability `beta` is flipped for each of the nodes that satisfies `p`, and the others are
skipped. `K` gives the probability of an event for each list of nodes for which it was heads; the result is the
probability of the event before the coins are flipped. `js` are the nodes for which it has been heads already. -/
noncomputable def AfterCoins (beta : ℚ) (p : ℕ → Prop) (K : List ℕ → ℚ) : List ℕ → List ℕ → ℚ
  | js, [] => K js
  | js, j :: l =>
    if p j then beta * AfterCoins beta p K (js ++ [j]) l + (1 - beta) * AfterCoins beta p K js l
    else AfterCoins beta p K js l

open Classical in
/-- The nodes with which node `i` is not linked. -/
noncomputable def Unlinked (n i : ℕ) (E : ℕ → ℕ → Prop) : Finset ℕ :=
  (Finset.range n).filter (fun w => w ≠ i ∧ ¬ E i w)

/-- Node `i` replaces its links with the listed nodes, one after the other, by links with nodes with which it is not
linked at that time, all of them with the same probability. `K` gives the probability of an event for each network; the
result is its probability before the links are replaced. -/
noncomputable def AfterMoves (n i : ℕ) (K : (ℕ → ℕ → Prop) → ℚ) : List ℕ → (ℕ → ℕ → Prop) → ℚ
  | [], E => K E
  | j :: js, E =>
    if (Unlinked n i E).card = 0 then AfterMoves n i K js E
    else (∑ w ∈ Unlinked n i E, AfterMoves n i K js (MoveLink i j w E)) / (Unlinked n i E).card

open Classical in
/-- The probability that a network of Watts and Strogatz has the property `A`, if the network is `E` before the last `f`
nodes, beginning with node `i`, flip their coins. -/
noncomputable def SmallWorldChance (beta : ℚ) (n h : ℕ) (A : (ℕ → ℕ → Prop) → Prop) : ℕ → ℕ → (ℕ → ℕ → Prop) → ℚ
  | 0, _, E => if A E then 1 else 0
  | f + 1, i, E =>
    AfterCoins beta (E i) (fun js => AfterMoves n i (SmallWorldChance beta n h A f (i + 1)) js E) []
      ((List.range h).map (fun d => (i + 1 + d) % n))

/-- `g'` results from `g` by giving node `i` the name `π i`. -/
def GivesNames (g : Graph) (π : Equiv.Perm (Fin g.outlinks.length)) (g' : Graph) : Prop :=
  g'.outlinks.length = g.outlinks.length ∧ ∀ i : Fin g.outlinks.length,
    g'.outlinks[(π i : ℕ)]? =
      some ((g.outlinks.get i).map (fun x => if h : x < g.outlinks.length then (π ⟨x, h⟩ : ℕ) else x))

end FA.Spec
