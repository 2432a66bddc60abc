import Verif.Lemmas.RandomWeighted
import Verif.Props.Weights
import Verif.Ref.Decide

/-!
# C102: networks of weighted random quorum sets
-/

namespace FA.Props
open FA Spec Simulator

attribute [local irreducible] Probability

/-- C102: in a simulation with weighted choices, with quorum sets of `size` validators and at least as many initial
nodes, each node `x` chooses the nodes `J x`, in this order, with the probability that results if each initial node
draws from the other initial nodes, and each node that is added later from the nodes that are already there, all
independently of each other, and a candidate that is left with the probability that its weight has among them. -/
theorem C102_weighted_network (L : ℕ) (hL : 0 < L) (i g size N : ℕ) (t : Option ℕ) (w : List ℕ) (hsize : 2 ≤ size)
    (hi : size ≤ i) (hd : ∀ d, 0 < d → d ≤ ((List.range (i + g)).map (fun y => w.getD y 1)).sum → d ∣ L)
    (hN : (i + g) * (i + g + size) ≤ N) (J : NodeId → List NodeId)
    (hJ : ∀ x < i + g, (J x).Nodup ∧ (J x).length = size - 1 ∧ ∀ j ∈ J x, j < max i x ∧ j ≠ x) :
    Probability L N (fun r => ∃ f, QscSimulator.simulate (Qsc.random (lottery L) size t w) i g r = .ok f ∧
      ∀ x < i + g, ∃ q, HasQSet f x q ∧ q.validators = x :: J x) =
      (∏ x ∈ Finset.range i, InTurn (fun y => w.getD y 1) ((List.range i).erase x) (J x)) *
        ∏ j ∈ Finset.range g, InTurn (fun y => w.getD y 1) (List.range (i + j)) (J (i + j)) :=
  simulate_weighted hL hsize hi hd hJ hN

/-- Three initial nodes of the weights 3, 2 and 1, and a fourth one: node 0 chooses node 1 (2/3), node 1 node 0 (3/4),
node 2 node 0 (3/5), and node 3 node 2 (1/6). -/
example : Probability 2520 24 (fun r => ∃ f, QscSimulator.simulate (Qsc.random (lottery 2520) 2 none [3, 2, 1]) 3 1 r =
      .ok f ∧ ∀ x < 3 + 1, ∃ q, HasQSet f x q ∧ q.validators = x :: [([1, 0, 0, 2] : List ℕ).getD x 0]) =
    2 / 3 * (3 / 4) * (3 / 5) * (1 / 6) := by
  refine (C102_weighted_network 2520 (by decide) 3 1 2 24 none [3, 2, 1] (by decide) (by decide)
    (fun d h1 h2 => (by decide : ∀ d < 8, 0 < d → d ∣ 2520) d (Nat.lt_succ_of_le h2) h1) (by decide)
    (fun x => [([1, 0, 0, 2] : List ℕ).getD x 0]) (by decide)).trans ?_
  have e0 : (List.range 3).erase 0 = [1, 2] := by decide
  have e1 : (List.range 3).erase 1 = [0, 2] := by decide
  have e2 : (List.range 3).erase 2 = [0, 1] := by decide
  have e3 : List.range (3 + 0) = [0, 1, 2] := by decide
  rw [Finset.prod_range_one, Finset.prod_range_succ, Finset.prod_range_succ, Finset.prod_range_one, e0, e1, e2, e3]
  norm_num [InTurn]

/-- C102: if there are at most `size` initial nodes and the first `size` nodes have positive weights, these nodes trust
each other in any case. The nodes that are added later draw from the nodes that are already there, as in
`C102_weighted_network`. -/
theorem C102_weighted_few (L : ℕ) (hL : 0 < L) (i g size : ℕ) (t : Option ℕ) (w : List ℕ) (hsize : 2 ≤ size)
    (hi : i ≤ size) (hw : ∀ y < min size (i + g), 0 < w.getD y 1)
    (hd : ∀ d, 0 < d → d ≤ ((List.range (i + g)).map (fun y => w.getD y 1)).sum → d ∣ L) (J : NodeId → List NodeId)
    (hJ : ∀ x, size ≤ x → x < i + g → (J x).Nodup ∧ (J x).length = size - 1 ∧ ∀ j ∈ J x, j < x ∧ j ≠ x) :
    ∃ N0, ∀ N, N0 ≤ N →
    Probability L N (fun r => ∃ f, QscSimulator.simulate (Qsc.random (lottery L) size t w) i g r = .ok f ∧
      (∀ x < min size (i + g), ∃ q js, HasQSet f x q ∧ q.validators = x :: js ∧
        q.validators.Perm (List.range (min size (i + g)))) ∧
      ∀ x, size ≤ x → x < i + g → ∃ q, HasQSet f x q ∧ q.validators = x :: J x) =
      ∏ j ∈ Finset.range (i + g - size), InTurn (fun y => w.getD y 1) (List.range (size + j)) (J (size + j)) :=
  simulate_weighted_few hL hsize hi hw hd hJ

/-- Without initial nodes: the nodes 0 and 1 trust each other, node 2 chooses node 1 (2/5), node 3 node 2 (1/6). -/
example : ∃ N0, ∀ N, N0 ≤ N →
    Probability 2520 N (fun r => ∃ f, QscSimulator.simulate (Qsc.random (lottery 2520) 2 none [3, 2, 1]) 0 4 r = .ok f ∧
      (∀ x < min 2 (0 + 4), ∃ q js, HasQSet f x q ∧ q.validators = x :: js ∧
        q.validators.Perm (List.range (min 2 (0 + 4)))) ∧
      ∀ x, 2 ≤ x → x < 0 + 4 → ∃ q, HasQSet f x q ∧ q.validators = x :: [x - 1]) = 2 / 5 * (1 / 6) := by
  obtain ⟨N0, h⟩ := C102_weighted_few 2520 (by decide) 0 4 2 none [3, 2, 1] (by decide) (by decide) (by decide)
    (fun d h1 h2 => (by decide : ∀ d < 8, 0 < d → d ∣ 2520) d (Nat.lt_succ_of_le h2) h1) (fun x => [x - 1])
    (fun x h1 _ => ⟨List.nodup_singleton _, rfl, fun j hj => by
      have h2 := List.mem_singleton.1 hj
      have key : ∀ a b : ℕ, 2 ≤ b → a = b - 1 → a < b ∧ a ≠ b := by omega
      exact key j x h1 h2⟩)
  refine ⟨N0, fun N hN => (h N hN).trans ?_⟩
  have e0 : List.range (2 + 0) = [0, 1] := by decide
  have e1 : List.range (2 + 1) = [0, 1, 2] := by decide
  rw [show 0 + 4 - 2 = 2 from rfl, Finset.prod_range_succ, Finset.prod_range_one, e0, e1]
  show InTurn _ [0, 1] [1] * InTurn _ [0, 1, 2] [2] = _
  norm_num [InTurn]

/-- C102: for `FameWeightedRandom`, the weights in `C102_weighted_network` are the numbers of links that lead to the
nodes; nodes outside of the graph have the weight 1. -/
theorem C102_fame (L : ℕ) (hL : 0 < L) (rnd : ℚ → ℚ) (i0 g size N : ℕ) (t : Text) (th : Option ℕ) (G : Graph)
    (hG : Graph.fromAsRelString t = .ok G) (hsize : 2 ≤ size) :
    let args : QscSimulator.Cli := ⟨i0, g, .fameWeightedRandom size t th⟩
    let i := initialSize args G.outlinks.length
    let W : NodeId → ℕ := fun y => if y < G.outlinks.length then linksInto G y else 1
    size ≤ i → (∀ d, 0 < d → d ≤ ((List.range (i + g)).map W).sum → d ∣ L) → (i + g) * (i + g + size) ≤ N →
    ∃ ds : List ℕ, (∀ r, QscSimulator.main (lottery L) rnd args r =
        (QscSimulator.simulate (Qsc.random (lottery L) size th ds) i g r).map Fbas.toJson) ∧
      ∀ J : NodeId → List NodeId,
        (∀ x < i + g, (J x).Nodup ∧ (J x).length = size - 1 ∧ ∀ j ∈ J x, j < max i x ∧ j ≠ x) →
        Probability L N (fun r => ∃ f, QscSimulator.simulate (Qsc.random (lottery L) size th ds) i g r = .ok f ∧
          ∀ x < i + g, ∃ q, HasQSet f x q ∧ q.validators = x :: J x) =
          (∏ x ∈ Finset.range i, InTurn W ((List.range i).erase x) (J x)) *
            ∏ j ∈ Finset.range g, InTurn W (List.range (i + j)) (J (i + j)) := by
  intro args i W hi hd hN
  obtain ⟨ds, hds1, hds2, hds3⟩ := C52_in_degrees G (fromAsRel_spec hG).1
  have hp : QscSimulator.parseQscConfig (lottery L) rnd (.fameWeightedRandom size t th) =
      .ok (Qsc.random (lottery L) size th ds, G.outlinks.length) := by
    dsimp only [QscSimulator.parseQscConfig]; exact withGraph_ok hG (by rw [hds1])
  have hwt : (fun y : ℕ => ds.getD y 1) = W := by
    funext y
    show _ = if y < G.outlinks.length then linksInto G y else 1
    rw [List.getD_eq_getElem?_getD]
    by_cases hy : y < G.outlinks.length
    · rw [hds3 y hy, if_pos hy]; rfl
    · rw [List.getElem?_eq_none (by rw [hds2]; exact Nat.le_of_not_lt hy), if_neg hy]; rfl
  refine ⟨ds, fun r => (main_simulates (args := args) hp r).2, fun J hJ => ?_⟩
  have h1 := C102_weighted_network L hL i g size N th ds hsize hi (by rw [hwt]; exact hd) hN J hJ
  rw [hwt] at h1
  exact h1

/-- Node 0 is the target of two links, node 1 of one and node 2 of none: node 0 has to choose node 1, node 1 has to
choose node 0, and node 2 chooses node 0 with the probability 2/3. -/
example : ∃ ds : List ℕ, (∀ r, QscSimulator.main (lottery 6) id
        ⟨0, 0, .fameWeightedRandom 2 "0|2|-1\n1|2|-1\n0|1|-1\n".toList none⟩ r =
        (QscSimulator.simulate (Qsc.random (lottery 6) 2 none ds) 3 0 r).map Fbas.toJson) ∧
      Probability 6 15 (fun r => ∃ f, QscSimulator.simulate (Qsc.random (lottery 6) 2 none ds) 3 0 r = .ok f ∧
        ∀ x < 3, ∃ q, HasQSet f x q ∧ q.validators = x :: [([1, 0, 0] : List ℕ).getD x 0]) = 2 / 3 := by
  obtain ⟨G, hG, hout⟩ : ∃ G, Graph.fromAsRelString "0|2|-1\n1|2|-1\n0|1|-1\n".toList = .ok G ∧
      G.outlinks = [[], [0], [0, 1]] := by
    have h : (Graph.fromAsRelString "0|2|-1\n1|2|-1\n0|1|-1\n".toList).map (·.outlinks) = .ok [[], [0], [0, 1]] :=
      Ref.ok_of (by decide +kernel)
    cases hG : Graph.fromAsRelString "0|2|-1\n1|2|-1\n0|1|-1\n".toList with
    | error e => rw [hG] at h; cases h
    | ok G => rw [hG] at h; exact ⟨G, rfl, Except.ok.inj h⟩
  obtain ⟨o⟩ := G
  obtain rfl : o = [[], [0], [0, 1]] := hout
  obtain ⟨ds, h1, h2⟩ := C102_fame 6 (by decide) id 0 0 2 15 _ none _ hG (by decide) (by decide)
    (fun d h1 h2 => (by decide : ∀ d < 4, 0 < d → d ∣ 6) d (Nat.lt_succ_of_le h2) h1) (by decide)
  refine ⟨ds, h1, (h2 (fun x => [([1, 0, 0] : List ℕ).getD x 0]) (by decide)).trans ?_⟩
  have e : initialSize ⟨0, 0, .fameWeightedRandom 2 "0|2|-1\n1|2|-1\n0|1|-1\n".toList none⟩ 3 = 3 := rfl
  have e0 : (List.range 3).erase 0 = [1, 2] := by decide
  have e1 : (List.range 3).erase 1 = [0, 2] := by decide
  have e2 : (List.range 3).erase 2 = [0, 1] := by decide
  show (∏ x ∈ Finset.range 3, _) * ∏ j ∈ Finset.range 0, _ = _
  rw [Finset.prod_range_zero, Finset.prod_range_succ, Finset.prod_range_succ, Finset.prod_range_one]
  norm_num [InTurn, e, e0, e1, e2, linksInto]

#print axioms C102_weighted_network
#print axioms C102_weighted_few
#print axioms C102_fame
end FA.Props
