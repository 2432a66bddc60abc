import Verif.SpecSimulator

/-!
# Specification: what random choices can lead to
-/

namespace FA.Spec
open FA

/-- The sets of nodes that node `x` can have in its quorum set if it chooses at random, `size` nodes are wanted,
and the network has grown from `i` to `n` nodes: itself and others; nobody chooses again when nodes are added,
except for the first nodes if there were not enough to choose from. -/
structure CanTrust (size i n : ℕ) (x : NodeId) (S : Finset NodeId) : Prop where
  self : x ∈ S
  card : S.card = min size n
  near : ∀ v ∈ S, v < max (x + 1) (max i (min size n))

/-- The networks that `new_random_scale_free` can generate: the first `m0` nodes are connected with each other, all
others with `m` earlier nodes. -/
structure ScaleFreeLinks (n m0 m : ℕ) (E : NodeId → NodeId → Prop) : Prop where
  range : ∀ x y, E x y → x < n ∧ y < n
  symm : ∀ x y, E x y → E y x
  loop : ∀ x, ¬ E x x
  first : ∀ x < m0, ∀ y < m0, x ≠ y → E x y
  later : ∀ x, m0 ≤ x → x < n → Set.ncard {y : ℕ | y < x ∧ E x y} = m

/-- A ring of `n` nodes, each of which is linked with the `h` nodes before and after it. -/
def RingLinks (n h : ℕ) : ℕ → ℕ → Prop := fun x y =>
  x < n ∧ y < n ∧ ∃ d, 1 ≤ d ∧ d ≤ h ∧ ((x + d) % n = y ∨ (y + d) % n = x)

/-- Node `i` replaces its link with `j` by a link with `w`. -/
def MoveLink (i j w : ℕ) (E : ℕ → ℕ → Prop) : ℕ → ℕ → Prop := fun x y =>
  (x = i ∧ y = w) ∨ (x = w ∧ y = i) ∨ (E x y ∧ ¬ ((x = i ∧ y = j) ∨ (x = j ∧ y = i)))

/-- A coin is flipped for each node of the first list that satisfies `p`; the second list contains the nodes for
which it was heads. -/
inductive Flipped (Coin : Bool → Prop) (p : ℕ → Prop) : List ℕ → List ℕ → Prop
  | nil : Flipped Coin p [] []
  | skip {j l js} : ¬ p j → Flipped Coin p l js → Flipped Coin p (j :: l) js
  | tails {j l js} : p j → Coin false → Flipped Coin p l js → Flipped Coin p (j :: l) js
  | heads {j l js} : p j → Coin true → Flipped Coin p l js → Flipped Coin p (j :: l) (j :: js)

/-- Node `i` replaces its links with the listed nodes, one after the other, by links with nodes with which it is not
linked at that time. There is nothing to replace if it is linked with all nodes. -/
inductive MovesLinks (n i : ℕ) : (ℕ → ℕ → Prop) → List ℕ → (ℕ → ℕ → Prop) → Prop
  | nil {E} : MovesLinks n i E [] E
  | stuck {E j js E'} : (∀ w, w < n → w ≠ i → E i w) → MovesLinks n i E js E' → MovesLinks n i E (j :: js) E'
  | move {E j js E'} (w : ℕ) : w < n → w ≠ i → ¬ E i w → MovesLinks n i (MoveLink i j w E) js E' →
      MovesLinks n i E (j :: js) E'

/-- The networks of Watts and Strogatz after the first nodes have been considered: in a ring, one node after the other
flips a coin for each of its links with the next `h` nodes, and replaces those for which it was heads. -/
inductive WattsStrogatz (Coin : Bool → Prop) (n h : ℕ) : ℕ → (ℕ → ℕ → Prop) → Prop
  | ring : WattsStrogatz Coin n h 0 (RingLinks n h)
  | node {i E js E'} : WattsStrogatz Coin n h i E →
      Flipped Coin (E i) ((List.range h).map (fun d => (i + 1 + d) % n)) js → MovesLinks n i E js E' →
      WattsStrogatz Coin n h (i + 1) E'

/-- The weighted choices of the generator satisfy `Ok`, which relates the candidates and their weights to the chosen
one. -/
def Follows (R : Rand) (Ok : List (NodeId × ℕ) → NodeId → Prop) : Prop :=
  ∀ s w l x s', R.chooseWeighted s w l = (some x, s') → Ok (l.map (fun y => (y, w y))) x

/-- The nodes `vs` are chosen one after the other among the given candidates, without repetitions, and the choices
satisfy `Ok` for the given weights. -/
def ChosenBy (Ok : List (NodeId × ℕ) → NodeId → Prop) (candidates : List NodeId) (weight : NodeId → ℕ)
    (vs : List NodeId) : Prop :=
  ∀ (k : ℕ) v, vs[k]? = some v →
    Ok ((candidates.filter (fun y => decide (y ∉ vs.take k))).map (fun y => (y, weight y))) v

/-- The list `vs` of validators of node `x`: first the node itself; then nodes are chosen one after the other among
those that are present at that time and not yet listed. There are `i` nodes in the beginning and one node is added
at a time. -/
def ChosenInTurn (Ok : List (NodeId × ℕ) → NodeId → Prop) (i : ℕ) (weight : NodeId → ℕ) (x : NodeId)
    (vs : List NodeId) : Prop :=
  vs[0]? = some x ∧ ∀ (k : ℕ) v, 1 ≤ k → vs[k]? = some v →
    Ok (((List.range (max (x + 1) (max i (k + 1)))).filter (fun y => decide (y ∉ vs.take k))).map
      (fun y => (y, weight y))) v

end FA.Spec
