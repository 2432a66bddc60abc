import Verif.Model.Simulation
import Verif.Spec
import Verif.SpecGraph

/-!
# Specification: simulation

What a simulation run is, in terms of a configurator.
-/

namespace FA.Spec
open FA

/-- The configurator is applied to one node after the other; the reported effects are recorded
together with the nodes. -/
inductive Visits {R : Rand} (qsc : Qsc R) :
    Fbas × R.State → List (NodeId × ChangeEffect) → Fbas × R.State → Prop
  | nil (st : Fbas × R.State) : Visits qsc st [] st
  | cons {st st' st'' : Fbas × R.State} {x : NodeId} {c : ChangeEffect}
      {vs : List (NodeId × ChangeEffect)} :
      qsc x st = .ok (c, st') → Visits qsc st' vs st'' → Visits qsc st ((x, c) :: vs) st''

/-- A sequence of rounds; in every round each of the first `n` nodes is visited exactly once, in any
order. Other random numbers may be drawn between rounds. -/
inductive Rounds {R : Rand} (qsc : Qsc R) (n : ℕ) :
    Fbas → List (List (NodeId × ChangeEffect)) → Fbas → Prop
  | nil (f : Fbas) : Rounds qsc n f [] f
  | cons {f f' f'' : Fbas} {s s' : R.State} {vs : List (NodeId × ChangeEffect)}
      {rs : List (List (NodeId × ChangeEffect))} :
      (vs.map Prod.fst).Perm (List.range n) → Visits qsc (f, s) vs (f', s') →
      Rounds qsc n f' rs f'' → Rounds qsc n f (vs :: rs) f''

/-- Some configuration changed in the round. -/
def HadChange (vs : List (NodeId × ChangeEffect)) : Prop := ∃ x, (x, ChangeEffect.change) ∈ vs

/-- The events of a round. -/
def roundEvents (vs : List (NodeId × ChangeEffect)) : List Event :=
  .startGlobalReevaluationRound :: vs.map (fun p => .quorumSetChange p.1 p.2)

/-- Every node has the quorum set `q`. -/
def AllHave (f : Fbas) (q : QuorumSet) : Prop := ∀ x < f.nodes.length, HasQSet f x q

/-- `y` is linked by `x` and has at least twice its score; or `x` links to no such node, and `y` has more
than half of its score. -/
def Preferred (g : Graph) (score : NodeId → ℚ) (x y : NodeId) : Prop :=
  Link g x y ∧ (2 * score x ≤ score y ∨
    (∀ z, Link g x z → score z < 2 * score x) ∧ score x < 2 * score y)

/-- `y` is preferred by `x`; or a node preferred by `x` has a quorum set with both `x` and `y`. -/
def PreferredSym (g : Graph) (score : NodeId → ℚ) (f : Fbas) (x y : NodeId) : Prop :=
  Preferred g score x y ∨
    ∃ z q, Preferred g score x z ∧ HasQSet f z q ∧ Mentions q x ∧ Mentions q y

end FA.Spec
