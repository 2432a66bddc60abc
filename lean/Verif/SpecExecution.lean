import Verif.SpecSafety
import Mathlib.Logic.Relation
import Mathlib.Data.Finset.SDiff

/-!
# Specification of running networks

Two small transition systems in which the nodes of an FBAS act one at a time, in any order. They give a
meaning to "liveness" and "safety" (README.md:13-15) that does not mention quorums that intersect, blocking
sets or splitting sets.
-/

namespace FA.Spec
open FA

/-- One of the running nodes `R` stops, because the running nodes do not satisfy its quorum set. -/
inductive Halts (f : Fbas) : NodeSet → NodeSet → Prop
  | node {R : NodeSet} {x : NodeId} (hx : x ∈ R) (h : ¬ ∃ q, HasQSet f x q ∧ Slice R q) :
      Halts f R (R.erase x)

/-- After the nodes in `B` have failed, nodes may stop one after the other until `R` are the nodes that
still run. -/
def MayLeave (f : Fbas) (B R : NodeSet) : Prop :=
  Relation.ReflTransGen (Halts f) (Finset.range f.nodes.length \ B) R

/-- Nothing happens any more. -/
def AtRest (f : Fbas) (R : NodeSet) : Prop := ∀ R', ¬ Halts f R R'

/-- After the nodes in `B` have failed, every execution ends with no node running. -/
def StopsAll (f : Fbas) (B : NodeSet) : Prop := ∀ R, MayLeave f B R → AtRest f R → R = ∅

/-- The state of a vote: what nodes have voted for, and which decisions have been made. -/
structure Voting where
  votes : NodeId → Option ℕ
  decided : NodeId → ℕ → Prop

/-- Nobody has voted. -/
def Voting.start : Voting := ⟨fun _ => none, fun _ _ => False⟩

/-- A step of a vote. Nodes outside of `S` vote at most once. They decide if they are part of a group of
nodes that have voted for the same and that all have their quorum sets satisfied by this group, with the
help of nodes in `S`, who may claim anything to anyone. -/
inductive VoteStep (f : Fbas) (S : NodeSet) : Voting → Voting → Prop
  | vote {s : Voting} {x : NodeId} (v : ℕ) (hx : x ∉ S) (h : s.votes x = none) :
      VoteStep f S s ⟨fun y => if y = x then some v else s.votes y, s.decided⟩
  | decide {s : Voting} {x : NodeId} {v : ℕ} {Q : NodeSet} (hx : x ∈ Q) (hQ : ∀ y ∈ Q, y ∉ S)
      (hv : ∀ y ∈ Q, s.votes y = some v) (hs : ∀ y ∈ Q, ∃ q, HasQSet f y q ∧ Slice (Q ∪ S) q) :
      VoteStep f S s ⟨s.votes, fun y w => s.decided y w ∨ (y = x ∧ w = v)⟩

/-- All decisions are the same. -/
def Voting.Agrees (s : Voting) : Prop := ∀ x y v w, s.decided x v → s.decided y w → v = w

/-- All decisions are the same in every execution in which the nodes in `S` misbehave. -/
def AlwaysAgrees (f : Fbas) (S : NodeSet) : Prop :=
  ∀ s, Relation.ReflTransGen (VoteStep f S) Voting.start s → s.Agrees

end FA.Spec
