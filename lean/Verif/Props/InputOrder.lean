import Verif.Lemmas.InputOrder
import Verif.Props.FrontEnd
import Verif.Props.StandardForm
import Verif.Ref.Json
import Verif.Ref.Decide

/-!
# C76: the order of the nodes in the input
-/

namespace FA.Props
open FA Spec Analysis

/-- C76: inputs that list the same nodes in another order give the same results, up to IDs: after the
same calls, each method of the front end panics for both inputs, or gives answers that say the same
about nodes with given public keys. The quorum sets of the inputs may also be ordered differently, and
nodes may be ranked differently in the two runs. The public keys have to be different. Also, no quorum
set may list a node twice, or no single node may be a quorum.

Missing for the full statement: quorum sets that list a node twice when a single node is a quorum. Then
it is false (`C76_order_counterexample`), except for results that do not depend on the search for
blocking sets (`C76_without_blocking_sets`). -/
theorem C76_order_partial (env env' : Env) (r r' : RawFbas) (hd : DistinctKeys r)
    (ho : Reordered r r')
    (hn : (∀ x q, HasQSet (Fbas.fromRaw r) x q → DupFree q) ∨ ∀ x, ¬ IsQuorum (Fbas.fromRaw r) {x})
    (history : List Call) (c : Call) :
    SameResult (Fbas.fromRaw r) (Fbas.fromRaw r') (answerAfter env (Fbas.fromRaw r) history c)
      (answerAfter env' (Fbas.fromRaw r') history c) :=
  sameResult_of hd ho env env' history c (.inl (hn.imp Checked.noRepeats_of id))

/-- C76: without conditions on the quorum sets, for all methods except the one for minimal blocking
sets, unless the minimal blocking sets are the first results that were computed. -/
theorem C76_without_blocking_sets (env env' : Env) (r r' : RawFbas) (hd : DistinctKeys r)
    (ho : Reordered r r') (history : List Call) (c : Call) (hh : ¬ StartsWithBlockingSets history)
    (hc : c ≠ .minimalBlockingSets) :
    SameResult (Fbas.fromRaw r) (Fbas.fromRaw r') (answerAfter env (Fbas.fromRaw r) history c)
      (answerAfter env' (Fbas.fromRaw r') history c) :=
  sameResult_of hd ho env env' history c
    (.inr ⟨fun h => hh (startsWithBlockingSets_iff.2 h), hc⟩)

/-- Two nodes with the same quorum set, which lists the second one twice. -/
def rawTwice : RawFbas :=
  [⟨"a", ⟨2, ["a", "b", "b"], []⟩, none, none⟩, ⟨"b", ⟨2, ["a", "b", "b"], []⟩, none, none⟩]

/-- As `rawTwice`, with the nodes in the other order. -/
def rawTwice' : RawFbas :=
  [⟨"b", ⟨2, ["a", "b", "b"], []⟩, none, none⟩, ⟨"a", ⟨2, ["a", "b", "b"], []⟩, none, none⟩]

/-- C76 fails for quorum sets that list a node twice: whether the sets `{a, b}` are reported as
minimal blocking sets besides `{b}` depends on the order of the nodes in the input. If this is the
first call then it also changes the top tier. -/
theorem C76_order_counterexample : DistinctKeys rawTwice ∧ Reordered rawTwice rawTwice' ∧
    answerAfter (Ref.refEnv 2) (Fbas.fromRaw rawTwice) [] .minimalBlockingSets =
      .ok (.sets [{1}, {0, 1}, {0, 1}]) ∧
    answerAfter (Ref.refEnv 2) (Fbas.fromRaw rawTwice') [] .minimalBlockingSets =
      .ok (.sets [{0}]) ∧
    answerAfter (Ref.refEnv 2) (Fbas.fromRaw rawTwice) [.minimalBlockingSets] .topTier =
      .ok (.set {0, 1}) ∧
    answerAfter (Ref.refEnv 2) (Fbas.fromRaw rawTwice') [.minimalBlockingSets] .topTier =
      .ok (.set {0}) ∧
    ¬ SameResult (Fbas.fromRaw rawTwice) (Fbas.fromRaw rawTwice')
      (answerAfter (Ref.refEnv 2) (Fbas.fromRaw rawTwice) [] .minimalBlockingSets)
      (answerAfter (Ref.refEnv 2) (Fbas.fromRaw rawTwice') [] .minimalBlockingSets) := by
  have h1 : answerAfter (Ref.refEnv 2) (Fbas.fromRaw rawTwice) [] .minimalBlockingSets =
      .ok (.sets [{1}, {0, 1}, {0, 1}]) := Ref.ok_of (by decide +kernel)
  have h2 : answerAfter (Ref.refEnv 2) (Fbas.fromRaw rawTwice') [] .minimalBlockingSets =
      .ok (.sets [{0}]) := Ref.ok_of (by decide +kernel)
  refine ⟨by unfold DistinctKeys; decide +kernel,
    ⟨_, List.Perm.swap _ _ [], .cons ⟨rfl, SameQSet.refl _⟩ (.cons ⟨rfl, SameQSet.refl _⟩ .nil)⟩,
    h1, h2, Ref.ok_of (by decide +kernel), Ref.ok_of (by decide +kernel), fun h => ?_⟩
  rw [h1, h2] at h
  cases h with
  | ok h =>
    cases h with
    | sets h => exact absurd h.length_eq (by decide)

/-- Concrete case: the hypotheses of `C76_order_partial` hold for inputs with nested quorum sets, one
of which lists nodes twice. -/
example : DistinctKeys rawStd ∧ Reordered rawStd rawStd' ∧
    ∀ x, ¬ IsQuorum (Fbas.fromRaw rawStd) {x} := by
  refine ⟨by unfold DistinctKeys; decide +kernel, ?_, fun x hx => ?_⟩
  · refine ⟨_, List.perm_append_comm (l₁ := rawStd.take 3) (l₂ := rawStd.drop 3), ?_⟩
    refine .cons ⟨rfl, .trans (.validators 2 _ ?_) (.inner 2 _ ?_)⟩ (.cons ⟨rfl, .validators 2 _ ?_⟩
      (.cons ⟨rfl, SameQSet.refl _⟩ (.cons ⟨rfl, SameQSet.refl _⟩ .nil)))
    · exact List.Perm.swap _ _ _
    · exact List.Perm.swap _ _ _
    · exact List.isPerm_iff.1 (by decide +kernel)
  · have h : ∀ x < 4, ¬ IsQuorum (Fbas.fromRaw rawStd) {x} := by decide +kernel
    obtain ⟨q, ⟨n, hn, -⟩, -⟩ := hx.2 x (Finset.mem_singleton_self x)
    exact h x (List.getElem?_eq_some_iff.1 hn).1 hx

/-- Concrete case: for these inputs the answers have other IDs and another order, but the sets contain
the same nodes. -/
example : answerAfter (Ref.refEnv 4) (Fbas.fromRaw rawStd) [] .minimalQuorums =
      .ok (.sets [{0, 1}, {0, 3}, {1, 3}]) ∧
    answerAfter (Ref.refEnv 4) (Fbas.fromRaw rawStd') [] .minimalQuorums =
      .ok (.sets [{0, 1}, {0, 2}, {1, 2}]) ∧
    [({0, 1} : NodeSet), {0, 3}, {1, 3}].map (names (Fbas.fromRaw rawStd)) =
      [{"b", "d"}, {"a", "d"}, {"a", "b"}] ∧
    [({0, 1} : NodeSet), {0, 2}, {1, 2}].map (names (Fbas.fromRaw rawStd')) =
      [{"a", "d"}, {"a", "b"}, {"b", "d"}] :=
  ⟨Ref.ok_of (by decide +kernel), Ref.ok_of (by decide +kernel), by decide +kernel, by decide +kernel⟩

/-- Concrete case: an input without repetitions, with quorums of one node. -/
example : (∀ x q, HasQSet (Fbas.fromRaw [⟨"a", ⟨1, ["a"], []⟩, none, none⟩,
      ⟨"b", ⟨1, ["b"], [⟨1, ["a"], []⟩]⟩, none, none⟩]) x q → DupFree q) ∧
    IsQuorum (Fbas.fromRaw [⟨"a", ⟨1, ["a"], []⟩, none, none⟩,
      ⟨"b", ⟨1, ["b"], [⟨1, ["a"], []⟩]⟩, none, none⟩]) {0} := by
  refine ⟨?_, by decide +kernel⟩
  rintro x q ⟨n, hn, rfl⟩
  have h : ∀ n ∈ (Fbas.fromRaw [⟨"a", ⟨1, ["a"], []⟩, none, none⟩,
      ⟨"b", ⟨1, ["b"], [⟨1, ["a"], []⟩]⟩, none, none⟩]).nodes,
      n.quorumSet.containsDuplicates = false := by decide +kernel
  exact Ref.dupFree_of (h n (List.mem_of_getElem? hn))

/-- Concrete case: the hypotheses of `C76_without_blocking_sets` hold for `rawTwice`, which has a
quorum of one node and repetitions. -/
example : ¬ StartsWithBlockingSets [.minimalQuorums, .minimalBlockingSets] ∧
    answerAfter (Ref.refEnv 2) (Fbas.fromRaw rawTwice) [.minimalQuorums, .minimalBlockingSets]
      .topTier = .ok (.set {1}) ∧
    answerAfter (Ref.refEnv 2) (Fbas.fromRaw rawTwice') [.minimalQuorums, .minimalBlockingSets]
      .topTier = .ok (.set {0}) := by
  refine ⟨?_, Ref.ok_of (by decide +kernel), Ref.ok_of (by decide +kernel)⟩
  rw [startsWithBlockingSets_iff, blockingFirst_cons]
  simp [Passive]

#print axioms C76_order_partial
#print axioms C76_without_blocking_sets
#print axioms C76_order_counterexample

end FA.Props
