import Verif.Lemmas.Execution
import Verif.Props.Safety
import Verif.Props.FrontEndSound

/-!
# C88: what the results say about a running network

Executions of the transition systems in `SpecExecution`, in which nodes fail and stop, or misbehave in a
vote.
-/

namespace FA.Props
open FA Spec Analysis

/-- C88: after the nodes in `B` have failed, nodes may stop in any order, but not for ever; the same nodes
run in the end whatever the order is, namely the members of quorums without failed nodes. All nodes stop
iff `B` is a blocking set. -/
theorem C88_liveness (f : Fbas) (B : NodeSet) :
    (∀ s : ℕ → NodeSet, ¬ ∀ k, Halts f (s k) (s (k + 1))) ∧
    (∃ R, MayLeave f B R ∧ AtRest f R) ∧
    (∀ R, MayLeave f B R → AtRest f R →
      ∀ x, x ∈ R ↔ ∃ Q, IsQuorum f Q ∧ (∀ y ∈ Q, y ∉ B) ∧ x ∈ Q) ∧
    (StopsAll f B ↔ Blocking f B) := by
  refine ⟨fun s h => ?_, exists_atRest _ _ (Nat.le_refl _), fun R h1 h2 => left_iff h1 h2, stopsAll_iff⟩
  have key : ∀ k, (s k).card + k ≤ (s 0).card := by
    intro k
    induction k with
    | zero => exact Nat.le_refl _
    | succ k ih => have := (h k).card; omega
  have := key ((s 0).card + 1)
  omega

/-- C88: if all nodes of a set reported by `Analysis::minimal_blocking_sets` fail, then all nodes stop in
every execution. This holds for all FBASs and histories. -/
theorem C88_reported_stop (env : Env) (f : Fbas) (hwf : WF f) (history : List Call) (L : List NodeSet)
    (h : answerAfter env f history .minimalBlockingSets = .ok (.sets L)) :
    ∀ S ∈ L, ∀ B, S ⊆ B → StopsAll f B := by
  intro S hS B hB
  refine stopsAll_iff.2 fun Q hQ => ?_
  obtain ⟨x, h1, h2⟩ := C29_sound env f hwf history L h S hS Q hQ
  exact ⟨x, h1, hB h2⟩

/-- C88: `Analysis::minimal_blocking_sets` reports exactly the minimal sets of nodes whose failure stops all
nodes. Hence the failure of a set of nodes stops all nodes iff it includes a reported one, and failures of
fewer nodes than in the smallest reported set never do.

Missing for the full statement: FBASs without quorums and FBASs that are not well-shaped, see C29. -/
theorem C88_minimal_blocking_sets_partial (env : Env) (f : Fbas) (hwf : WF f) (hw : WellShaped env f)
    (hq : ∃ Q, IsQuorum f Q) (history : List Call) :
    ∃ L, answerAfter env f history .minimalBlockingSets = .ok (.sets L) ∧
      (∀ S, S ∈ L ↔ Minimal (StopsAll f) S) ∧
      (∀ B, StopsAll f B ↔ ∃ S ∈ L, S ⊆ B) ∧
      ∀ B : NodeSet, (∀ S ∈ L, B.card < S.card) → ∃ R, MayLeave f B R ∧ AtRest f R ∧ R.Nonempty := by
  obtain ⟨L, h1, h2, -⟩ := C29_minimal_blocking_sets_partial env f hwf hw hq history
  have e : StopsAll f = Blocking f := funext fun B => propext stopsAll_iff
  have h3 : ∀ B, StopsAll f B ↔ ∃ S ∈ L, S ⊆ B := by
    intro B
    constructor
    · intro h
      rw [e] at h
      obtain ⟨S, hS, hm⟩ := exists_minimal_le_of_wellFoundedLT (Blocking f) B h
      exact ⟨S, (h2 S).2 hm, hS⟩
    · rintro ⟨S, hS, hB⟩
      exact C88_reported_stop env f hwf history L h1 S hS B hB
  refine ⟨L, h1, fun S => ?_, h3, fun B hB => ?_⟩
  · rw [e]; exact h2 S
  · obtain ⟨R, r1, r2⟩ := exists_atRest (f := f) _ (Finset.range f.nodes.length \ B) (Nat.le_refl _)
    refine ⟨R, r1, r2, ?_⟩
    by_contra hn
    have hs : StopsAll f B := by
      intro R' r3 r4
      refine Finset.eq_empty_of_forall_notMem fun x hx => hn ⟨x, ?_⟩
      exact (left_iff r1 r2 x).2 ((left_iff r3 r4 x).1 hx)
    obtain ⟨S, hS, hSB⟩ := (h3 B).1 hs
    have := hB S hS
    have := Finset.card_le_card hSB
    omega

/-- C88: in no execution of a vote, different decisions are made although the nodes in `S` misbehave, iff
these nodes do not endanger safety in the sense of C82. -/
theorem C88_safety (f : Fbas) (S : NodeSet) : AlwaysAgrees f S ↔ ¬ Endangers f S := alwaysAgrees_iff

/-- C88: `Analysis::has_quorum_intersection` tells if decisions agree in all executions in which no node
misbehaves, unless there are no quorums (then there are no decisions). -/
theorem C88_verdict (env : Env) (f : Fbas) (hwf : WF f) (hq : ∃ Q, IsQuorum f Q) (history : List Call)
    (hb : ¬ StartsWithBlockingSets history) :
    ∃ b, answerAfter env f history .hasQuorumIntersection = .ok (.bool b) ∧
      (b = true ↔ AlwaysAgrees f ∅) := by
  obtain ⟨b, h1, h2⟩ := C12_has_quorum_intersection env f hwf history (.inr hq) hb
  exact ⟨b, h1, by rw [h2, C82_intersection f hq, alwaysAgrees_iff]⟩

/-- C88: if the nodes of a reported minimal splitting set misbehave, then different decisions are made in some
execution; without the misbehaving nodes this is not possible. For well-shaped FBASs with quorum intersection.

Missing for the full statement: there are FBASs in which decisions can differ although no reported set
misbehaves, see `C82_counterexample`. -/
theorem C88_minimal_splitting_sets_partial (env : Env) (f : Fbas) (hwf : WF f) (hw : WellShaped env f)
    (hqi : QuorumIntersection f) (history : List Call) :
    AlwaysAgrees f ∅ ∧ ∃ L, answerAfter env f history .minimalSplittingSets = .ok (.sets L) ∧
      ∀ S ∈ L, ∃ s, Relation.ReflTransGen (VoteStep f S) Voting.start s ∧
        ∃ x y, s.decided x 0 ∧ s.decided y 1 := by
  refine ⟨alwaysAgrees_iff.2 ((C82_intersection f hqi.1).1 hqi), ?_⟩
  obtain ⟨L, h1, h2⟩ := C82_reported_partial env f hwf hw hqi history
  exact ⟨L, h1, fun S hS => disagreement (h2 S hS).2⟩

/-- Concrete case: if 0 and 1 fail, then all nodes stop; if only 1 and 3 fail, then the others keep running. -/
example : StopsAll fbasFront {0, 1} ∧ ¬ StopsAll fbasFront {1, 3} :=
  ⟨stopsAll_iff.2 (by decide +kernel), fun h => absurd (stopsAll_iff.1 h) (by decide +kernel)⟩

/-- The hypotheses of `C88_minimal_blocking_sets_partial` are met. -/
example : ∃ L, answerAfter (Ref.refEnv 5) fbasFront [.topTier] .minimalBlockingSets = .ok (.sets L) ∧
    ∀ S, S ∈ L ↔ Minimal (StopsAll fbasFront) S := by
  obtain ⟨L, h1, h2, -⟩ := C88_minimal_blocking_sets_partial (Ref.refEnv 5) fbasFront fbasFront_wf
    (fbasFront_shaped _) ⟨{0, 1, 2}, by decide +kernel⟩ [.topTier]
  exact ⟨L, h1, h2⟩

/-- The hypotheses of `C88_minimal_splitting_sets_partial` are met. -/
example : AlwaysAgrees fbasFront ∅ :=
  (C88_minimal_splitting_sets_partial (Ref.refEnv 5) fbasFront fbasFront_wf (fbasFront_shaped _)
    (by decide +kernel) []).1

#print axioms C88_liveness
#print axioms C88_reported_stop
#print axioms C88_minimal_blocking_sets_partial
#print axioms C88_safety
#print axioms C88_verdict
#print axioms C88_minimal_splitting_sets_partial

end FA.Props
