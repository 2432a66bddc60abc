import Verif.Lemmas.Nonintersecting
import Verif.Props.Quorums

/-!
# C14-C15: the search for non-intersecting quorums
(for the `Analysis` method see `Props/FrontEnd.lean`)
-/

namespace FA.Props
open FA Spec

/-! ## C14 -/

/-- C14: soundness and completeness of `find_nonintersecting_quorums` for every FBAS that has a
quorum. -/
theorem C14_nonintersecting (env : Env) (f : Fbas) (hwf : WF f) (hq : ∃ Q, IsQuorum f Q) :
    ∃ r, findNonintersectingQuorums env f = .ok r ∧
      ((∃ P Q, IsQuorum f P ∧ IsQuorum f Q ∧ ∀ x ∈ P, x ∉ Q) →
        ∃ L, r = some L ∧ 2 ≤ L.length ∧ (∀ Q ∈ L, IsQuorum f Q) ∧
          L.Pairwise (fun P Q => ∀ x ∈ P, x ∉ Q)) ∧
      ((¬ ∃ P Q, IsQuorum f P ∧ IsQuorum f Q ∧ ∀ x ∈ P, x ∉ Q) → r = none) := by
  rcases findNonintersectingQuorums_spec env hwf with ⟨h, _⟩ | ⟨L, h1, h2, h3, h4⟩ | ⟨_, h1, h2⟩
  · exact absurd hq h
  · refine ⟨_, h1, fun _ => ⟨L, rfl, h2, h4, h3.imp (fun h => Finset.disjoint_left.1 h)⟩, ?_⟩
    intro hno
    exfalso
    match L, h2, h3, h4 with
    | P :: Q :: _, _, h3, h4 =>
      rw [List.pairwise_cons] at h3
      exact hno ⟨P, Q, h4 P (by simp), h4 Q (by simp),
        fun x hx => Finset.disjoint_left.1 (h3.1 Q (by simp)) hx⟩
  · refine ⟨_, h1, ?_, fun _ => rfl⟩
    rintro ⟨P, Q, hP, hQ, hd⟩
    exact absurd (Finset.disjoint_left.2 hd) (h2 P Q hP hQ)

/-- C14: the verdict in terms of quorum intersection. -/
theorem C14_none_iff (env : Env) (f : Fbas) (hwf : WF f) (hq : ∃ Q, IsQuorum f Q) :
    findNonintersectingQuorums env f = .ok none ↔ QuorumIntersection f := by
  rcases findNonintersectingQuorums_spec env hwf with ⟨h, _⟩ | ⟨L, h1, h2, h3, h4⟩ | ⟨_, h1, h2⟩
  · exact absurd hq h
  · rw [h1]
    refine ⟨fun h => (by simp at h), fun h => ?_⟩
    exfalso
    match L, h2, h3, h4 with
    | P :: Q :: _, _, h3, h4 =>
      rw [List.pairwise_cons] at h3
      obtain ⟨x, hx1, hx2⟩ := h.2 P Q (h4 P (by simp)) (h4 Q (by simp))
      exact Finset.disjoint_left.1 (h3.1 Q (by simp)) hx1 hx2
  · refine ⟨fun _ => ⟨hq, fun P Q hP hQ => ?_⟩, fun _ => h1⟩
    exact Finset.not_disjoint_iff.1 (h2 P Q hP hQ)

/-- Concrete cases: quorum intersection; two disjoint quorums within one component; two
components. -/
example : WF fbasA ∧ (∃ Q, IsQuorum fbasA Q) ∧
    findNonintersectingQuorums (Ref.refEnv 5) fbasA = .ok none :=
  ⟨fbasA_wf, ⟨{0, 1}, by decide +kernel⟩, Ref.ok_of (by decide +kernel)⟩

def fbasSplit : Fbas := Ref.mkFbas (List.replicate 4 ⟨2, [0, 1, 2, 3], []⟩)

example : WF fbasSplit ∧ (∃ Q, IsQuorum fbasSplit Q) ∧
    findNonintersectingQuorums (Ref.refEnv 4) fbasSplit = .ok (some [{0, 1}, {2, 3}]) :=
  ⟨Ref.wf_of (by decide +kernel), ⟨{0, 1}, by decide +kernel⟩, Ref.ok_of (by decide +kernel)⟩

example : findNonintersectingQuorums (Ref.refEnv 3) (Ref.mkFbas [⟨1, [0], []⟩, ⟨1, [1], []⟩,
    ⟨2, [0, 1], []⟩]) = .ok (some [{0}, {1}]) := Ref.ok_of (by decide +kernel)

#print axioms C14_nonintersecting
#print axioms C14_none_iff

/-! ## C15 -/

/-- C15 is false for *every* FBAS without a quorum: the assertion that the remaining available nodes
form a quorum fails. -/
theorem C15_counterexample (env : Env) (f : Fbas) (hwf : WF f) (hq : ¬ ∃ Q, IsQuorum f Q) :
    findNonintersectingQuorums env f = .error .assertion := by
  rcases findNonintersectingQuorums_spec env hwf with ⟨_, h⟩ | ⟨L, h1, h2, h3, h4⟩ | ⟨h, _⟩
  · exact h
  · exfalso
    match L, h2, h4 with
    | P :: _, _, h4 => exact hq ⟨P, h4 P (by simp)⟩
  · exact absurd h hq

/-- What holds of C15: a verdict is returned exactly if there is a quorum. Missing: FBASs without
a quorum, where the code panics (`C15_counterexample`). -/
theorem C15_no_panic_partial (env : Env) (f : Fbas) (hwf : WF f) :
    (∃ r, findNonintersectingQuorums env f = .ok r) ↔ ∃ Q, IsQuorum f Q := by
  constructor
  · rintro ⟨r, h⟩
    by_contra hq
    rw [C15_counterexample env f hwf hq] at h
    simp at h
  · intro hq
    obtain ⟨r, h, _⟩ := C14_nonintersecting env f hwf hq
    exact ⟨r, h⟩

/-- Concrete cases: the empty FBAS; a node that needs an unsatisfiable node. -/
example : WF (Ref.mkFbas []) ∧ ¬ ∃ Q, IsQuorum (Ref.mkFbas []) Q :=
  ⟨Ref.wf_of (by decide +kernel), by decide +kernel⟩

example : WF (Ref.mkFbas [⟨2, [0, 1], []⟩, ⟨0, [], []⟩]) ∧
    ¬ ∃ Q, IsQuorum (Ref.mkFbas [⟨2, [0, 1], []⟩, ⟨0, [], []⟩]) Q :=
  ⟨Ref.wf_of (by decide +kernel), by decide +kernel⟩

#print axioms C15_counterexample
#print axioms C15_no_panic_partial

end FA.Props
