import Verif.Lemmas.Safety
import Verif.Props.FrontEndSound
import Verif.Props.SplittingExact
import Verif.Ref.Decide

/-!
# C82: splitting sets and safety
-/

namespace FA.Props
open FA Spec Analysis

/-- C82: if there are different minimal quorums, then the minimal splitting sets are the minimal
sets of nodes that can lead others to different decisions by taking part in both of them. -/
theorem C82_fork (f : Fbas) (h2 : ∃ P Q, IsMinQuorum f P ∧ IsMinQuorum f Q ∧ P ≠ Q) (S : NodeSet) :
    IsMinSplitting f S ↔ Minimal (CanFork f) S := by
  constructor
  · intro h
    exact ⟨canFork_of_minSplitting h, fun T hT hTS => h.2 (splitting_of_canFork h2 hT) hTS⟩
  · intro h
    obtain ⟨T, hTS, hT⟩ := exists_minSplitting (splitting_of_canFork h2 h.1)
    have : S ⊆ T := h.2 (canFork_of_minSplitting hT) hTS
    rwa [Finset.Subset.antisymm this hTS]

/-- C82: every minimal splitting set endangers safety. -/
theorem C82_endangers (f : Fbas) (S : NodeSet) (h : IsMinSplitting f S) : Endangers f S :=
  canFork_endangers (canFork_of_minSplitting h)

/-- C82: quorum intersection means that safety is not in danger as long as all nodes behave well. -/
theorem C82_intersection (f : Fbas) (hq : ∃ Q, IsQuorum f Q) :
    QuorumIntersection f ↔ ¬ Endangers f ∅ := by
  have hd : ∀ Q, QuorumDespite f ∅ Q ↔ IsQuorum f Q := fun Q => by
    simp [QuorumDespite, IsQuorum]
  constructor
  · rintro ⟨-, h⟩ ⟨Q₁, Q₂, h1, h2, h3⟩
    obtain ⟨x, hx, hx'⟩ := h Q₁ Q₂ ((hd _).1 h1) ((hd _).1 h2)
    exact h3 x hx hx'
  · intro h
    refine ⟨hq, fun Q₁ Q₂ h1 h2 => ?_⟩
    by_contra hc
    exact h ⟨Q₁, Q₂, (hd _).2 h1, (hd _).2 h2, fun x hx hx' => hc ⟨x, hx, hx'⟩⟩

/-- C82 if all nodes have the same quorum set and there are different minimal quorums: the minimal
splitting sets are the minimal sets that endanger safety. -/
theorem C82_same_quorum_sets_partial (f : Fbas) (hwf : WF f) (q : QuorumSet) (ha : AllHave f q)
    (h2 : ∃ P Q, IsMinQuorum f P ∧ IsMinQuorum f Q ∧ P ≠ Q) (S : NodeSet) :
    IsMinSplitting f S ↔ Minimal (Endangers f) S := by
  constructor
  · intro h
    refine ⟨C82_endangers f S h, fun T hT hTS => ?_⟩
    obtain ⟨T', hT', hc⟩ := canFork_of_endangers hwf ha hT
    exact Finset.Subset.trans (h.2 (splitting_of_canFork h2 hc) (Finset.Subset.trans hT' hTS)) hT'
  · intro h
    obtain ⟨T', hT', hc⟩ := canFork_of_endangers hwf ha h.1
    obtain ⟨T, hTS, hT⟩ := exists_minSplitting (splitting_of_canFork h2 hc)
    have h3 : T ⊆ S := Finset.Subset.trans hTS hT'
    have : S ⊆ T := h.2 (C82_endangers f T hT) h3
    rwa [Finset.Subset.antisymm this h3]

/-- C82: every set reported by `Analysis::minimal_splitting_sets` endangers safety (for well-shaped
FBASs with quorum intersection). -/
theorem C82_reported_partial (env : Env) (f : Fbas) (hwf : WF f) (hw : WellShaped env f)
    (hqi : QuorumIntersection f) (history : List Call) :
    ∃ L, answerAfter env f history .minimalSplittingSets = .ok (.sets L) ∧
      ∀ S ∈ L, CanFork f S ∧ Endangers f S := by
  obtain ⟨L, h1, h2⟩ := C19_analysis_sound_partial env f hwf hw hqi history
  refine ⟨L, h1, fun S hS => ?_⟩
  obtain ⟨-, P, Q, hP, hQ, hne, rfl⟩ := h2 S hS
  exact ⟨canFork_of_meet hP hQ hne, canFork_endangers (canFork_of_meet hP hQ hne)⟩

/-- C82: `Analysis::minimal_splitting_sets` returns exactly the minimal sets of nodes that can lead
others to different decisions by taking part in both of them, for well-shaped FBASs with quorum
intersection and different minimal quorums. -/
theorem C82_all_reported_partial (env : Env) (f : Fbas) (hwf : WF f) (hw : WellShaped env f)
    (hqi : QuorumIntersection f)
    (hmaj : ∀ T : NodeSet, (∀ x, x ∈ T ↔ InTopTier f x) → ∀ f' sm, f.shrunken T = .ok (f', sm) →
      ∀ q, SymCluster f' q → ∀ q' ∈ q.inner, Majority q')
    (h2 : ∃ P Q, IsMinQuorum f P ∧ IsMinQuorum f Q ∧ P ≠ Q) (history : List Call) :
    ∃ L, answerAfter env f history .minimalSplittingSets = .ok (.sets L) ∧
      ∀ S, S ∈ L ↔ Minimal (CanFork f) S := by
  obtain ⟨L, h3, h4, -⟩ := C19_all_histories_partial env f hwf hqi hw hmaj history
  exact ⟨L, h3, fun S => (h4 S).trans (C82_fork f h2 S)⟩

/-- Concrete case. -/
example : ∃ L, answerAfter (Ref.refEnv 5) fbasFront [.minimalBlockingSets] .minimalSplittingSets =
      .ok (.sets L) ∧ ∀ S, S ∈ L ↔ Minimal (CanFork fbasFront) S :=
  C82_all_reported_partial _ _ fbasFront_wf (fbasFront_shaped _) (by decide +kernel)
    (majority_of_flat _ (flat_of_list (by decide +kernel)))
    ⟨{0, 1, 2}, {0, 1, 4}, by decide +kernel, by decide +kernel, by decide +kernel⟩ _

/-- Concrete case of `C82_reported_partial`. -/
example : ∃ L, answerAfter (Ref.refEnv 5) fbasFront [] .minimalSplittingSets = .ok (.sets L) ∧
    ∀ S ∈ L, CanFork fbasFront S ∧ Endangers fbasFront S :=
  C82_reported_partial _ _ fbasFront_wf (fbasFront_shaped _) (by decide +kernel) _

/-- Concrete case of `C82_fork` and `C82_endangers`: a minimal splitting set. -/
example : Minimal (CanFork fbasFront) {0, 4} ∧ Endangers fbasFront {0, 4} :=
  ⟨(C82_fork fbasFront ⟨{0, 1, 2}, {0, 1, 4}, by decide +kernel, by decide +kernel, by decide +kernel⟩ _).1
    (by decide +kernel), C82_endangers _ _ (by decide +kernel)⟩

/-- Concrete case of `C82_intersection`. -/
example : ¬ Endangers fbasFront ∅ :=
  (C82_intersection fbasFront ⟨{0, 1, 2}, by decide +kernel⟩).1 (by decide +kernel)

/-- Two of `0`, `1` and `2` are needed by all of them. -/
def fbasTwoOfThree : Fbas := Ref.mkFbas [⟨2, [0, 1, 2], []⟩, ⟨2, [0, 1, 2], []⟩, ⟨2, [0, 1, 2], []⟩]

/-- The hypotheses of `C82_same_quorum_sets_partial` are met. -/
example : Minimal (Endangers fbasTwoOfThree) {1} :=
  (C82_same_quorum_sets_partial fbasTwoOfThree (Ref.wf_of (by decide +kernel)) ⟨2, [0, 1, 2], []⟩
    (fun x hx => by
      have : x = 0 ∨ x = 1 ∨ x = 2 := by
        have : x < 3 := hx
        omega
      rcases this with rfl | rfl | rfl <;> exact ⟨_, rfl, rfl⟩)
    ⟨{0, 1}, {1, 2}, by decide +kernel, by decide +kernel, by decide +kernel⟩ _).1
    (by decide +kernel)

/-- Node `0` demands `1` and one of `2` and `3`; all others demand only node `0` and themselves. -/
def fbasCentre : Fbas := Ref.mkFbas [⟨3, [0, 1], [⟨1, [2, 3], []⟩]⟩, ⟨2, [0, 1], []⟩, ⟨2, [0, 2], []⟩,
  ⟨2, [0, 3], []⟩]

/-- Only node `0` is needed by `1` and `2`, node `0` needs both. -/
def fbasOneQuorum : Fbas := Ref.mkFbas [⟨3, [0, 1, 2], []⟩, ⟨2, [0, 1], []⟩, ⟨2, [0, 2], []⟩]

/-- Node `0` needs only itself. -/
def fbasLeader : Fbas := Ref.mkFbas [⟨1, [0], []⟩, ⟨2, [0, 1], []⟩, ⟨2, [0, 2], []⟩]

/-- C82, disagreement with README.md:15 ("minimal indispensable sets for safety"):
(1) the only reported minimal splitting set is `{0, 1}`, but `0` can endanger safety alone, if it
does not regard its own quorum set;
(2) nothing is reported although a single node can endanger safety without regarding its own quorum set;
(3) nothing is reported although a single node that regards its own quorum set can do so. -/
theorem C82_counterexample :
    (QuorumIntersection fbasCentre ∧
      answerAfter (Ref.refEnv 4) fbasCentre [] .minimalSplittingSets = .ok (.sets [{0, 1}]) ∧
      Endangers fbasCentre {0}) ∧
    (QuorumIntersection fbasOneQuorum ∧
      answerAfter (Ref.refEnv 3) fbasOneQuorum [] .minimalSplittingSets = .ok (.sets []) ∧
      Endangers fbasOneQuorum {0}) ∧
    (QuorumIntersection fbasLeader ∧
      answerAfter (Ref.refEnv 3) fbasLeader [] .minimalSplittingSets = .ok (.sets []) ∧
      CanFork fbasLeader {0}) := by
  have hd : ∀ {f : Fbas} {S Q : NodeSet}, (∀ x ∈ Q, x ∉ S) → Q.Nonempty →
      (∀ x ∈ Q, ∃ n, f.nodes[x]? = some n ∧ Slice (Q ∪ S) n.quorumSet) → QuorumDespite f S Q :=
    fun h1 h2 h3 => ⟨h2, h1, fun x hx => by
      obtain ⟨n, h4, h5⟩ := h3 x hx
      exact ⟨_, ⟨n, h4, rfl⟩, h5⟩⟩
  refine ⟨⟨by decide +kernel, Ref.ok_of (by decide +kernel), {1}, {2}, hd (by decide) (by decide) ?_,
    hd (by decide) (by decide) ?_, by decide⟩, ⟨by decide +kernel, Ref.ok_of (by decide +kernel),
    {1}, {2}, hd (by decide) (by decide) ?_, hd (by decide) (by decide) ?_, by decide⟩,
    ⟨by decide +kernel, Ref.ok_of (by decide +kernel), {0, 1}, {0, 2}, by decide +kernel,
      by decide +kernel, ⟨1, by decide, by decide⟩, ⟨2, by decide, by decide⟩, by decide⟩⟩
  all_goals
    intro x hx
    rw [Finset.mem_singleton] at hx
    subst hx
    exact ⟨_, rfl, by decide +kernel⟩

#print axioms C82_fork
#print axioms C82_endangers
#print axioms C82_intersection
#print axioms C82_same_quorum_sets_partial
#print axioms C82_reported_partial
#print axioms C82_all_reported_partial
#print axioms C82_counterexample

end FA.Props
