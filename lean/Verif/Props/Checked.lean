import Verif.Lemmas.CheckedDebug
import Verif.Lemmas.CheckedFrontEnd
import Verif.Props.Quorums
import Verif.Props.Blocking
import Verif.Props.Splitting
import Verif.Props.FrontEnd
import Verif.Props.Simulation

/-!
# C60, C61: index accesses and debug assertions

The functions in `FA.Checked` check every index access into `fbas.nodes` (and into the vectors used for
ranking and for sorting sets by size) and, with `dbg = true`, every `debug_assert!`.
-/

namespace FA.Props
open FA Spec

/-! ## C60 -/

/-- Some node that is part of a quorum trusts, directly or indirectly, a node that does not exist. -/
def Dangling (f : Fbas) : Prop :=
  ∃ Q x y, IsQuorum f Q ∧ x ∈ Q ∧ Reaches f x y ∧ ¬ y < f.nodes.length

theorem dangling_iff {f : Fbas} : Dangling f ↔ ¬ Checked.Closed f := by
  unfold Dangling Checked.Closed
  push Not
  simp only [Fbas.mem_satisfiableNodes]
  constructor
  · rintro ⟨Q, x, y, h1, h2, h3, h4⟩
    exact ⟨x, y, ⟨Q, h1, h2⟩, h3, h4⟩
  · rintro ⟨x, y, ⟨Q, h1, h2⟩, h3, h4⟩
    exact ⟨Q, x, y, h1, h2, h3, h4⟩

/-- C60: in well-formed FBASs (in particular in all FBASs loaded from JSON, `C37`), no analysis function
accesses a node that does not exist: the functions with all checks return normally, with the results
that the theorems about the functions without checks are about. -/
theorem C60_no_out_of_bounds (env : Env) (f : Fbas) (hwf : WF f) (M : List NodeSet) :
    (∃ L, Checked.findMinimalQuorums false env f = .ok L ∧ findMinimalQuorums env f = .ok L) ∧
    (∃ L, Checked.findMinimalBlockingSets false env f = .ok L ∧
      findMinimalBlockingSets env f = .ok L) ∧
    (∃ L, Checked.findMinimalSplittingSets false env f M = .ok L ∧
      findMinimalSplittingSets env f M = .ok L) ∧
    Checked.findNonintersectingQuorums false env f = findNonintersectingQuorums env f ∧
    Checked.findSymmetricClusters env f = findSymmetricClusters env f ∧
    Checked.findSymmetricTopTier env f = findSymmetricTopTier env f ∧
    Checked.relevantNodes env f = .ok (f.relevantNodes env) := by
  have hc := Checked.Closed.of_wf hwf
  refine ⟨?_, ?_, ?_, Checked.findNonintersectingQuorums_ok false env hc,
    Checked.findSymmetricClusters_ok env hc, Checked.findSymmetricTopTier_ok env hc,
    Checked.relevantNodes_ok env hc⟩
  · obtain ⟨L, h, _⟩ := findMinimalQuorums_spec env hwf
    exact ⟨L, by rw [Checked.findMinimalQuorums_ok env hc (by simp) (by simp), h], h⟩
  · obtain ⟨L, h⟩ := C16_no_panic env f hwf
    exact ⟨L, by rw [Checked.findMinimalBlockingSets_ok env hc (by simp) (by simp), h], h⟩
  · obtain ⟨L, h⟩ := C19_no_panic env f hwf M
    exact ⟨L, by rw [Checked.findMinimalSplittingSets_ok env hc M (by simp), h], h⟩

/-- C60: the functions that only look at quorums index existing nodes for *every* FBAS. -/
theorem C60_quorum_functions (f : Fbas) (S : NodeSet) (hS : ∀ x ∈ S, x < f.nodes.length) :
    Checked.isQuorum f S = .ok (f.isQuorum S) ∧
    Checked.containsQuorum f S = .ok (f.containsQuorum S) ∧
    Checked.findSatisfiableNodes f S = .ok (f.findSatisfiableNodes S) ∧
    Checked.satisfiableNodes f = .ok f.satisfiableNodes ∧
    Checked.unsatisfiableNodes f = .ok f.unsatisfiableNodes :=
  ⟨Checked.isQuorum_ok hS, Checked.containsQuorum_ok hS, Checked.findSatisfiableNodes_ok hS,
    Checked.satisfiableNodes_ok, Checked.unsatisfiableNodes_ok⟩

/-- C60: the analysis functions access a node that does not exist exactly for dangling FBASs. -/
theorem C60_out_of_bounds_iff (env : Env) (f : Fbas) (M : List NodeSet) :
    (Checked.findMinimalQuorums false env f = .error .outOfBounds ↔ Dangling f) ∧
    (Checked.findMinimalBlockingSets false env f = .error .outOfBounds ↔ Dangling f) ∧
    (Checked.findMinimalSplittingSets false env f M = .error .outOfBounds ↔ Dangling f) ∧
    (Checked.findNonintersectingQuorums false env f = .error .outOfBounds ↔ Dangling f) ∧
    (Checked.relevantNodes env f = .error .outOfBounds ↔ Dangling f) := by
  rw [dangling_iff]
  by_cases hc : Checked.Closed f
  · rw [Checked.findMinimalQuorums_ok env hc (by simp) (by simp),
      Checked.findMinimalBlockingSets_ok env hc (by simp) (by simp),
      Checked.findMinimalSplittingSets_ok env hc M (by simp),
      Checked.findNonintersectingQuorums_ok false env hc, Checked.relevantNodes_ok env hc]
    simp only [hc, not_true_eq_false, iff_false]
    exact ⟨Checked.findMinimalQuorums_ne env, Checked.findMinimalBlockingSets_ne env,
      Checked.findMinimalSplittingSets_ne env M, Checked.findNonintersectingQuorums_ne env, by simp⟩
  · simp only [hc, not_false_eq_true, iff_true]
    refine ⟨Checked.findMinimalSets_error env hc _, Checked.findMinimalSets_error env hc _,
      Checked.findMinimalSets_error env hc _, ?_, Checked.relevantNodes_error env hc⟩
    rw [Checked.findNonintersectingQuorums, Checked.findSets_error env hc]; rfl

/-- C60 for `Analysis`: for well-formed FBASs, every sequence of calls has the same outcome with all
checks, so the theorems about `Analysis` (C12, C14, C18, C19, C21, C27-C29) hold with the checks. -/
theorem C60_analysis (env : Env) (f : Fbas) (hwf : WF f) (history : List Analysis.Call)
    (c : Analysis.Call) :
    Checked.Analysis.answerAfter false env f history c = Analysis.answerAfter env f history c :=
  Checked.Analysis.answerAfter_ok env (Checked.Closed.of_wf hwf) (by simp) history c

/-- C60 for `Analysis`: for dangling FBASs already `Analysis::new` panics; for all others no sequence of
calls without the alternative check panics. -/
theorem C60_analysis_iff (env : Env) (f : Fbas) (history : List Analysis.Call) (c : Analysis.Call)
    (hh : .alternativeCheck ∉ history) (hc : c ≠ .alternativeCheck) :
    (Dangling f → Checked.Analysis.new env f = .error .outOfBounds) ∧
    (¬ Dangling f → ∃ ans, Checked.Analysis.answerAfter false env f history c = .ok ans) := by
  rw [dangling_iff, not_not]
  refine ⟨fun h => ?_, fun h => ?_⟩
  · rw [Checked.Analysis.new, Checked.relevantNodes_error env h]; rfl
  · rw [Checked.Analysis.answerAfter_ok env h (by simp)]
    exact C28_no_panic env f history c hh hc

/-- C60: the FBASs that `Analysis` works with internally are well-formed in any case. -/
theorem C60_shrunken_wf (f f' : Fbas) (K : NodeSet) (sm : ShrinkManager)
    (h : f.shrunken K = .ok (f', sm)) : WF f' := Checked.Analysis.wf_shrunken h

/-- Concrete case: all functions run without a panic on `fbasA`. -/
example : WF fbasA ∧
    Checked.findMinimalQuorums false (Ref.refEnv 5) fbasA = .ok [{0, 1}, {0, 2}, {1, 2}] ∧
    Checked.findMinimalBlockingSets false (Ref.refEnv 5) fbasA = .ok [{0, 1}, {0, 2}, {1, 2}] ∧
    Checked.findMinimalSplittingSets false (Ref.refEnv 5) fbasA [{0, 1}, {0, 2}, {1, 2}] =
      .ok [{0}, {1}, {2}] := by
  obtain ⟨⟨L, h1, h2⟩, ⟨B, h3, h4⟩, ⟨S, h5, h6⟩, _⟩ :=
    C60_no_out_of_bounds (Ref.refEnv 5) fbasA fbasA_wf [{0, 1}, {0, 2}, {1, 2}]
  refine ⟨fbasA_wf, ?_, ?_, ?_⟩
  · rw [h1, ← h2]; exact Ref.ok_of (by decide +kernel)
  · rw [h3, ← h4]; exact Ref.ok_of (by decide +kernel)
  · rw [h5, ← h6]; exact Ref.ok_of (by decide +kernel)

/-- Three nodes that need three of five nodes. Two of the five do not exist. -/
def fbasDangling : Fbas := Ref.mkFbas (List.replicate 3 ⟨3, [0, 1, 2, 3, 4], []⟩)

theorem fbasDangling_dangling : Dangling fbasDangling := by
  refine ⟨{0, 1, 2}, 0, 3, by decide +kernel, by decide, .single ?_, by decide +kernel⟩
  exact ⟨_, ⟨_, rfl, rfl⟩, .validator (by decide)⟩

/-- Concrete case of a panic: growing to three nodes with `AllNeighborsQsc` on a full mesh of five nodes
yields a dangling FBAS (with the same quorum sets as `fbasDangling`), on which `Analysis::new` panics. -/
theorem C60_growth_counterexample (env : Env) :
    (Simulator.simulateGrowth (Qsc.allNeighbors busyRand (Graph.newFullMesh 5) (some (11 / 20))) 3
      ⟨Fbas.new, [], (0 : ℕ)⟩).map (fun s => s.fbas.nodes.map (·.quorumSet)) =
        .ok (fbasDangling.nodes.map (·.quorumSet)) ∧
    Checked.Analysis.new env fbasDangling = .error .outOfBounds := by
  refine ⟨Ref.ok_of (by decide +kernel), ?_⟩
  rw [Checked.Analysis.new, Checked.relevantNodes_error env (dangling_iff.1 fbasDangling_dangling)]
  rfl

/-! ## C61 -/

/-- C61: in a debug build, `find_minimal_quorums` fails one of its two debug assertions exactly if the
release build would return a list with repetitions. -/
theorem C61_minimal_quorums (env : Env) (f : Fbas) (hwf : WF f) :
    ∃ L, findMinimalQuorums env f = .ok L ∧
      Checked.findMinimalQuorums true env f =
        if L.Nodup then .ok L else .error .assertion := by
  obtain ⟨L, h, _⟩ := findMinimalQuorums_spec env hwf
  exact ⟨L, h, Checked.findMinimalQuorums_debug env hwf h⟩

/-- C61: the debug assertion in the search for nonintersecting quorums (the selection and the
antiselection are disjoint) never fails, for any FBAS. -/
theorem C61_nonintersecting_quorums (env : Env) (f : Fbas) :
    Checked.findNonintersectingQuorums true env f =
      Checked.findNonintersectingQuorums false env f := by
  by_cases hc : Checked.Closed f
  · rw [Checked.findNonintersectingQuorums_ok true env hc,
      Checked.findNonintersectingQuorums_ok false env hc]
  · rw [Checked.findNonintersectingQuorums, Checked.findNonintersectingQuorums,
      Checked.findSets_error env hc, Checked.findSets_error env hc]

/-- C61: the debug assertion at the end of `remove_non_minimal_node_sets` never fails, and no index is
out of range. -/
theorem C61_remove_non_minimal_node_sets (dbg : Bool) (l : List NodeSet) :
    Checked.removeNonMinimalNodeSets dbg l = .ok (removeNonMinimalNodeSets l) :=
  Checked.removeNonMinimalNodeSets_ok dbg l

/-- C61: the debug assertions in the search for minimal splitting sets never fail, for any well-formed
FBAS and any list of quorums. -/
theorem C61_splitting_sets (env : Env) (f : Fbas) (hwf : WF f) (M : List NodeSet) :
    ∃ L, findMinimalSplittingSets env f M = .ok L ∧
      Checked.findMinimalSplittingSets true env f M = .ok L := by
  obtain ⟨L, hL⟩ := C19_no_panic env f hwf M
  exact ⟨L, hL, by rw [Checked.findMinimalSplittingSets_total env hwf, hL]⟩

/-- C61: the debug assertions in the search for minimal blocking sets fail exactly if the release
build would return two sets (at different positions) of which one contains the other. If the release
build returns nothing, they can fail as well (see `C61_blocking_sets_no_result`). -/
theorem C61_blocking_sets (env : Env) (f : Fbas) (hwf : WF f) :
    ∃ L, findMinimalBlockingSets env f = .ok L ∧
      (L.Pairwise (fun a b => ¬ a ⊆ b ∧ ¬ b ⊆ a) → L ≠ [] →
        Checked.findMinimalBlockingSets true env f = .ok L) ∧
      (¬ L.Pairwise (fun a b => ¬ a ⊆ b ∧ ¬ b ⊆ a) →
        Checked.findMinimalBlockingSets true env f = .error .assertion) := by
  obtain ⟨L, hL⟩ := C16_no_panic env f hwf
  exact ⟨L, hL, fun h hne => Checked.findMinimalBlockingSets_exact env hwf hL hne h,
    fun h => Checked.findMinimalBlockingSets_assertion env (Checked.Closed.of_wf hwf) hL h⟩

/-- C61: the debug assertions in the search for minimal blocking sets can only fail if there is a
symmetric cluster in which a node is listed twice and some node is a quorum on its own. -/
theorem C61_blocking_sets_cause (env : Env) (f : Fbas) (hwf : WF f)
    (h : ∀ q, SymCluster f q → DupFree q ∨ ∀ x, Mentions q x → ¬ IsQuorum f {x}) :
    ∃ L, findMinimalBlockingSets env f = .ok L ∧
      Checked.findMinimalBlockingSets true env f = .ok L := by
  obtain ⟨L, hL⟩ := C16_no_panic env f hwf
  exact ⟨L, hL, by rw [Checked.findMinimalBlockingSets_total env hwf h, hL]⟩

/-- C61 for FBASs in which no symmetric cluster lists a node twice: no debug assertion fails in the
searches for minimal quorums, blocking sets and splitting sets.

Missing for the full statement: other FBASs, for which the claim is false, see
`C61_counterexample`. -/
theorem C61_no_assertion_partial (env : Env) (f : Fbas) (hwf : WF f)
    (hsym : ∀ q, SymCluster f q → DupFree q) :
    ∃ Q B S, Checked.findMinimalQuorums true env f = .ok Q ∧
      Checked.findMinimalBlockingSets true env f = .ok B ∧
      Checked.findMinimalSplittingSets true env f Q = .ok S := by
  obtain ⟨Q, hQ, _⟩ := findMinimalQuorums_spec env hwf
  obtain ⟨B, hB⟩ := C16_no_panic env f hwf
  obtain ⟨S, hS⟩ := C19_no_panic env f hwf Q
  obtain ⟨h1, h2, h3⟩ := Checked.searches_total env hwf hsym Q
  exact ⟨Q, B, S, h1.trans hQ, h2.trans hB, h3.trans hS⟩

/-- C61 for `Analysis`: if no quorum set lists a node twice, every sequence of calls has the same
outcome in a debug build as in a release build.

Missing for the full statement: other FBASs, for which the claim is false, see
`C61_analysis_counterexample`. -/
theorem C61_analysis_partial (env : Env) (f : Fbas) (hwf : WF f)
    (hd : ∀ x q, HasQSet f x q → DupFree q) (history : List Analysis.Call) (c : Analysis.Call) :
    Checked.Analysis.answerAfter true env f history c = Analysis.answerAfter env f history c :=
  Checked.Analysis.answerAfter_ok env (Checked.Closed.of_wf hwf)
    (fun _ => Checked.noRepeats_of hd) history c

/-- C61 is false in general: quorum sets that list a node twice make the debug assertions fail, in the
searches for minimal quorums and for minimal blocking sets. -/
theorem C61_counterexample (env : Env) :
    (WF fbasDup ∧ Checked.findMinimalQuorums true env fbasDup = .error .assertion) ∧
    (WF fbasBlockDup ∧ Checked.findMinimalBlockingSets true env fbasBlockDup = .error .assertion) := by
  refine ⟨⟨fbasDup_wf, ?_⟩, fbasBlockDup_wf, ?_⟩
  · obtain ⟨L, h1, h2⟩ := C61_minimal_quorums env fbasDup fbasDup_wf
    rw [(C10_counterexample env).2] at h1
    obtain rfl : [{0}, {0}] = L := by simpa using h1
    rw [h2, if_neg (by decide)]
  · refine Checked.findMinimalBlockingSets_assertion env (Checked.Closed.of_wf fbasBlockDup_wf)
      (C16_counterexample_duplicates env).1.2.1 (fun h => ?_)
    exact absurd h.nodup (by decide)

/-- Two clusters with repeated nodes. -/
def fbasBlockDup2 : Fbas := Ref.mkFbas
  [⟨2, [0, 1, 1], []⟩, ⟨2, [0, 1, 1], []⟩, ⟨3, [2, 3, 3], []⟩, ⟨3, [2, 3, 3], []⟩]

/-- A debug assertion for one cluster fails although nothing is reported in a release build. -/
theorem C61_blocking_sets_no_result : WF fbasBlockDup2 ∧
    findMinimalBlockingSets (Ref.refEnv 4) fbasBlockDup2 = .ok [] ∧
    Checked.findMinimalBlockingSets true (Ref.refEnv 4) fbasBlockDup2 = .error .assertion :=
  ⟨Ref.wf_of (by decide +kernel), Ref.ok_of (by decide +kernel), Ref.error_of (by decide +kernel)⟩

/-- C61 for `Analysis` is false in general: in a debug build a method panics that returns in a release
build. -/
theorem C61_analysis_counterexample : WF fbasDup ∧
    Checked.Analysis.answerAfter true (Ref.refEnv 1) fbasDup [] .minimalQuorums =
      .error .assertion ∧
    Analysis.answerAfter (Ref.refEnv 1) fbasDup [] .minimalQuorums = .ok (.sets [{0}, {0}]) :=
  ⟨fbasDup_wf, Ref.error_of (by decide +kernel), Ref.ok_of (by decide +kernel)⟩

/-- Concrete case of `C61_analysis_partial` (nodes whose quorum sets have several entries). -/
example : WF fbasFront ∧ (∀ x q, HasQSet fbasFront x q → DupFree q) ∧
    Checked.Analysis.answerAfter true (Ref.refEnv 5) fbasFront [.topTier, .minimalBlockingSets]
      .hasQuorumIntersection = .ok (.bool true) := by
  have hd : ∀ x q, HasQSet fbasFront x q → DupFree q := by
    intro x q hq
    obtain ⟨h1, h2⟩ := flat_of_list (f := fbasFront) (by decide +kernel) x q hq
    exact .intro q h2 (by simp [h1]) (by simp [h1]) (by simp [h1])
  refine ⟨fbasFront_wf, hd, ?_⟩
  rw [C61_analysis_partial _ _ fbasFront_wf hd]
  exact Ref.ok_of (by decide +kernel)

/-- Concrete case of `C61_blocking_sets_cause`: a repeated node. -/
example : WF fbasBlockDup' ∧ (∀ q, SymCluster fbasBlockDup' q →
    DupFree q ∨ ∀ x, Mentions q x → ¬ IsQuorum fbasBlockDup' {x}) := by
  refine ⟨fbasBlockDup'_wf, fun q hq => .inr (fun x _ h => ?_)⟩
  have hx : x < 4 := by
    obtain ⟨q', ⟨n, hn, _⟩, _⟩ := h.2 x (by simp)
    exact (List.getElem?_eq_some_iff.1 hn).1
  have : ∀ y < 4, ¬ IsQuorum fbasBlockDup' {y} := by decide +kernel
  exact this x hx h

/-- Concrete case (no symmetric cluster). -/
example : WF fbasA ∧ (∀ q, SymCluster fbasA q → DupFree q) :=
  ⟨fbasA_wf, fun q hq => absurd hq (fbasA_no_sym q)⟩

#print axioms C60_no_out_of_bounds
#print axioms C60_quorum_functions
#print axioms C60_out_of_bounds_iff
#print axioms C60_analysis
#print axioms C60_analysis_iff
#print axioms C60_shrunken_wf
#print axioms C60_growth_counterexample
#print axioms C61_minimal_quorums
#print axioms C61_nonintersecting_quorums
#print axioms C61_remove_non_minimal_node_sets
#print axioms C61_splitting_sets
#print axioms C61_blocking_sets
#print axioms C61_blocking_sets_cause
#print axioms C61_no_assertion_partial
#print axioms C61_analysis_partial
#print axioms C61_counterexample
#print axioms C61_blocking_sets_no_result
#print axioms C61_analysis_counterexample

end FA.Props
