import Verif.Lemmas.MachineFrontEnd
import Verif.Lemmas.MachineLoading
import Verif.Ref.Decide
import Verif.Ref.Json

/-!
# C75: arithmetic on machine words

All other properties are proved for a model with unbounded numbers. The code computes with `usize`;
overflows panic in debug builds and wrap around in release builds (`Word.panics`). The theorems below
say when this makes no difference: always, except for computing splitting sets of FBASs with inner
quorum sets whose threshold is at least half of the largest word (such inner quorum sets can never be
satisfied).
-/

namespace FA.Props

open Spec Analysis Machine

/-- C75, `is_quorum_slice`: for all quorum sets that can be represented, and in all builds, the test
neither panics nor returns a wrong result. -/
theorem C75_slice (w : Word) (S : NodeSet) (q : QuorumSet) (hq : Representable w.size q) :
    ∃ b, Machine.isQuorumSlice w S q = .ok b ∧ (b = true ↔ Slice S q) :=
  ⟨_, isQuorumSlice_ok hq, QuorumSet.isQuorumSlice_iff S q⟩

/-- C75, `to_blocking_sets`: nothing overflows. -/
theorem C75_blocking (w : Word) (q : QuorumSet) (hq : Representable w.size q) :
    Machine.toBlockingSets w q = .ok q.toBlockingSets := toBlockingSets_ok hq

/-- C75, `splitting_threshold`: the exact number is computed iff the threshold can be doubled. -/
theorem C75_splitting_threshold (w : Word) (q : QuorumSet) (hq : Representable w.size q) :
    Machine.splittingThreshold w q = .ok (2 * q.threshold - (q.validators.length + q.inner.length)) ↔
      2 * q.threshold < w.size := by
  obtain ⟨h1, h2⟩ := Everywhere.here hq
  constructor
  · intro h
    by_contra hc
    have hc := Nat.le_of_not_lt hc
    obtain ⟨size, panics⟩ := w
    cases panics
    · rw [splittingThreshold_release hq hc] at h
      have h3 := Except.ok.inj h
      dsimp only at h1 h2 h3 hc
      generalize q.validators.length + q.inner.length = n at h2 h3
      omega
    · rw [splittingThreshold_debug hc] at h
      cases h
  · intro h
    rw [splittingThreshold_ok hq h, splittingThreshold_eq]

/-- C75, loading: thresholds that are not machine words become the largest machine word; this changes
no quorums, and what is loaded can be represented. -/
theorem C75_loading (w : Word) (r : RawFbas)
    (hr : ∀ x q, HasQSet (Fbas.fromRaw r) x q → EntriesFit w.size q) :
    (∀ S, IsQuorum (fbasFromRaw w r) S ↔ IsQuorum (Fbas.fromRaw r) S) ∧
      ∀ x q, HasQSet (fbasFromRaw w r) x q → Representable w.size q :=
  ⟨isQuorum_machine hr, fun _ _ => fbas_fits_machine hr⟩

/-- C75, loading on platforms where all thresholds are machine words. -/
theorem C75_loading_same (w : Word) (r : RawFbas)
    (hr : ∀ x q, HasQSet (Fbas.fromRaw r) x q → Everywhere (fun q => q.threshold < w.size) q) :
    fbasFromRaw w r = Fbas.fromRaw r := fbas_same_machine hr

/-- C75, `find_minimal_splitting_sets` in release builds: the result is exact if the thresholds in
symmetric clusters can be doubled, although thresholds of other nodes may wrap around. -/
theorem C75_splitting_release_partial (size : ℕ) (hsize : 2 ≤ size) (env : Env) (f : Fbas) (hwf : WF f)
    (hf : ∀ x q, HasQSet f x q → Representable size q)
    (hsym : ∀ q, SymCluster f q → HalfFits size q) (M : List NodeSet)
    (hM : findMinimalQuorums env f = .ok M) :
    Machine.findMinimalSplittingSets ⟨size, false⟩ env f M = FA.findMinimalSplittingSets env f M :=
  findMinimalSplittingSets_release env env hwf
    (all_of_hasQSet (by
      simp only [QuorumSet.empty, List.length_nil]
      exact ⟨by omega, by omega⟩) hf) hsym hM

/-- C75, `Analysis`: in all builds and after any sequence of calls, the answers are those of the model
with unbounded numbers, if inner quorum sets of nodes in quorums have thresholds that can be doubled.
Thresholds of nodes that are in no quorum may be arbitrary.

Missing: FBASs with larger thresholds in inner quorum sets of nodes in quorums (see
`C75_wrong_release`, `C75_panic_debug`, and `C75_debug`). -/
theorem C75_analysis_partial (w : Word) (hsize : 2 ≤ w.size) (env : Env) (f : Fbas) (hwf : WF f)
    (hf : ∀ x q, HasQSet f x q → Representable w.size q)
    (hh : ∀ x q, HasQSet f x q → (∃ Q, IsQuorum f Q ∧ x ∈ Q) →
      2 * (q.validators.length + q.inner.length) < w.size ∧ ∀ q' ∈ q.inner, HalfFits w.size q')
    (history : List Call) (c : Call) :
    Machine.answerAfter w env f history c = Analysis.answerAfter env f history c := by
  rcases answerAfter_agree env f (searchAgrees env hwf hf hh hsize) history c with h | ⟨h, _⟩
  · exact h
  · exact h.elim

/-- C75, `Analysis` in debug builds: overflows are never silent. Either an answer is that of the model
with unbounded numbers, or the program stops with an overflow. -/
theorem C75_debug (size : ℕ) (hsize : 2 ≤ size) (env : Env) (f : Fbas)
    (hf : ∀ x q, HasQSet f x q → Representable size q) (history : List Call) (c : Call) :
    Machine.answerAfter ⟨size, true⟩ env f history c = Analysis.answerAfter env f history c ∨
      Machine.answerAfter ⟨size, true⟩ env f history c = .error .overflow :=
  (answerAfter_agree env f (searchAgrees_debug env hf hsize) history c).imp id And.right

/-! ### Where the results differ -/

/-- One of the inner quorum sets has a threshold that cannot be doubled. -/
def qBig : QuorumSet := ⟨3, [0, 1], [⟨2, [2, 3, 4], []⟩, ⟨2 ^ 63 + 1, [2], []⟩]⟩

def fbasBig : Fbas := Ref.mkFbas (List.replicate 5 qBig)

/-- In release builds, the wrapped threshold of an inner quorum set that can never be satisfied makes
`minimal_splitting_sets` report the set `{2}`, which is not a splitting set. Without the overflow it is
not reported. -/
theorem C75_wrong_release :
    (∀ x q, HasQSet fbasBig x q → Representable (2 ^ 64) q) ∧
    Machine.answerAfter .release64 (Ref.refEnv 5) fbasBig [] .minimalSplittingSets =
      .ok (.sets [{2}, {0, 1}, {0, 3}, {0, 4}, {1, 3}, {1, 4}]) ∧
    Analysis.answerAfter (Ref.refEnv 5) fbasBig [] .minimalSplittingSets =
      .ok (.sets [{0, 1}, {0, 2}, {0, 3}, {0, 4}, {1, 2}, {1, 3}, {1, 4}]) ∧
    ¬ Splitting fbasBig {2} := by
  refine ⟨?_, Ref.ok_of (by decide +kernel), Ref.ok_of (by decide +kernel), by decide +kernel⟩
  rintro x q ⟨node, h1, rfl⟩
  have h2 : node.quorumSet = qBig := by
    have h3 : ∀ n ∈ fbasBig.nodes, n.quorumSet = qBig := by decide
    exact h3 node (List.mem_of_getElem? h1)
  rw [h2]
  refine ⟨_, by decide, ?_⟩
  simp only [qBig, List.mem_cons, List.not_mem_nil, or_false]
  rintro q' (rfl | rfl) <;> exact ⟨_, by decide, by simp⟩

/-- No symmetric cluster; an inner quorum set of node 0 can never be satisfied. -/
def fbasBigInner : Fbas := Ref.mkFbas
  (⟨3, [1, 2, 3, 4], [⟨2 ^ 63, [0], []⟩]⟩ :: List.replicate 4 ⟨4, [0, 1, 2, 3, 4], []⟩)

/-- Debug builds panic for an FBAS that release builds analyse correctly. -/
theorem C75_panic_debug :
    Machine.answerAfter .debug64 (Ref.refEnv 5) fbasBigInner [] .minimalSplittingSets =
      .error .overflow ∧
    Machine.answerAfter .release64 (Ref.refEnv 5) fbasBigInner [] .minimalSplittingSets =
      .ok (.sets [{0, 1, 2}, {0, 1, 3}, {0, 1, 4}, {0, 2, 3}, {0, 2, 4}, {0, 3, 4}, {1, 2, 3},
        {1, 2, 4}, {1, 3, 4}, {2, 3, 4}]) ∧
    Analysis.answerAfter (Ref.refEnv 5) fbasBigInner [] .minimalSplittingSets =
      .ok (.sets [{0, 1, 2}, {0, 1, 3}, {0, 1, 4}, {0, 2, 3}, {0, 2, 4}, {0, 3, 4}, {1, 2, 3},
        {1, 2, 4}, {1, 3, 4}, {2, 3, 4}]) :=
  ⟨Ref.error_of (by decide +kernel), Ref.ok_of (by decide +kernel), Ref.ok_of (by decide +kernel)⟩

/-! ### Concrete cases -/

theorem fbasBigInner_wf : WF fbasBigInner := Ref.wf_of (by decide)

theorem fbasBigInner_fits : ∀ x q, HasQSet fbasBigInner x q → Representable (2 ^ 64) q := by
  rintro x q ⟨node, h1, rfl⟩
  have h3 : ∀ n ∈ fbasBigInner.nodes, n.quorumSet = ⟨3, [1, 2, 3, 4], [⟨2 ^ 63, [0], []⟩]⟩ ∨
    n.quorumSet = ⟨4, [0, 1, 2, 3, 4], []⟩ := by decide
  rcases h3 node (List.mem_of_getElem? h1) with h | h <;> rw [h]
  · refine ⟨_, by decide, ?_⟩
    simp only [List.mem_cons, List.not_mem_nil, or_false]
    rintro q' rfl
    exact ⟨_, by decide, by simp⟩
  · exact ⟨_, by decide, by simp⟩

/-- `fbasBigInner` meets the hypotheses of `C75_debug` and `C75_splitting_release_partial` (it has no
symmetric cluster), although one of its thresholds cannot be doubled. -/
example : WF fbasBigInner ∧ (∀ x q, HasQSet fbasBigInner x q → Representable (2 ^ 64) q) ∧
    (∀ q, SymCluster fbasBigInner q → HalfFits (2 ^ 64) q) ∧
    ¬ HalfFits (2 ^ 64) ⟨2 ^ 63, [0], []⟩ := by
  refine ⟨fbasBigInner_wf, fbasBigInner_fits, fun q hq => ?_, fun h => ?_⟩
  · exfalso
    obtain ⟨L, h1, h2, _⟩ := C22_symmetric_clusters (Ref.refEnv 5) fbasBigInner fbasBigInner_wf
    have h3 : findSymmetricClusters (Ref.refEnv 5) fbasBigInner = .ok [] :=
      Ref.ok_of (by decide +kernel)
    rw [h3] at h1
    have := (h2 q).2 hq
    rw [← Except.ok.inj h1] at this
    cases this
  · exact absurd (Everywhere.here h) (by decide)

/-- A network with two nodes in all quorums, one of them with an inner quorum set, and a node whose
threshold is the largest machine word. -/
def fbasUnconfigured : Fbas := Ref.mkFbas
  [⟨2, [0, 1], []⟩, ⟨2, [1], [⟨1, [0, 2], []⟩]⟩, ⟨2 ^ 64 - 1, [], []⟩]

/-- Concrete case for `C75_analysis_partial`. -/
example : WF fbasUnconfigured ∧ (∀ x q, HasQSet fbasUnconfigured x q → Representable (2 ^ 64) q) ∧
    (∀ x q, HasQSet fbasUnconfigured x q → (∃ Q, IsQuorum fbasUnconfigured Q ∧ x ∈ Q) →
      2 * (q.validators.length + q.inner.length) < 2 ^ 64 ∧
        ∀ q' ∈ q.inner, HalfFits (2 ^ 64) q') ∧
    ¬ HalfFits (2 ^ 64) ⟨2 ^ 64 - 1, [], []⟩ := by
  have h3 : ∀ n ∈ fbasUnconfigured.nodes, n.quorumSet = ⟨2, [0, 1], []⟩ ∨
    n.quorumSet = ⟨2, [1], [⟨1, [0, 2], []⟩]⟩ ∨ n.quorumSet = ⟨2 ^ 64 - 1, [], []⟩ := by decide
  refine ⟨Ref.wf_of (by decide), ?_, ?_, fun h => absurd (Everywhere.here h) (by decide)⟩
  · rintro x q ⟨node, h1, rfl⟩
    rcases h3 node (List.mem_of_getElem? h1) with h | h | h <;> rw [h]
    · exact ⟨_, by decide, by simp⟩
    · refine ⟨_, by decide, ?_⟩
      simp only [List.mem_cons, List.not_mem_nil, or_false]
      rintro q' rfl
      exact ⟨_, by decide, by simp⟩
    · exact ⟨_, by decide, by simp⟩
  · rintro x q ⟨node, h1, rfl⟩ _
    rcases h3 node (List.mem_of_getElem? h1) with h | h | h <;> rw [h]
    · exact ⟨by decide, by simp⟩
    · refine ⟨by decide, ?_⟩
      simp only [List.mem_cons, List.not_mem_nil, or_false]
      rintro q' rfl
      exact ⟨_, by decide, by simp⟩
    · exact ⟨by decide, by simp⟩

/-- Concrete case for loading on a 32 bit platform: the threshold is replaced, and node 0 stays in no
quorum. -/
example : ((fbasFromRaw ⟨2 ^ 32, false⟩
      [⟨"a", ⟨9007199254740991, ["a"], []⟩, none, none⟩,
        ⟨"b", ⟨1, ["b", "c"], []⟩, none, none⟩]).nodes.map (fun n => n.quorumSet)) =
        [⟨2 ^ 32 - 1, [0], []⟩, ⟨1, [1], []⟩] ∧
    EntriesFit (2 ^ 32) ⟨9007199254740991, [0], []⟩ :=
  ⟨by decide +kernel, ⟨_, by decide, by simp⟩⟩

#print axioms C75_slice
#print axioms C75_blocking
#print axioms C75_splitting_threshold
#print axioms C75_loading
#print axioms C75_loading_same
#print axioms C75_splitting_release_partial
#print axioms C75_analysis_partial
#print axioms C75_debug
#print axioms C75_wrong_release
#print axioms C75_panic_debug

end FA.Props
