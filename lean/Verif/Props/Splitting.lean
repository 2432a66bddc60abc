import Verif.Lemmas.SplittingSound
import Verif.Props.Blocking

/-!
# C19, C20 (and C11 for splitting sets): minimal splitting sets
(C21 and `Analysis::minimal_splitting_sets` are in `Props/FrontEnd.lean`)
-/

namespace FA.Props
open FA Spec

/-! ## C19 -/

/-- C19 for FBASs in which the quorum sets of symmetric clusters list no node twice, do not require
more entries than there are, and whose inner quorum sets require a majority and offer a choice at
all depths: the result consists of exactly the minimal splitting sets, each once, in the reporting
order. FBASs without symmetric clusters satisfy the condition.

Missing for the full statement: other symmetric clusters, for which the claim is false, see
`C19_counterexample`. -/
theorem C19_minimal_splitting_sets_partial (env : Env) (f : Fbas) (hwf : WF f)
    (hqi : QuorumIntersection f)
    (hsym : ∀ q, SymCluster f q → DupFree q ∧
      q.threshold ≤ q.validators.length + q.inner.length ∧ ∀ q' ∈ q.inner, Majority q') :
    ∃ M L, findMinimalQuorums env f = .ok M ∧ findMinimalSplittingSets env f M = .ok L ∧
      (∀ S, S ∈ L ↔ IsMinSplitting f S) ∧ L.Pairwise Before := by
  obtain ⟨M, hM, _⟩ := findMinimalQuorums_spec env hwf
  obtain ⟨L, h1, h2, h3, h4⟩ := findMinimalSplittingSets_spec env env hwf hM (fun q hq =>
    ⟨(hsym q hq).1, sym_majority hqi hq (hsym q hq).1 (hsym q hq).2.1 (hsym q hq).2.2,
      (hsym q hq).2⟩)
  refine ⟨M, L, hM, h1, fun S => ?_, before_of h4 h3⟩
  rw [h2, kMeet_iff (consensusClusters_spec env hwf), minSplitting_iff hqi]

/-- C19 without quorum intersection (the documented behaviour of `find_minimal_splitting_sets`: the
minimal splitting sets of all sub-FBASs): the minimal sets among the *non-empty* intersections of
two different minimal quorums. -/
theorem C19_without_intersection_partial (env : Env) (f : Fbas) (hwf : WF f)
    (hsym : ∀ q, SymCluster f q → DupFree q ∧
      q.validators.length + q.inner.length < 2 * q.threshold ∧
      q.threshold ≤ q.validators.length + q.inner.length ∧ ∀ q' ∈ q.inner, Majority q') :
    ∃ M L, findMinimalQuorums env f = .ok M ∧ findMinimalSplittingSets env f M = .ok L ∧
      (∀ S, S ∈ L ↔ Minimal (fun S => S.Nonempty ∧
        ∃ P Q, IsMinQuorum f P ∧ IsMinQuorum f Q ∧ P ≠ Q ∧ P ∩ Q = S) S) ∧
      L.Pairwise Before := by
  obtain ⟨M, hM, _⟩ := findMinimalQuorums_spec env hwf
  obtain ⟨L, h1, h2, h3, h4⟩ := findMinimalSplittingSets_spec env env hwf hM hsym
  refine ⟨M, L, hM, h1, fun S => ?_, before_of h4 h3⟩
  rw [h2, kMeet_iff (consensusClusters_spec env hwf)]

/-- C19, soundness, for FBASs in which the quorum sets of symmetric clusters list no node twice and
have thresholds between 1 and the number of entries (at all depths): every reported set is the
intersection of two different minimal quorums, and hence splitting.

Missing: completeness and minimality, which need `C19_minimal_splitting_sets_partial` (the FBASs
`fbasSplitBad1`, `fbasSplitBad2`, `fbasSplitBad3` of `C19_counterexample` meet the condition, and
`fbasSplitLarge` shows that reported sets need not be minimal); the condition on repeated nodes and on
thresholds is needed, see `fbasSplitBad4` and `fbasSplitUnsat`. -/
theorem C19_sound_partial (env : Env) (f : Fbas) (hwf : WF f)
    (hsym : ∀ q, SymCluster f q → DupFree q ∧ Sane q) :
    ∃ M L, findMinimalQuorums env f = .ok M ∧ findMinimalSplittingSets env f M = .ok L ∧
      ∀ S ∈ L, Splitting f S ∧ ∃ P Q, IsMinQuorum f P ∧ IsMinQuorum f Q ∧ P ≠ Q ∧ P ∩ Q = S := by
  obtain ⟨M, hM, _⟩ := findMinimalQuorums_spec env hwf
  refine ⟨M, _, hM, findMinimalSplittingSets_eq env hwf M, fun S hS => ?_⟩
  obtain ⟨P, Q, h1, h2, h3, h4⟩ := findMinimalSplittingSets_sound env env hwf hM hsym
    (findMinimalSplittingSets_eq env hwf M) hS
  exact ⟨⟨P, Q, h1, h2, h3, h4.le⟩, P, Q, h1, h2, h3, h4⟩

/-- C19: the call never panics. -/
theorem C19_no_panic (env : Env) (f : Fbas) (hwf : WF f) (M : List NodeSet) :
    ∃ L, findMinimalSplittingSets env f M = .ok L := ⟨_, findMinimalSplittingSets_eq env hwf M⟩

/-- Concrete case (no symmetric cluster). -/
example : WF fbasA ∧ QuorumIntersection fbasA ∧ (∀ q, ¬ SymCluster fbasA q) ∧
    findMinimalSplittingSets (Ref.refEnv 5) fbasA [{0, 1}, {0, 2}, {1, 2}] =
      .ok [{0}, {1}, {2}] :=
  ⟨fbasA_wf, by decide +kernel, fbasA_no_sym, Ref.ok_of (by decide +kernel)⟩

/-- A nested symmetric cluster: two of node 0 and two majority groups. -/
def qSplit : QuorumSet := ⟨2, [0], [⟨2, [1, 2, 3], []⟩, ⟨2, [4, 5, 6], []⟩]⟩

def fbasNested : Fbas := Ref.mkFbas (List.replicate 7 qSplit)

theorem fbasNested_wf : WF fbasNested := Ref.wf_of (by decide +kernel)

theorem symCluster_unique {f : Fbas} {N : ℕ} {q₀ : QuorumSet} (hwf : WF f)
    (h : Ref.okEq (findSymmetricClusters (Ref.refEnv N) f) [q₀] = true) {q : QuorumSet}
    (hq : SymCluster f q) : q = q₀ := by
  obtain ⟨L, h1, h2, _⟩ := C22_symmetric_clusters (Ref.refEnv N) f hwf
  rw [Ref.ok_of h] at h1
  have h3 := (h2 q).2 hq
  rw [← Except.ok.inj h1] at h3
  exact List.mem_singleton.1 h3

/-- Concrete case (nested symmetric cluster). -/
example : WF fbasNested ∧ QuorumIntersection fbasNested ∧
    (∀ q, SymCluster fbasNested q → DupFree q ∧
      q.threshold ≤ q.validators.length + q.inner.length ∧ ∀ q' ∈ q.inner, Majority q') ∧
    findMinimalSplittingSets (Ref.refEnv 7) fbasNested [] =
      .ok [{0}, {1}, {2}, {3}, {4}, {5}, {6}] := by
  refine ⟨fbasNested_wf, by decide +kernel, fun q hq => ?_, Ref.ok_of (by decide +kernel)⟩
  rw [symCluster_unique (N := 7) (q₀ := qSplit) fbasNested_wf (by decide +kernel) hq]
  refine ⟨Ref.dupFree_of (by decide), by decide, ?_⟩
  simp only [qSplit, List.mem_cons, List.not_mem_nil, or_false]
  rintro q' (rfl | rfl) <;> exact .intro _ (by decide) (by decide) (by decide) (by simp)

/-- FBASs in which all nodes have the given quorum set. -/
def fbasSplitBad1 : Fbas := Ref.mkFbas (List.replicate 4 ⟨2, [0, 3], [⟨2, [1, 2], []⟩]⟩)
def fbasSplitBad2 : Fbas := Ref.mkFbas (List.replicate 3 ⟨2, [2], [⟨1, [0, 1], []⟩]⟩)
def fbasSplitBad3 : Fbas := Ref.mkFbas (List.replicate 3
  ⟨2, [], [⟨1, [0], []⟩, ⟨1, [1], []⟩, ⟨1, [2], []⟩]⟩)
def fbasSplitBad4 : Fbas := Ref.mkFbas (List.replicate 2 ⟨2, [0, 0, 1], []⟩)

theorem fbasSplitBad1_wf : WF fbasSplitBad1 := Ref.wf_of (by decide +kernel)
theorem fbasSplitBad2_wf : WF fbasSplitBad2 := Ref.wf_of (by decide +kernel)
theorem fbasSplitBad3_wf : WF fbasSplitBad3 := Ref.wf_of (by decide +kernel)
theorem fbasSplitBad4_wf : WF fbasSplitBad4 := Ref.wf_of (by decide +kernel)

theorem splitting_of_ref {env : Env} {f : Fbas} {N : ℕ} (hwf : WF f) {M L : List NodeSet}
    (hM : Ref.okEq (findMinimalQuorums (Ref.refEnv N) f) M = true)
    (hL : Ref.okEq (findMinimalSplittingSets (Ref.refEnv N) f M) L = true) :
    findMinimalQuorums env f = .ok M ∧ findMinimalSplittingSets env f M = .ok L := by
  refine ⟨by rw [findMinimalQuorums_env env (Ref.refEnv N) hwf]; exact Ref.ok_of hM, ?_⟩
  rw [findMinimalSplittingSets_env env (Ref.refEnv N) (Ref.refEnv N) hwf (Ref.ok_of hM)]
  exact Ref.ok_of hL

/-- C19 is false for symmetric clusters with nested quorum sets that offer no choice (the minimal
splitting set {1, 2} resp. all of {0}, {1}, {2} are missed), nested quorum sets without majority
requirement ({2} is missed) or repeated nodes (sets are returned although there is only one minimal
quorum). All these FBASs have quorum intersection. -/
theorem C19_counterexample (env : Env) :
    (WF fbasSplitBad1 ∧ QuorumIntersection fbasSplitBad1 ∧
      findMinimalQuorums env fbasSplitBad1 = .ok [{0, 3}, {0, 1, 2}, {1, 2, 3}] ∧
      findMinimalSplittingSets env fbasSplitBad1 [{0, 3}, {0, 1, 2}, {1, 2, 3}] = .ok [{0}, {3}] ∧
      IsMinSplitting fbasSplitBad1 {1, 2}) ∧
    (WF fbasSplitBad2 ∧ QuorumIntersection fbasSplitBad2 ∧
      findMinimalQuorums env fbasSplitBad2 = .ok [{0, 2}, {1, 2}] ∧
      findMinimalSplittingSets env fbasSplitBad2 [{0, 2}, {1, 2}] = .ok [] ∧
      IsMinSplitting fbasSplitBad2 {2}) ∧
    (WF fbasSplitBad3 ∧ QuorumIntersection fbasSplitBad3 ∧
      findMinimalQuorums env fbasSplitBad3 = .ok [{0, 1}, {0, 2}, {1, 2}] ∧
      findMinimalSplittingSets env fbasSplitBad3 [{0, 1}, {0, 2}, {1, 2}] = .ok [] ∧
      IsMinSplitting fbasSplitBad3 {0}) ∧
    (WF fbasSplitBad4 ∧ QuorumIntersection fbasSplitBad4 ∧
      findMinimalQuorums env fbasSplitBad4 = .ok [{0}] ∧
      findMinimalSplittingSets env fbasSplitBad4 [{0}] = .ok [{0}, {1}] ∧
      ∀ S, ¬ IsMinSplitting fbasSplitBad4 S) := by
  refine ⟨⟨fbasSplitBad1_wf, by decide +kernel, ?_⟩, ⟨fbasSplitBad2_wf, by decide +kernel, ?_⟩,
    ⟨fbasSplitBad3_wf, by decide +kernel, ?_⟩, ⟨fbasSplitBad4_wf, by decide +kernel, ?_⟩⟩
  · have := splitting_of_ref (env := env) (N := 4) (M := [{0, 3}, {0, 1, 2}, {1, 2, 3}])
      (L := [{0}, {3}]) fbasSplitBad1_wf (by decide +kernel) (by decide +kernel)
    exact ⟨this.1, this.2, by decide +kernel⟩
  · have := splitting_of_ref (env := env) (N := 3) (M := [{0, 2}, {1, 2}]) (L := [])
      fbasSplitBad2_wf (by decide +kernel) (by decide +kernel)
    exact ⟨this.1, this.2, by decide +kernel⟩
  · have := splitting_of_ref (env := env) (N := 3) (M := [{0, 1}, {0, 2}, {1, 2}]) (L := [])
      fbasSplitBad3_wf (by decide +kernel) (by decide +kernel)
    exact ⟨this.1, this.2, by decide +kernel⟩
  · have := splitting_of_ref (env := env) (N := 2) (M := [{0}]) (L := [{0}, {1}])
      fbasSplitBad4_wf (by decide +kernel) (by decide +kernel)
    refine ⟨this.1, this.2, ?_⟩
    rintro S ⟨⟨P, Q, hP, hQ, hne, _⟩, _⟩
    obtain ⟨L, h1, h2, _⟩ := findMinimalQuorums_spec env fbasSplitBad4_wf
    rw [this.1] at h1
    injection h1 with h1
    subst h1
    have e1 := (h2 P).2 hP
    have e2 := (h2 Q).2 hQ
    rw [List.mem_singleton] at e1 e2
    exact hne (e1.trans e2.symm)

/-- 3 of nodes 2, 3, 4 and "1 of nodes 0 and 1". -/
def qSplitLarge : QuorumSet := ⟨3, [2, 3, 4], [⟨1, [0, 1], []⟩]⟩
def fbasSplitLarge : Fbas := Ref.mkFbas (List.replicate 5 qSplitLarge)
/-- 3 of nodes 0-3 and a quorum set that cannot be satisfied. -/
def fbasSplitUnsat : Fbas := Ref.mkFbas (List.replicate 4 ⟨3, [0, 1, 2, 3], [⟨1, [], []⟩]⟩)

theorem fbasSplitLarge_wf : WF fbasSplitLarge := Ref.wf_of (by decide +kernel)
theorem fbasSplitUnsat_wf : WF fbasSplitUnsat := Ref.wf_of (by decide +kernel)

/-- Concrete case of `C19_sound_partial`: its hypothesis is met, the reported sets are splitting, but
{2, 3} is not minimal. -/
example : (∀ q, SymCluster fbasSplitLarge q → DupFree q ∧ Sane q) ∧
    findMinimalSplittingSets (Ref.refEnv 5) fbasSplitLarge [] =
      .ok [{2, 3}, {2, 4}, {3, 4}] ∧
    IsMinSplitting fbasSplitLarge {2} := by
  refine ⟨fun q hq => ?_, Ref.ok_of (by decide +kernel), by decide +kernel⟩
  rw [symCluster_unique (N := 5) (q₀ := qSplitLarge) fbasSplitLarge_wf (by decide +kernel) hq]
  refine ⟨Ref.dupFree_of (by decide), .intro _ (by decide) (by decide) ?_⟩
  simp only [qSplitLarge, List.mem_cons, List.not_mem_nil, or_false]
  rintro q' rfl
  exact .intro _ (by decide) (by decide) (by simp)

/-- C19, soundness fails with an inner quorum set that cannot be satisfied: {0} is reported, but is
not splitting. -/
theorem C19_counterexample_unsatisfiable (env : Env) :
    WF fbasSplitUnsat ∧ QuorumIntersection fbasSplitUnsat ∧
      ∃ M, findMinimalQuorums env fbasSplitUnsat = .ok M ∧
      findMinimalSplittingSets env fbasSplitUnsat M = .ok [{0}, {1}, {2}, {3}] ∧
      ¬ Splitting fbasSplitUnsat {0} ∧ IsMinSplitting fbasSplitUnsat {0, 1} := by
  refine ⟨fbasSplitUnsat_wf, by decide +kernel, [{0, 1, 2}, {0, 1, 3}, {0, 2, 3}, {1, 2, 3}], ?_⟩
  have := splitting_of_ref (env := env) (N := 4) (M := [{0, 1, 2}, {0, 1, 3}, {0, 2, 3}, {1, 2, 3}])
    (L := [{0}, {1}, {2}, {3}]) fbasSplitUnsat_wf (by decide +kernel) (by decide +kernel)
  exact ⟨this.1, this.2, by decide +kernel, by decide +kernel⟩

#print axioms C19_sound_partial
#print axioms C19_counterexample_unsatisfiable
#print axioms C19_minimal_splitting_sets_partial
#print axioms C19_without_intersection_partial
#print axioms C19_no_panic
#print axioms C19_counterexample

/-! ## C20 -/

/-- C20: `has_potential` accepts every set that is contained in two quorums, with respect to any
set of available nodes that includes the intersection of the two quorums. -/
theorem C20_pruning_sound (f : Fbas) (P Q A available : NodeSet) (hP : IsQuorum f P)
    (hQ : IsQuorum f Q) (hAP : A ⊆ P) (hAQ : A ⊆ Q) (hav : P ∩ Q ⊆ available) :
    hasPotential f A available = true :=
  hasPotential_of_quorums hP hQ (Finset.subset_inter hAP hAQ) hav

/-- C20 for a single quorum set: the intersection of two slices passes the check. -/
theorem C20_slice_intersection (q : QuorumSet) (P Q : NodeSet) (hP : Slice P q) (hQ : Slice Q q) :
    q.isSliceIntersection (P ∩ Q) = true := isSliceIntersection_inter hP hQ

/-- Concrete case; and the check is not trivially true. -/
example : IsQuorum fbasA {0, 1} ∧ IsQuorum fbasA {0, 2} ∧ hasPotential fbasA {0} {0} = true ∧
    hasPotential fbasA {0} {3} = false := by decide +kernel

#print axioms C20_pruning_sound
#print axioms C20_slice_intersection

/-! ## C11 for splitting sets -/

/-- C11: the list of minimal splitting sets does not depend on ranking or component order (also
where it is not exact). -/
theorem C11_splitting (env₁ env₂ : Env) (f : Fbas) (hwf : WF f) :
    ∃ M, findMinimalQuorums env₁ f = .ok M ∧ findMinimalQuorums env₂ f = .ok M ∧
      findMinimalSplittingSets env₁ f M = findMinimalSplittingSets env₂ f M := by
  obtain ⟨M, hM, _⟩ := findMinimalQuorums_spec env₁ hwf
  exact ⟨M, hM, by rw [← hM]; exact findMinimalQuorums_env env₂ env₁ hwf,
    findMinimalSplittingSets_env env₁ env₂ env₁ hwf hM⟩

example : findMinimalSplittingSets (Ref.refEnvRev 5) fbasA [{0, 1}, {0, 2}, {1, 2}] =
    .ok [{0}, {1}, {2}] := Ref.ok_of (by decide +kernel)

#print axioms C11_splitting

end FA.Props
