import Verif.Lemmas.BlockingAll
import Verif.Props.Quorums
import Verif.Props.Symmetric

/-!
# C16-C18 (and C11 for blocking sets): minimal blocking sets, top tier
-/

namespace FA.Props
open FA Spec

/-! ## C16 -/

/-- C16 for FBASs in which the quorum sets of symmetric clusters list no node twice and have
thresholds between 1 and the number of entries at every depth: the result consists of exactly the
minimal blocking sets, each once, in the reporting order.

Missing for the full statement: symmetric clusters with repeated nodes or with unsatisfiable inner
quorum sets; there the claim is false, see `C16_counterexample_duplicates` and
`C16_counterexample_unsatisfiable`. -/
theorem C16_minimal_blocking_sets_partial (env : Env) (f : Fbas) (hwf : WF f)
    (hq : ∃ Q, IsQuorum f Q) (hsym : ∀ q, SymCluster f q → DupFree q ∧ Sane q) :
    ∃ L, findMinimalBlockingSets env f = .ok L ∧ (∀ S, S ∈ L ↔ IsMinBlocking f S) ∧
      L.Pairwise Before := by
  obtain ⟨L, h1, h2, h3, h4⟩ := findMinimalBlockingSets_spec env hwf hq hsym
  exact ⟨L, h1, h2, before_of h4 h3⟩

/-- C16: the call never panics. -/
theorem C16_no_panic (env : Env) (f : Fbas) (hwf : WF f) :
    ∃ L, findMinimalBlockingSets env f = .ok L := ⟨_, findMinimalBlockingSets_eq env hwf⟩

theorem fbasA_no_sym (q : QuorumSet) : ¬ SymCluster fbasA q := by
  intro hq
  obtain ⟨K, hK, h1, h2⟩ := (consensusClusters_spec (Ref.refEnv 5) fbasA_wf).symCluster_mem hq
  have h3 : consensusClusters (Ref.refEnv 5) fbasA = [{0, 1, 2, 3}] := by decide +kernel
  rw [h3, List.mem_singleton] at hK
  subst hK
  have : findSymmetricClustersInNodeSet fbasA {0, 1, 2, 3} = [] := by decide +kernel
  rw [this] at h1; simp at h1

/-- Concrete case (no symmetric cluster). -/
example : WF fbasA ∧ (∃ Q, IsQuorum fbasA Q) ∧ (∀ q, SymCluster fbasA q → DupFree q ∧ Sane q) ∧
    findMinimalBlockingSets (Ref.refEnv 5) fbasA = .ok [{0, 1}, {0, 2}, {1, 2}] :=
  ⟨fbasA_wf, ⟨{0, 1}, by decide +kernel⟩, fun q h => absurd h (fbasA_no_sym q),
    Ref.ok_of (by decide +kernel)⟩

/-- Concrete case (two symmetric clusters, one nested). -/
example : WF fbasS ∧ (∃ Q, IsQuorum fbasS Q) ∧ (∀ q, SymCluster fbasS q → DupFree q ∧ Sane q) ∧
    findMinimalBlockingSets (Ref.refEnv 6) fbasS =
      .ok [{0, 1, 3, 4}, {0, 2, 3, 4}, {1, 2, 3, 4}] := by
  refine ⟨fbasS_wf, ⟨{0, 1}, by decide +kernel⟩, fun q h => ?_, Ref.ok_of (by decide +kernel)⟩
  obtain ⟨L, h1, h2, _⟩ := C22_symmetric_clusters (Ref.refEnv 6) fbasS fbasS_wf
  have h3 : findSymmetricClusters (Ref.refEnv 6) fbasS =
    .ok [⟨2, [0, 1, 2], []⟩, ⟨1, [3], [⟨1, [4], []⟩]⟩] := Ref.ok_of (by decide +kernel)
  rw [h3] at h1
  injection h1 with h1
  subst h1
  have := (h2 q).2 h
  simp only [List.mem_cons, List.not_mem_nil, or_false] at this
  rcases this with rfl | rfl
  · exact ⟨Ref.dupFree_of (by decide), .intro _ (by decide) (by decide) (by simp)⟩
  · refine ⟨Ref.dupFree_of (by decide), .intro _ (by decide) (by decide) ?_⟩
    simp only [List.mem_singleton]
    rintro q' rfl
    exact .intro _ (by decide) (by decide) (by simp)

/-- Both nodes need two of the entries 0, 1, 1. -/
def fbasBlockDup : Fbas := Ref.mkFbas [⟨2, [0, 1, 1], []⟩, ⟨2, [0, 1, 1], []⟩]

theorem fbasBlockDup_wf : WF fbasBlockDup := Ref.wf_of (by decide +kernel)

/-- All four nodes need four of the entries 0, 1, 2, 3, 3. -/
def fbasBlockDup' : Fbas := Ref.mkFbas (List.replicate 4 ⟨4, [0, 1, 2, 3, 3], []⟩)

theorem fbasBlockDup'_wf : WF fbasBlockDup' := Ref.wf_of (by decide +kernel)

theorem blocking_env_aux (env₁ env₂ : Env) (f : Fbas) (hwf : WF f) :
    findMinimalBlockingSets env₁ f = findMinimalBlockingSets env₂ f :=
  findMinimalBlockingSets_env env₁ env₂ hwf

/-- C16 is false with repeated nodes: non-minimal and repeated sets are returned (the minimality
check is called with the blocking set in place of the blocked set), or minimal ones are missed. -/
theorem C16_counterexample_duplicates (env : Env) :
    (WF fbasBlockDup ∧ findMinimalBlockingSets env fbasBlockDup = .ok [{1}, {0, 1}, {0, 1}] ∧
      IsMinBlocking fbasBlockDup {1} ∧ ¬ IsMinBlocking fbasBlockDup {0, 1}) ∧
    (WF fbasBlockDup' ∧ findMinimalBlockingSets env fbasBlockDup' = .ok [] ∧
      IsMinBlocking fbasBlockDup' {3}) := by
  refine ⟨⟨fbasBlockDup_wf, ?_, by decide +kernel, by decide +kernel⟩,
    fbasBlockDup'_wf, ?_, by decide +kernel⟩
  · rw [blocking_env_aux env (Ref.refEnv 2) _ fbasBlockDup_wf]
    exact Ref.ok_of (by decide +kernel)
  · rw [blocking_env_aux env (Ref.refEnv 4) _ fbasBlockDup'_wf]
    exact Ref.ok_of (by decide +kernel)

/-- Two nodes, and an inner quorum set that can never be satisfied. Such quorum sets arise, e.g.,
from inner quorum sets with unknown public keys. -/
def fbasBlockUnsat : Fbas := Ref.mkFbas (List.replicate 2 ⟨1, [0, 1], [⟨2, [], []⟩]⟩)

theorem fbasBlockUnsat_wf : WF fbasBlockUnsat := Ref.wf_of (by decide +kernel)

/-- The same with an unreachable threshold. -/
def fbasBlockUnsat' : Fbas := Ref.mkFbas (List.replicate 2 ⟨1, [0], [⟨5, [1], []⟩]⟩)

theorem fbasBlockUnsat'_wf : WF fbasBlockUnsat' := Ref.wf_of (by decide +kernel)

/-- C16 is false with unsatisfiable inner quorum sets in symmetric clusters: all minimal blocking
sets are missed. -/
theorem C16_counterexample_unsatisfiable (env : Env) :
    (WF fbasBlockUnsat ∧ findMinimalBlockingSets env fbasBlockUnsat = .ok [] ∧
      IsMinBlocking fbasBlockUnsat {0, 1}) ∧
    (WF fbasBlockUnsat' ∧ findMinimalBlockingSets env fbasBlockUnsat' = .ok [] ∧
      IsMinBlocking fbasBlockUnsat' {0}) := by
  refine ⟨⟨fbasBlockUnsat_wf, ?_, by decide +kernel⟩, fbasBlockUnsat'_wf, ?_, by decide +kernel⟩
  · rw [blocking_env_aux env (Ref.refEnv 2) _ fbasBlockUnsat_wf]
    exact Ref.ok_of (by decide +kernel)
  · rw [blocking_env_aux env (Ref.refEnv 2) _ fbasBlockUnsat'_wf]
    exact Ref.ok_of (by decide +kernel)

/-- C16, for all FBASs: every reported set is a blocking set. -/
theorem C16_sound (env : Env) (f : Fbas) (hwf : WF f) :
    ∃ L, findMinimalBlockingSets env f = .ok L ∧ ∀ S ∈ L, Blocking f S := by
  obtain ⟨L, hL⟩ := C16_no_panic env f hwf
  exact ⟨L, hL, fun S hS => findMinimalBlockingSets_sound env hwf hL hS⟩

/-- Concrete case: a set is reported although it is not minimal; it is blocking. -/
example : findMinimalBlockingSets (Ref.refEnv 2) fbasBlockDup = .ok [{1}, {0, 1}, {0, 1}] ∧
    Blocking fbasBlockDup {0, 1} ∧ ¬ IsMinBlocking fbasBlockDup {0, 1} :=
  ⟨Ref.ok_of (by decide +kernel), by
    obtain ⟨L, h1, h2⟩ := C16_sound (Ref.refEnv 2) fbasBlockDup fbasBlockDup_wf
    have h3 : findMinimalBlockingSets (Ref.refEnv 2) fbasBlockDup = .ok [{1}, {0, 1}, {0, 1}] :=
      Ref.ok_of (by decide +kernel)
    rw [h3] at h1
    injection h1 with h1
    exact h2 _ (by rw [← h1]; simp), by decide +kernel⟩

/-- C16 is false for *every* FBAS that has a symmetric cluster in which a node is listed twice and in
which no node is a quorum on its own: no set is reported at all, although there are minimal blocking
sets and all of them are non-empty. -/
theorem C16_duplicates (env : Env) (f : Fbas) (hwf : WF f) (q : QuorumSet) (hq : SymCluster f q)
    (hd : ¬ DupFree q) (hno : ∀ x, Mentions q x → ¬ IsQuorum f {x}) :
    findMinimalBlockingSets env f = .ok [] ∧
      (∃ B, IsMinBlocking f B) ∧ ∀ B, IsMinBlocking f B → B.Nonempty := by
  refine ⟨findMinimalBlockingSets_duplicates env hwf hq hd hno, ?_, fun B hB => ?_⟩
  · have hall : Blocking f f.allNodes := by
      intro Q hQ
      obtain ⟨x, hx⟩ := hQ.1
      exact ⟨x, hx, hQ.subset_all hx⟩
    obtain ⟨B, _, hB⟩ := exists_minimal_le_of_wellFoundedLT (Blocking f) _ hall
    exact ⟨B, hB⟩
  · obtain ⟨_, Q, hQ, _⟩ := hq
    obtain ⟨x, _, hx⟩ := hB.prop Q hQ
    exact ⟨x, hx⟩

/-- C16, exactly when it holds: the reported sets are exactly the minimal blocking sets iff there is
a quorum and all symmetric clusters list no node twice and have thresholds between 1 and the number
of entries at every depth.

Missing for all FBASs: symmetric clusters in which a node is listed twice and some node is a quorum on
its own. Such FBASs are on both sides: see `C16_counterexample_duplicates` and the example below. -/
theorem C16_exact_iff_partial (env : Env) (f : Fbas) (hwf : WF f)
    (hone : ∀ q, SymCluster f q → ¬ DupFree q → ∀ x, Mentions q x → ¬ IsQuorum f {x}) :
    (∃ L, findMinimalBlockingSets env f = .ok L ∧ ∀ S, S ∈ L ↔ IsMinBlocking f S) ↔
      (∃ Q, IsQuorum f Q) ∧ ∀ q, SymCluster f q → DupFree q ∧ Sane q := by
  constructor
  · rintro ⟨L, hL, hex⟩
    have hqs : ∃ Q, IsQuorum f Q := by
      by_contra hq
      have h0 := findMinimalBlockingSets_none env hwf hq
      rw [hL] at h0
      injection h0 with h0
      have hb : ∀ C, Blocking f C := fun C Q hQ => absurd ⟨Q, hQ⟩ hq
      have := (hex ∅).2 ⟨hb ∅, fun _ _ _ => by simp⟩
      rw [h0] at this; simp at this
    refine ⟨hqs, fun q hq => ?_⟩
    have hd : DupFree q := by
      by_contra hd
      obtain ⟨h1, ⟨B, hB⟩, _⟩ := C16_duplicates env f hwf q hq hd (hone q hq hd)
      rw [hL] at h1
      injection h1 with h1
      have := (hex B).2 hB
      rw [h1] at this; simp at this
    refine ⟨hd, ?_⟩
    by_contra hs
    obtain ⟨B, hB1, hB2, hB3⟩ := gen_incomplete hd hs
    have hKs := consensusClusters_spec env hwf
    obtain ⟨K, hK, h1, h2⟩ := hKs.symCluster_mem hq
    rcases hKs.findSymmetric hK with ⟨q', h3, h4, h5, h6⟩ | ⟨_, h3⟩
    · rw [h4] at h1
      simp only [List.cons.injEq, and_true] at h1
      subst h1
      have hits : Hits f K B := by
        intro Q hQ hsub
        have := (symmetric_quorum_iff h6 (hsub.trans Finset.sdiff_subset)).1 hQ
        exact hB3 Q (fun x hx => (Finset.mem_sdiff.1 (hsub hx)).2) this
      obtain ⟨T, hT, hTB⟩ := gen_of_complete env hwf hL (fun S => (hex S).2) hK hits
      unfold clusterBlocking at hT
      rw [h3] at hT
      exact hB2 ⟨T, toMinimalBlockingSets_subset hT, hTB⟩
    · rw [h1] at h3; simp at h3
  · rintro ⟨hq, hsym⟩
    obtain ⟨L, h1, h2, _⟩ := C16_minimal_blocking_sets_partial env f hwf hq hsym
    exact ⟨L, h1, h2⟩

/-- Concrete case: the condition on repeated nodes holds and the result is not exact. -/
example : WF fbasBlockDup' ∧ SymCluster fbasBlockDup' ⟨4, [0, 1, 2, 3, 3], []⟩ ∧
    ¬ DupFree ⟨4, [0, 1, 2, 3, 3], []⟩ ∧
    ∀ x, Mentions ⟨4, [0, 1, 2, 3, 3], []⟩ x → ¬ IsQuorum fbasBlockDup' {x} := by
  refine ⟨fbasBlockDup'_wf, ⟨?_, {0, 1, 3}, by decide +kernel, ?_⟩, ?_, ?_⟩
  · intro x hx
    cases hx with
    | validator h =>
      have h : x = 0 ∨ x = 1 ∨ x = 2 ∨ x = 3 := by simpa using h
      rcases h with rfl | rfl | rfl | rfl <;> exact ⟨_, rfl, rfl⟩
    | inner h _ => simp at h
  · intro x hx
    have h : x = 0 ∨ x = 1 ∨ x = 3 := by simpa using hx
    exact .validator (by rcases h with rfl | rfl | rfl <;> simp)
  · rw [← C04_containsDuplicates]; decide
  · intro x hx
    cases hx with
    | validator h =>
      have h : x = 0 ∨ x = 1 ∨ x = 2 ∨ x = 3 := by simpa using h
      rcases h with rfl | rfl | rfl | rfl <;> decide +kernel
    | inner h _ => simp at h

/-- Two of 0, 0, 0: the result is exact although a node is listed three times. -/
example : ¬ DupFree ⟨2, [0, 0, 0], []⟩ ∧
    findMinimalBlockingSets (Ref.refEnv 1) (Ref.mkFbas [⟨2, [0, 0, 0], []⟩]) = .ok [{0}, {0}, {0}] ∧
    IsMinBlocking (Ref.mkFbas [⟨2, [0, 0, 0], []⟩]) {0} :=
  ⟨by rw [← C04_containsDuplicates]; decide, Ref.ok_of (by decide +kernel), by decide +kernel⟩

#print axioms C16_sound
#print axioms C16_duplicates
#print axioms C16_exact_iff_partial
#print axioms C16_minimal_blocking_sets_partial
#print axioms C16_no_panic
#print axioms C16_counterexample_duplicates
#print axioms C16_counterexample_unsatisfiable

/-! ## C11 for blocking sets -/

/-- C11: the list of minimal blocking sets does not depend on ranking or component order (also where
it is not exact). -/
theorem C11_blocking (env₁ env₂ : Env) (f : Fbas) (hwf : WF f) :
    findMinimalBlockingSets env₁ f = findMinimalBlockingSets env₂ f :=
  findMinimalBlockingSets_env env₁ env₂ hwf

example : findMinimalBlockingSets (Ref.refEnvRev 5) fbasA = .ok [{0, 1}, {0, 2}, {1, 2}] :=
  Ref.ok_of (by decide +kernel)

#print axioms C11_blocking

/-! ## C17 -/

/-- The specification side of C17: without quorums, exactly the empty set is minimal blocking. -/
theorem C17_spec (f : Fbas) (hq : ¬ ∃ Q, IsQuorum f Q) (B : NodeSet) :
    IsMinBlocking f B ↔ B = ∅ := by
  have hb : ∀ C, Blocking f C := fun C Q hQ => absurd ⟨Q, hQ⟩ hq
  constructor
  · intro h
    exact Finset.subset_empty.1 (h.le_of_le (y := ∅) (hb ∅) (by simp))
  · rintro rfl
    exact ⟨hb ∅, fun _ _ _ => by simp⟩

/-- C17 is false for *every* FBAS without quorums: the code returns no set at all instead of the
empty set (the product over zero consensus clusters is empty). -/
theorem C17_counterexample (env : Env) (f : Fbas) (hwf : WF f) (hq : ¬ ∃ Q, IsQuorum f Q) :
    findMinimalBlockingSets env f = .ok [] ∧ IsMinBlocking f ∅ :=
  ⟨findMinimalBlockingSets_none env hwf hq, (C17_spec f hq ∅).2 rfl⟩

/-- What remains of C17: all sets returned (there are none) are the empty set, and the call does not
panic. Missing: the empty set itself. -/
theorem C17_partial (env : Env) (f : Fbas) (hwf : WF f) (hq : ¬ ∃ Q, IsQuorum f Q) :
    ∃ L, findMinimalBlockingSets env f = .ok L ∧ L.length ≤ 1 ∧ ∀ S ∈ L, S = ∅ :=
  ⟨[], findMinimalBlockingSets_none env hwf hq, by simp, by simp⟩

/-- Concrete case: node 0 needs an unsatisfiable node. -/
example : WF (Ref.mkFbas [⟨2, [0, 1], []⟩, ⟨0, [], []⟩]) ∧
    ¬ ∃ Q, IsQuorum (Ref.mkFbas [⟨2, [0, 1], []⟩, ⟨0, [], []⟩]) Q :=
  ⟨Ref.wf_of (by decide +kernel), by decide +kernel⟩

#print axioms C17_spec
#print axioms C17_counterexample
#print axioms C17_partial

/-! ## C18 (specification part; for `Analysis::top_tier` see `Props/FrontEnd.lean`) -/

/-- C18: nodes in minimal quorums are the nodes in minimal blocking sets. -/
theorem C18_duality (f : Fbas) (x : NodeId) :
    (∃ Q, IsMinQuorum f Q ∧ x ∈ Q) ↔ ∃ B, IsMinBlocking f B ∧ x ∈ B := by
  constructor
  · rintro ⟨Q, hQ, hx⟩
    have hB₀ : Blocking f (insert x (f.allNodes \ Q)) := by
      intro P hP
      by_cases hPQ : P ⊆ Q
      · exact ⟨x, by rw [hQ.eq_of_subset hP hPQ]; exact hx, by simp⟩
      · obtain ⟨y, hyP, hyQ⟩ := Finset.not_subset.1 hPQ
        exact ⟨y, hyP, Finset.mem_insert_of_mem (Finset.mem_sdiff.2 ⟨hP.subset_all hyP, hyQ⟩)⟩
    obtain ⟨B, hBsub, hB⟩ := exists_minimal_le_of_wellFoundedLT (Blocking f) _ hB₀
    refine ⟨B, hB, ?_⟩
    obtain ⟨y, hyQ, hyB⟩ := hB.prop Q hQ.prop
    have := hBsub hyB
    rw [Finset.mem_insert, Finset.mem_sdiff] at this
    rcases this with rfl | h
    · exact hyB
    · exact absurd hyQ h.2
  · rintro ⟨B, hB, hx⟩
    have h1 := (Ref.isMinBlocking_iff.1 hB).2 x hx
    unfold Blocking at h1
    push Not at h1
    obtain ⟨P, hP, hno⟩ := h1
    obtain ⟨Q, hQ, hQP⟩ := hP.exists_min
    obtain ⟨y, hyQ, hyB⟩ := hB.prop Q hQ.prop
    refine ⟨Q, hQ, ?_⟩
    have : y = x := by
      by_contra hne
      exact hno y (hQP hyQ) (Finset.mem_erase.2 ⟨hne, hyB⟩)
    exact this ▸ hyQ

/-- C18: wherever the blocking sets are exact, `involved_nodes` of both results agree and are the
top tier. -/
theorem C18_involved_nodes_partial (env : Env) (f : Fbas) (hwf : WF f) (hq : ∃ Q, IsQuorum f Q)
    (hsym : ∀ q, SymCluster f q → DupFree q ∧ Sane q) :
    ∃ L M, findMinimalQuorums env f = .ok L ∧ findMinimalBlockingSets env f = .ok M ∧
      involvedNodes L = involvedNodes M ∧ ∀ x, x ∈ involvedNodes L ↔ InTopTier f x := by
  obtain ⟨L, h1, h2, _⟩ := findMinimalQuorums_spec env hwf
  obtain ⟨M, h3, h4, _⟩ := findMinimalBlockingSets_spec env hwf hq hsym
  have hL : ∀ x, x ∈ involvedNodes L ↔ InTopTier f x := by
    intro x
    rw [involvedNodes, mem_unionAll]
    exact exists_congr (fun Q => and_congr_left (fun _ => h2 Q))
  have hM : ∀ x, x ∈ involvedNodes M ↔ InTopTier f x := by
    intro x
    rw [involvedNodes, mem_unionAll, InTopTier, C18_duality]
    exact exists_congr (fun Q => and_congr_left (fun _ => h4 Q))
  refine ⟨L, M, h1, h3, ?_, hL⟩
  ext x; rw [hL, hM]

example : InTopTier fbasA 2 ∧ ∃ B, IsMinBlocking fbasA B ∧ 2 ∈ B :=
  ⟨⟨{0, 2}, by decide +kernel, by decide⟩, {1, 2}, by decide +kernel, by decide⟩

#print axioms C18_duality
#print axioms C18_involved_nodes_partial

end FA.Props
