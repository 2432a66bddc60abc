import Verif.Lemmas.MinQuorums
import Verif.Lemmas.Order
import Verif.Ref.Decide

/-!
# C01-C08: quorum slices, quorums, satisfiable nodes, strongly connected components
-/

namespace FA.Props
open FA Spec

/-! ## C01 -/

/-- C01: `is_quorum_slice` decides recursive threshold satisfaction. -/
theorem C01_isQuorumSlice_iff (q : QuorumSet) (S : NodeSet) :
    q.isQuorumSlice S = true ↔ Slice S q := QuorumSet.isQuorumSlice_iff S q

/-- C01, second sentence: thresholds of 0 are never satisfied. -/
theorem C01_threshold_zero (q : QuorumSet) (S : NodeSet) (h : q.threshold = 0) :
    q.isQuorumSlice S = false := by
  rw [Bool.eq_false_iff, ne_eq, C01_isQuorumSlice_iff]
  rintro ⟨_, _, _, _, _, _, _, hpos, _⟩
  omega

/-- Concrete case: a nested quorum set with a repeated validator. -/
example : (⟨3, [0, 0, 1], [⟨1, [2, 3], []⟩]⟩ : QuorumSet).isQuorumSlice {0, 3} = true ∧
    Slice {0, 3} ⟨3, [0, 0, 1], [⟨1, [2, 3], []⟩]⟩ ∧
    ¬ Slice {0, 1} ⟨4, [0, 0, 1], [⟨1, [2, 3], []⟩]⟩ := by
  refine ⟨by decide, (C01_isQuorumSlice_iff _ _).1 (by decide), fun h => ?_⟩
  exact absurd ((C01_isQuorumSlice_iff _ _).2 h) (by decide)

#print axioms C01_isQuorumSlice_iff
#print axioms C01_threshold_zero

/-! ## C02 -/

/-- C02, monotonicity. -/
theorem C02_monotone (q : QuorumSet) (S T : NodeSet) (hST : S ⊆ T)
    (h : q.isQuorumSlice S = true) : q.isQuorumSlice T = true :=
  (C01_isQuorumSlice_iff q T).2 (((C01_isQuorumSlice_iff q S).1 h).mono hST)

/-- C02: `contained_nodes` are the nodes mentioned at any depth. -/
theorem C02_containedNodes (q : QuorumSet) (x : NodeId) : x ∈ q.containedNodes ↔ Mentions q x :=
  QuorumSet.mem_containedNodes

/-- C02, locality: only the listed nodes matter. -/
theorem C02_local (q : QuorumSet) (S T : NodeSet)
    (h : ∀ x ∈ q.containedNodes, (x ∈ S ↔ x ∈ T)) : q.isQuorumSlice S = q.isQuorumSlice T := by
  rw [Bool.eq_iff_iff, C01_isQuorumSlice_iff, C01_isQuorumSlice_iff]
  exact slice_congr (fun x hx => h x ((C02_containedNodes q x).2 hx))

example : (∀ x ∈ (⟨1, [0], [⟨1, [2, 3], []⟩]⟩ : QuorumSet).containedNodes,
      (x ∈ ({2, 7} : NodeSet) ↔ x ∈ ({2, 5, 9} : NodeSet))) ∧
    (⟨1, [0], [⟨1, [2, 3], []⟩]⟩ : QuorumSet).isQuorumSlice {2, 7} = true := by decide

#print axioms C02_monotone
#print axioms C02_containedNodes
#print axioms C02_local

/-! ## C03 -/

/-- C03: `is_quorum` decides the definition of a quorum. -/
theorem C03_isQuorum_iff (f : Fbas) (S : NodeSet) : f.isQuorum S = true ↔ IsQuorum f S :=
  Fbas.isQuorum_iff

/-- C03: quorums are closed under union. -/
theorem C03_union (f : Fbas) (P Q : NodeSet) (hP : f.isQuorum P = true) (hQ : f.isQuorum Q = true) :
    f.isQuorum (P ∪ Q) = true := by
  rw [C03_isQuorum_iff] at *
  exact hP.union hQ

/-- The FBAS used in several examples: nodes 0, 1, 2 have almost the same quorum set, node 3 trusts
0 and 1, node 4 is unsatisfiable. -/
def fbasA : Fbas := Ref.mkFbas [⟨2, [0, 1, 2], []⟩, ⟨2, [0, 1, 2], [⟨2, [3, 4], []⟩]⟩,
  ⟨2, [0, 1, 2], []⟩, ⟨3, [0, 1, 3], []⟩, ⟨0, [1], []⟩]

theorem fbasA_wf : WF fbasA := Ref.wf_of (by decide +kernel)

example : fbasA.isQuorum {0, 1} = true ∧ fbasA.isQuorum {1, 2} = true ∧
    fbasA.isQuorum ({0, 1} ∪ {1, 2}) = true ∧ fbasA.isQuorum ∅ = false ∧
    fbasA.isQuorum {0, 3} = false := by decide +kernel

#print axioms C03_isQuorum_iff
#print axioms C03_union

/-! ## C04 -/

/-- C04: `S` is a slice iff it contains one of the returned sets. -/
theorem C04_generates (q : QuorumSet) (S : NodeSet) :
    Slice S q ↔ ∃ T ∈ q.toQuorumSlices, T ⊆ S := (toQuorumSlices_generates q S).symm

/-- C04: all returned sets are slices (and consist of listed nodes). -/
theorem C04_sound (q : QuorumSet) (T : NodeSet) (hT : T ∈ q.toQuorumSlices) :
    Slice T q ∧ ∀ x ∈ T, Mentions q x :=
  ⟨toQuorumSlices_slice hT, fun _ hx => QuorumSet.mem_containedNodes.1 (toQuorumSlices_subset hT hx)⟩

/-- C04: without repeated nodes the returned sets are exactly the minimal slices, each once. -/
theorem C04_minimal (q : QuorumSet) (h : DupFree q) :
    q.toQuorumSlices.Nodup ∧ ∀ T, T ∈ q.toQuorumSlices ↔ Minimal (fun S => Slice S q) T :=
  ⟨(toQuorumSlices_good h).nodup, fun _ => mem_toQuorumSlices_iff_minimal h⟩

/-- C04: `contains_duplicates` decides whether a node is listed twice. -/
theorem C04_containsDuplicates (q : QuorumSet) : q.containsDuplicates = true ↔ ¬ DupFree q := by
  rw [dupFree_iff, ← QuorumSet.containsDuplicates_iff]
  simp

example : DupFree ⟨2, [0, 1], [⟨2, [2, 3, 4], []⟩]⟩ ∧
    (⟨2, [0, 1], [⟨2, [2, 3, 4], []⟩]⟩ : QuorumSet).toQuorumSlices =
      [{0, 1}, {0, 2, 3}, {0, 2, 4}, {0, 3, 4}, {1, 2, 3}, {1, 2, 4}, {1, 3, 4}] :=
  ⟨Ref.dupFree_of (by decide), by decide +kernel⟩

#print axioms C04_generates
#print axioms C04_sound
#print axioms C04_minimal
#print axioms C04_containsDuplicates

/-! ## C05 -/

/-- C05: `find_satisfiable_nodes` splits `S` into the largest quorum inside `S` and the rest. -/
theorem C05_findSatisfiableNodes (f : Fbas) (S : NodeSet) :
    Disjoint (f.findSatisfiableNodes S).1 (f.findSatisfiableNodes S).2 ∧
      (f.findSatisfiableNodes S).1 ∪ (f.findSatisfiableNodes S).2 = S ∧
      (∀ x, x ∈ (f.findSatisfiableNodes S).1 ↔ ∃ Q, IsQuorum f Q ∧ Q ⊆ S ∧ x ∈ Q) ∧
      ((f.findSatisfiableNodes S).1 = ∅ ∨ IsQuorum f (f.findSatisfiableNodes S).1) := by
  obtain ⟨h1, h2, h3⟩ := f.findSatisfiableNodes_spec S
  refine ⟨h3, h2, fun x => h1.mem_iff, ?_⟩
  rcases Finset.eq_empty_or_nonempty (f.findSatisfiableNodes S).1 with h | h
  · exact .inl h
  · exact .inr (h1.isQuorum h)

/-- C05: satisfiable nodes are the nodes in some quorum. -/
theorem C05_satisfiable (f : Fbas) (x : NodeId) :
    x ∈ f.satisfiableNodes ↔ ∃ Q, IsQuorum f Q ∧ x ∈ Q := Fbas.mem_satisfiableNodes

/-- C05: unsatisfiable nodes are the existing nodes in no quorum. -/
theorem C05_unsatisfiable (f : Fbas) (x : NodeId) :
    x ∈ f.unsatisfiableNodes ↔ x < f.nodes.length ∧ ¬ ∃ Q, IsQuorum f Q ∧ x ∈ Q := by
  obtain ⟨_, h2, h3⟩ := f.findSatisfiableNodes_spec f.allNodes
  rw [← C05_satisfiable]
  have hall : x < f.nodes.length ↔ x ∈ f.allNodes := by simp [Fbas.allNodes]
  rw [hall, ← h2, Finset.mem_union]
  rw [Finset.disjoint_left] at h3
  constructor
  · intro h; exact ⟨.inr h, fun h' => h3 h' h⟩
  · rintro ⟨h | h, h'⟩
    · exact absurd h h'
    · exact h

example : fbasA.satisfiableNodes = {0, 1, 2, 3} ∧ fbasA.unsatisfiableNodes = {4} ∧
    (fbasA.findSatisfiableNodes {0, 2, 3}).1 = {0, 2} := by decide +kernel

#print axioms C05_findSatisfiableNodes
#print axioms C05_satisfiable
#print axioms C05_unsatisfiable

/-! ## C06 -/

/-- C06: `contains_quorum`. -/
theorem C06_containsQuorum (f : Fbas) (S : NodeSet) :
    f.containsQuorum S = true ↔ ∃ Q, IsQuorum f Q ∧ Q ⊆ S := Fbas.containsQuorum_iff

/-- C06: `complement_contains_quorum` (used by `find_symmetric_top_tier`). -/
theorem C06_complementContainsQuorum (f : Fbas) (S : NodeSet) :
    f.complementContainsQuorum S = true ↔ ∃ Q, IsQuorum f Q ∧ Disjoint Q S :=
  Fbas.complementContainsQuorum_iff

example : fbasA.containsQuorum {0, 2, 3, 4} = true ∧ fbasA.containsQuorum {0, 3, 4} = false ∧
    fbasA.complementContainsQuorum {0} = true ∧ fbasA.complementContainsQuorum {0, 1} = false := by
  decide +kernel

#print axioms C06_containsQuorum
#print axioms C06_complementContainsQuorum

/-! ## C07 -/

/-- C07: the parts are disjoint, cover all nodes, and are classes of mutual reachability. -/
theorem C07_partition (env : Env) (f : Fbas) (hwf : WF f) :
    (f.stronglyConnectedComponents env).Pairwise Disjoint ∧
      (∀ x, (∃ P ∈ f.stronglyConnectedComponents env, x ∈ P) ↔ x < f.nodes.length) ∧
      (∀ P ∈ f.stronglyConnectedComponents env, ∀ x ∈ P, ∀ y,
        y ∈ P ↔ y < f.nodes.length ∧ Reaches f x y ∧ Reaches f y x) := by
  have hall : ∀ x, x < f.nodes.length ↔ x ∈ f.allNodes := by simp [Fbas.allNodes]
  refine ⟨Fbas.partition_disjoint env hwf (Finset.Subset.refl _), fun x => ?_,
    fun P hP x hx y => ?_⟩
  · rw [hall]
    exact ⟨fun ⟨P, hP, hx⟩ => Fbas.partition_subset hP hx,
      fun hx => Fbas.partition_cover env hwf (Finset.Subset.refl _) hx⟩
  · rw [hall]
    exact Fbas.partition_same env hwf (Finset.Subset.refl _) hP hx

/-- C07: every minimal quorum lies inside a single part. -/
theorem C07_minQuorum (env : Env) (f : Fbas) (hwf : WF f) (Q : NodeSet) (hQ : IsMinQuorum f Q) :
    ∃ P ∈ f.stronglyConnectedComponents env, Q ⊆ P := by
  obtain ⟨h1, h2, h3⟩ := C07_partition env f hwf
  obtain ⟨x, hx⟩ := hQ.prop.1
  have hlt : ∀ y ∈ Q, y < f.nodes.length := fun y hy => by
    simpa [Fbas.allNodes] using hQ.prop.subset_all hy
  obtain ⟨P, hP, hxP⟩ := (h2 x).2 (hlt x hx)
  exact ⟨P, hP, fun y hy => (h3 P hP x hxP y).2 ⟨hlt y hy, hQ.strongly_connected hx hy,
    hQ.strongly_connected hy hx⟩⟩

example : WF fbasA ∧
    fbasA.stronglyConnectedComponents (Ref.refEnv 5) = [{0, 1, 2, 3, 4}] ∧
    IsMinQuorum fbasA {0, 1} := ⟨fbasA_wf, by decide +kernel, by decide +kernel⟩

/-- Two components, one of which lies above the other. -/
def fbasB : Fbas := Ref.mkFbas [⟨2, [0, 1], []⟩, ⟨1, [0, 1], []⟩, ⟨2, [0, 2, 3], []⟩,
  ⟨2, [2, 3], []⟩]

theorem fbasB_wf : WF fbasB := Ref.wf_of (by decide +kernel)

example : fbasB.stronglyConnectedComponents (Ref.refEnv 4) = [{0, 1}, {2, 3}] := by decide +kernel

#print axioms C07_partition
#print axioms C07_minQuorum

/-! ## C08 -/

/-- C08: relevant nodes contain all minimal quorums. -/
theorem C08_contains_minQuorums (env : Env) (f : Fbas) (hwf : WF f) (Q : NodeSet)
    (hQ : IsMinQuorum f Q) : Q ⊆ f.relevantNodes env := by
  obtain ⟨K, hK, hsub⟩ := (consensusClusters_spec env hwf).cover Q hQ
  rw [Fbas.relevantNodes_eq]
  exact fun x hx => mem_unionAll.2 ⟨K, hK, hsub hx⟩

/-- C08: a node is relevant iff it is in a quorum and some quorum consists of nodes that are in
quorums and mutually reachable with it. -/
theorem C08_relevant_iff (env : Env) (f : Fbas) (hwf : WF f) (x : NodeId) :
    x ∈ f.relevantNodes env ↔ (∃ Q, IsQuorum f Q ∧ x ∈ Q) ∧
      ∃ Q, IsQuorum f Q ∧ ∀ y ∈ Q, Reaches f x y ∧ Reaches f y x := by
  have hKs := consensusClusters_spec env hwf
  rw [Fbas.relevantNodes_eq, mem_unionAll]
  constructor
  · rintro ⟨K, hK, hx⟩
    refine ⟨Fbas.mem_satisfiableNodes.1 (hKs.sat K hK hx), ?_⟩
    obtain ⟨Q, hQ, hsub⟩ := hKs.quorum K hK
    exact ⟨Q, hQ, fun y hy => ((hKs.same K hK x hx y).1 (hsub hy)).2⟩
  · rintro ⟨h1, Q, hQ, hreach⟩
    obtain ⟨Q', hQ', hsub⟩ := hQ.exists_min
    obtain ⟨K, hK, hsub'⟩ := hKs.cover Q' hQ'
    obtain ⟨y, hy⟩ := hQ'.prop.1
    have := hreach y (hsub hy)
    exact ⟨K, hK, (hKs.same K hK y (hsub' hy) x).2
      ⟨Fbas.mem_satisfiableNodes.2 h1, this.2, this.1⟩⟩

example : fbasA.relevantNodes (Ref.refEnv 5) = {0, 1, 2, 3} ∧
    (Ref.mkFbas [⟨2, [0, 1], []⟩, ⟨1, [0, 1], []⟩, ⟨2, [0, 2], []⟩]).relevantNodes (Ref.refEnv 3)
      = {0, 1} := by decide +kernel

#print axioms C08_contains_minQuorums
#print axioms C08_relevant_iff

end FA.Props
