import Verif.Lemmas.Fbas
import Verif.Model.Sets

/-! Lemmas about strongly connected components and consensus clusters. -/

namespace FA
open Spec QuorumSet

theorem Fbas.mem_successors {f : Fbas} {x y : ℕ} : y ∈ f.successors x ↔ Trusts f x y := by
  rw [trusts_iff, successors, mem_elems, mem_containedNodes]

theorem Fbas.reaches_iff {f : Fbas} {x y : ℕ} :
    Relation.ReflTransGen (fun a b => b ∈ f.successors a) x y ↔ Reaches f x y := by
  have : (fun a b => b ∈ f.successors a) = Trusts f := by
    funext a b; exact propext mem_successors
  rw [this, Reaches]

theorem Fbas.scc_spec (env : Env) {f : Fbas} (hwf : WF f) {nodes : NodeSet}
    (h : nodes ⊆ f.allNodes) :
    SccSpec (elems nodes) f.successors (env.scc (elems nodes) f.successors) := by
  refine env.scc_spec _ _ f.nodes.length ?_ ?_
  · intro s hs; simpa [allNodes] using h (mem_elems.1 hs)
  · intro x _ y hy; exact hwf x y (mem_successors.1 hy)

theorem Fbas.mem_partition {env : Env} {f : Fbas} {nodes P : NodeSet} :
    P ∈ f.partitionIntoSccs env nodes ↔
      ∃ c ∈ env.scc (elems nodes) f.successors, ∀ x, x ∈ P ↔ x ∈ c ∧ x ∈ nodes := by
  simp only [partitionIntoSccs, List.mem_map]
  refine exists_congr (fun c => and_congr_right (fun _ => ?_))
  rw [Finset.ext_iff]
  refine forall_congr' (fun x => ?_)
  simp [iff_comm]

/-- The parts are disjoint. -/
theorem Fbas.partition_disjoint (env : Env) {f : Fbas} (hwf : WF f) {nodes : NodeSet}
    (h : nodes ⊆ f.allNodes) : (f.partitionIntoSccs env nodes).Pairwise Disjoint := by
  have hs := (scc_spec env hwf h).nodup
  rw [List.nodup_flatten] at hs
  rw [partitionIntoSccs, List.pairwise_map]
  refine hs.2.imp ?_
  intro a b hab
  rw [Finset.disjoint_left]
  intro x hxa hxb
  simp at hxa hxb
  exact hab hxa.1 hxb.1

theorem Fbas.partition_subset {env : Env} {f : Fbas} {nodes P : NodeSet}
    (hP : P ∈ f.partitionIntoSccs env nodes) : P ⊆ nodes := by
  obtain ⟨c, _, hc⟩ := mem_partition.1 hP
  exact fun x hx => ((hc x).1 hx).2

theorem Fbas.partition_cover (env : Env) {f : Fbas} (hwf : WF f) {nodes : NodeSet}
    (h : nodes ⊆ f.allNodes) {x : ℕ} (hx : x ∈ nodes) :
    ∃ P ∈ f.partitionIntoSccs env nodes, x ∈ P := by
  have hs := (scc_spec env hwf h).mem x
  obtain ⟨c, hc, hxc⟩ := List.mem_flatten.1
    (hs.2 ⟨x, mem_elems.2 hx, Relation.ReflTransGen.refl⟩)
  refine ⟨ofList (c.filter (fun x => decide (x ∈ elems nodes))), ?_, by simp [hx, hxc]⟩
  exact List.mem_map.2 ⟨c, hc, rfl⟩

theorem Fbas.partition_same (env : Env) {f : Fbas} (hwf : WF f) {nodes P : NodeSet}
    (h : nodes ⊆ f.allNodes) (hP : P ∈ f.partitionIntoSccs env nodes) {x y : ℕ} (hx : x ∈ P) :
    y ∈ P ↔ y ∈ nodes ∧ Reaches f x y ∧ Reaches f y x := by
  obtain ⟨c, hc, hcP⟩ := mem_partition.1 hP
  have hs := (scc_spec env hwf h).same c hc x ((hcP x).1 hx).1 y
  rw [reaches_iff, reaches_iff] at hs
  rw [hcP y, hs]
  tauto

/-! ### Consensus clusters -/

theorem range_toFinset (n : ℕ) : (List.range n).toFinset = Finset.range n := by
  ext x; simp

theorem consensusClusters_eq (env : Env) (f : Fbas) : consensusClusters env f =
    (f.partitionIntoSccs env f.satisfiableNodes).filter (fun s => f.containsQuorum s) := by
  simp only [consensusClusters, ofList, range_toFinset]
  rfl

theorem Fbas.satisfiableNodes_spec (f : Fbas) : MaxQuorumIn f f.allNodes f.satisfiableNodes :=
  (f.findSatisfiableNodes_spec f.allNodes).1

theorem Fbas.mem_satisfiableNodes {f : Fbas} {x : ℕ} :
    x ∈ f.satisfiableNodes ↔ ∃ Q, IsQuorum f Q ∧ x ∈ Q := by
  rw [f.satisfiableNodes_spec.mem_iff]
  exact ⟨fun ⟨Q, h1, _, h2⟩ => ⟨Q, h1, h2⟩, fun ⟨Q, h1, h2⟩ => ⟨Q, h1, h1.subset_all, h2⟩⟩

theorem Spec.IsQuorum.subset_sat {f : Fbas} {Q : NodeSet} (h : IsQuorum f Q) :
    Q ⊆ f.satisfiableNodes := fun _ hx => Fbas.mem_satisfiableNodes.2 ⟨Q, h, hx⟩

/-- What the finders rely on: `Ks` are disjoint sets, each contains a quorum, each minimal quorum is
inside one of them, and each is an SCC restricted to the satisfiable nodes. -/
structure IsClusters (f : Fbas) (Ks : List NodeSet) : Prop where
  disjoint : Ks.Pairwise Disjoint
  quorum : ∀ K ∈ Ks, ∃ Q, IsQuorum f Q ∧ Q ⊆ K
  cover : ∀ Q, IsMinQuorum f Q → ∃ K ∈ Ks, Q ⊆ K
  sat : ∀ K ∈ Ks, K ⊆ f.satisfiableNodes
  same : ∀ K ∈ Ks, ∀ x ∈ K, ∀ y, y ∈ K ↔ y ∈ f.satisfiableNodes ∧ Reaches f x y ∧ Reaches f y x

theorem consensusClusters_spec (env : Env) {f : Fbas} (hwf : WF f) :
    IsClusters f (consensusClusters env f) := by
  have hsub := f.satisfiableNodes_spec.sub
  rw [consensusClusters_eq]
  have hmem : ∀ K ∈ (f.partitionIntoSccs env f.satisfiableNodes).filter
      (fun s => f.containsQuorum s), K ∈ f.partitionIntoSccs env f.satisfiableNodes :=
    fun K hK => (List.mem_filter.1 hK).1
  refine ⟨(Fbas.partition_disjoint env hwf hsub).filter _, ?_, ?_, ?_, ?_⟩
  · intro K hK
    exact Fbas.containsQuorum_iff.1 (List.mem_filter.1 hK).2
  · intro Q hQ
    obtain ⟨x, hx⟩ := hQ.prop.1
    obtain ⟨P, hP, hxP⟩ := Fbas.partition_cover env hwf hsub (hQ.prop.subset_sat hx)
    have hQP : Q ⊆ P := by
      intro y hy
      rw [Fbas.partition_same env hwf hsub hP hxP]
      exact ⟨hQ.prop.subset_sat hy, hQ.strongly_connected hx hy, hQ.strongly_connected hy hx⟩
    exact ⟨P, List.mem_filter.2 ⟨hP, Fbas.containsQuorum_iff.2 ⟨Q, hQ.prop, hQP⟩⟩, hQP⟩
  · intro K hK; exact Fbas.partition_subset (hmem K hK)
  · intro K hK x hx y; exact Fbas.partition_same env hwf hsub (hmem K hK) hx

namespace IsClusters

variable {f : Fbas} {Ks : List NodeSet}

theorem nonempty (h : IsClusters f Ks) {K : NodeSet} (hK : K ∈ Ks) : K.Nonempty := by
  obtain ⟨Q, hQ, hsub⟩ := h.quorum K hK
  exact hQ.1.mono hsub

theorem nodup (h : IsClusters f Ks) : Ks.Nodup := by
  refine List.Pairwise.imp_of_mem ?_ h.disjoint
  rintro a b ha _ hab rfl
  obtain ⟨x, hx⟩ := h.nonempty ha
  exact Finset.disjoint_left.1 hab hx hx

theorem eq_of_mem (h : IsClusters f Ks) {K K' : NodeSet} (hK : K ∈ Ks) (hK' : K' ∈ Ks) {x : ℕ}
    (hx : x ∈ K) (hx' : x ∈ K') : K = K' := by
  ext y; rw [h.same K hK x hx, h.same K' hK' x hx']

theorem eq_nil_iff (h : IsClusters f Ks) : Ks = [] ↔ ¬ ∃ Q, IsQuorum f Q := by
  constructor
  · rintro rfl ⟨Q, hQ⟩
    obtain ⟨Q', hQ', _⟩ := hQ.exists_min
    obtain ⟨K, hK, _⟩ := h.cover Q' hQ'
    simp at hK
  · intro hn
    rw [List.eq_nil_iff_forall_not_mem]
    intro K hK
    obtain ⟨Q, hQ, _⟩ := h.quorum K hK
    exact hn ⟨Q, hQ⟩

/-- A quorum that shares a node with a cluster and lies in ... : minimal quorums meeting a cluster
lie inside it. -/
theorem minQuorum_subset (h : IsClusters f Ks) {K Q : NodeSet} (hK : K ∈ Ks)
    (hQ : IsMinQuorum f Q) {x : ℕ} (hx : x ∈ Q) (hxK : x ∈ K) : Q ⊆ K := by
  obtain ⟨K', hK', hsub⟩ := h.cover Q hQ
  rw [h.eq_of_mem hK hK' hxK (hsub hx)]
  exact hsub

end IsClusters

/-! ### Relevant nodes -/

theorem Fbas.relevantNodes_eq (env : Env) (f : Fbas) :
    f.relevantNodes env = unionAll (consensusClusters env f) := by
  rw [consensusClusters_eq, relevantNodes, unionAll]
  generalize f.partitionIntoSccs env f.satisfiableNodes = l
  generalize (∅ : NodeSet) = acc
  induction l generalizing acc with
  | nil => rfl
  | cons a l ih =>
    rw [List.foldl_cons, List.filter_cons]
    split <;> simp [ih]

end FA
