import Verif.Props.Core

/-!
# C22-C24: symmetric clusters
-/

namespace FA.Props
open FA Spec

theorem symmetricClusters_eq (env : Env) (f : Fbas) : findSymmetricClusters env f =
    .ok ((consensusClusters env f).flatMap (findSymmetricClustersInNodeSet f)) := by
  simp only [findSymmetricClusters, findSets, symmetricClustersFinder]
  congr 1
  have key : ∀ (l : List NodeSet) (acc : List QuorumSet),
      l.foldl (fun found nodes => found ++ findSymmetricClustersInNodeSet f nodes) acc
        = acc ++ l.flatMap (findSymmetricClustersInNodeSet f) := by
    intro l
    induction l with
    | nil => simp
    | cons a l ih => intro acc; rw [List.foldl_cons, ih, List.flatMap_cons, List.append_assoc]
  rw [key, List.nil_append]

theorem pairwise_mem {α : Type} {R : α → α → Prop} {l : List α} (h : l.Pairwise R) {a b : α}
    (ha : a ∈ l) (hb : b ∈ l) (hne : a ≠ b) : R a b ∨ R b a := by
  induction h with
  | nil => simp at ha
  | cons h1 _ ih =>
    rcases List.mem_cons.1 ha with rfl | ha' <;> rcases List.mem_cons.1 hb with rfl | hb'
    · exact absurd rfl hne
    · exact .inl (h1 _ hb')
    · exact .inr (h1 _ ha')
    · exact ih ha' hb'

/-! ## C22 -/

/-- C22: exactly the symmetric clusters are found, each once, and they are disjoint. -/
theorem C22_symmetric_clusters (env : Env) (f : Fbas) (hwf : WF f) :
    ∃ L, findSymmetricClusters env f = .ok L ∧ (∀ q, q ∈ L ↔ SymCluster f q) ∧ L.Nodup ∧
      L.Pairwise (fun p q => ∀ x, Mentions p x → ¬ Mentions q x) := by
  have hKs := consensusClusters_spec env hwf
  refine ⟨_, symmetricClusters_eq env f, ?_, ?_, ?_⟩
  · intro q
    rw [List.mem_flatMap]
    constructor
    · rintro ⟨K, hK, hq⟩
      obtain ⟨h1, h2⟩ := hKs.symmetric_eq hK hq
      exact hKs.symCluster_of_mem hK h1 h2
    · intro hq
      obtain ⟨K, hK, hl, _⟩ := hKs.symCluster_mem hq
      exact ⟨K, hK, by rw [hl]; simp⟩
  · rw [List.nodup_flatMap]
    refine ⟨fun K _ => findSymmetricClustersInNodeSet_nodup f K, ?_⟩
    refine List.Pairwise.imp_of_mem ?_ hKs.disjoint
    intro K K' hK hK' hd q hq hq'
    have h1 := (hKs.symmetric_eq hK hq).1
    have h2 := (hKs.symmetric_eq hK' hq').1
    obtain ⟨x, hx⟩ := hKs.nonempty hK
    exact Finset.disjoint_left.1 hd hx (h2 ▸ h1 ▸ hx)
  · rw [List.pairwise_flatMap]
    constructor
    · intro K hK
      rcases hKs.findSymmetric hK with ⟨q, _, hl, _⟩ | ⟨_, hl⟩
      · rw [hl]; simp
      · rw [hl]; simp
    · refine List.Pairwise.imp_of_mem ?_ hKs.disjoint
      intro K K' hK hK' hd p hp q hq x hx hx'
      rw [← QuorumSet.mem_containedNodes, (hKs.symmetric_eq hK hp).1] at hx
      rw [← QuorumSet.mem_containedNodes, (hKs.symmetric_eq hK' hq).1] at hx'
      exact Finset.disjoint_left.1 hd hx hx'

/-- Two symmetric clusters and a node above both. -/
def fbasS : Fbas := Ref.mkFbas [⟨2, [0, 1, 2], []⟩, ⟨2, [0, 1, 2], []⟩, ⟨2, [0, 1, 2], []⟩,
  ⟨1, [3], [⟨1, [4], []⟩]⟩, ⟨1, [3], [⟨1, [4], []⟩]⟩, ⟨2, [0, 3], []⟩]

theorem fbasS_wf : WF fbasS := Ref.wf_of (by decide +kernel)

example : WF fbasS ∧ findSymmetricClusters (Ref.refEnv 6) fbasS =
    .ok [⟨2, [0, 1, 2], []⟩, ⟨1, [3], [⟨1, [4], []⟩]⟩] :=
  ⟨fbasS_wf, Ref.ok_of (by decide +kernel)⟩

#print axioms C22_symmetric_clusters

/-! ## C23 -/

/-- C23: the assertions hold in every consensus cluster. -/
theorem C23_no_assertion (env : Env) (f : Fbas) (hwf : WF f) (K : NodeSet)
    (hK : K ∈ consensusClusters env f) :
    ∃ r, findSymmetricClusterInConsensusCluster f K = .ok r ∧
      ∀ q, r = some q ↔ SymCluster f q ∧ ∀ x, Mentions q x ↔ x ∈ K := by
  have hKs := consensusClusters_spec env hwf
  rcases hKs.findSymmetric hK with ⟨q, h1, h2, h3, h4⟩ | ⟨h1, h2⟩
  · refine ⟨some q, h1, fun q' => ?_⟩
    rw [Option.some_inj]
    constructor
    · rintro rfl
      exact ⟨hKs.symCluster_of_mem hK h3 h4, fun x => by rw [← h3, QuorumSet.mem_containedNodes]⟩
    · rintro ⟨h5, h6⟩
      obtain ⟨x, hx⟩ := hKs.nonempty hK
      have := (hasQSet_iff.1 (h5.1 x ((h6 x).2 hx))).2
      rw [← this, h4 x hx]
  · refine ⟨none, h1, fun q => ?_⟩
    simp only [reduceCtorEq, false_iff]
    rintro ⟨h5, h6⟩
    obtain ⟨K', hK', h7, h8⟩ := hKs.symCluster_mem h5
    obtain ⟨x, hx⟩ := hKs.nonempty hK
    have : K = K' := hKs.eq_of_mem hK hK' hx (by
      rw [← h8, QuorumSet.mem_containedNodes]; exact (h6 x).2 hx)
    rw [← this, h2] at h7
    simp at h7

example : {0, 1, 2} ∈ consensusClusters (Ref.refEnv 6) fbasS ∧
    findSymmetricClusterInConsensusCluster fbasS {0, 1, 2} = .ok (some ⟨2, [0, 1, 2], []⟩) :=
  ⟨by decide +kernel, Ref.ok_of (by decide +kernel)⟩

#print axioms C23_no_assertion

/-! ## C24 -/

/-- C24: never panics; a reported symmetric top tier `q` is a symmetric cluster containing the top
tier and meeting every quorum; conversely a symmetric cluster that contains the (non-empty) top tier is
reported. -/
theorem C24_symmetric_top_tier (env : Env) (f : Fbas) (hwf : WF f) :
    ∃ r, findSymmetricTopTier env f = .ok r ∧
      (∀ q, r = some q → (∀ x, Mentions q x → HasQSet f x q) ∧
        (∀ x, InTopTier f x → Mentions q x) ∧ ∀ Q, IsQuorum f Q → ∃ x ∈ Q, Mentions q x) ∧
      (∀ q, SymCluster f q → (∀ x, InTopTier f x → Mentions q x) → r = some q) := by
  have hKs := consensusClusters_spec env hwf
  obtain ⟨L, hL, hmem, hnd, hdis⟩ := C22_symmetric_clusters env f hwf
  have hconv : ∀ q, SymCluster f q → (∀ x, InTopTier f x → Mentions q x) →
      L = [q] ∧ f.complementContainsQuorum q.containedNodes = false := by
    intro q hq htop
    have hmeet : ∀ Q, IsQuorum f Q → ∃ x ∈ Q, Mentions q x := by
      intro Q hQ
      obtain ⟨Q', hQ', hsub⟩ := hQ.exists_min
      obtain ⟨x, hx⟩ := hQ'.prop.1
      exact ⟨x, hsub hx, htop x ⟨Q', hQ', hx⟩⟩
    constructor
    · have hall : ∀ p ∈ L, p = q := by
        intro p hp
        by_contra hne
        obtain ⟨_, Q, hQ, hQp⟩ := (hmem p).1 hp
        obtain ⟨x, hx, hxq⟩ := hmeet Q hQ
        rcases pairwise_mem hdis hp ((hmem q).2 hq) hne with h | h
        · exact h x (hQp x hx) hxq
        · exact h x hxq (hQp x hx)
      have hqL := (hmem q).2 hq
      cases L with
      | nil => simp at hqL
      | cons a l =>
        have ha := hall a (by simp)
        subst ha
        cases l with
        | nil => rfl
        | cons b l =>
          have hb := hall b (by simp)
          subst hb
          simp at hnd
    · rw [Bool.eq_false_iff, ne_eq, Fbas.complementContainsQuorum_iff]
      rintro ⟨Q, hQ, hd⟩
      obtain ⟨x, hx, hxq⟩ := hmeet Q hQ
      exact Finset.disjoint_left.1 hd hx (QuorumSet.mem_containedNodes.2 hxq)
  have hfwd : ∀ q, q ∈ L → f.complementContainsQuorum q.containedNodes = false →
      (∀ x, Mentions q x → HasQSet f x q) ∧
        (∀ x, InTopTier f x → Mentions q x) ∧ ∀ Q, IsQuorum f Q → ∃ x ∈ Q, Mentions q x := by
    intro q hq hc
    have hs := (hmem q).1 hq
    obtain ⟨K, hK, _, hKq⟩ := hKs.symCluster_mem hs
    have hmeet : ∀ Q, IsQuorum f Q → ∃ x ∈ Q, Mentions q x := by
      intro Q hQ
      by_contra hno
      push Not at hno
      rw [Bool.eq_false_iff, ne_eq, Fbas.complementContainsQuorum_iff] at hc
      exact hc ⟨Q, hQ, Finset.disjoint_left.2 (fun x hx hxq =>
        hno x hx (QuorumSet.mem_containedNodes.1 hxq))⟩
    refine ⟨hs.1, ?_, hmeet⟩
    rintro x ⟨Q, hQ, hx⟩
    obtain ⟨y, hy, hyq⟩ := hmeet Q hQ.prop
    have := hKs.minQuorum_subset hK hQ hy (hKq ▸ QuorumSet.mem_containedNodes.2 hyq)
    exact QuorumSet.mem_containedNodes.1 (hKq ▸ this hx)
  rw [findSymmetricTopTier, hL]
  rcases hl : L with _ | ⟨a, _ | ⟨b, l⟩⟩
  · refine ⟨none, rfl, by simp, fun q h1 h2 => ?_⟩
    have := (hconv q h1 h2).1
    rw [hl] at this; simp at this
  · dsimp only
    by_cases hc : f.complementContainsQuorum a.containedNodes = true
    · refine ⟨none, by rw [if_pos hc], by simp, fun q h1 h2 => ?_⟩
      obtain ⟨h3, h4⟩ := hconv q h1 h2
      rw [hl] at h3
      simp only [List.cons.injEq, and_true] at h3
      subst h3
      rw [h4] at hc; simp at hc
    · refine ⟨some a, by rw [if_neg hc], fun q hq => ?_, fun q h1 h2 => ?_⟩
      · rw [Option.some_inj] at hq
        subst hq
        exact hfwd a (by rw [hl]; simp) (by simpa using hc)
      · have := (hconv q h1 h2).1
        rw [hl] at this
        simp only [List.cons.injEq, and_true] at this
        rw [this]
  · refine ⟨none, rfl, by simp, fun q h1 h2 => ?_⟩
    have := (hconv q h1 h2).1
    rw [hl] at this; simp at this

/-- Concrete case: nodes 0-2 form the symmetric top tier, node 3 trusts them. -/
def fbasT : Fbas := Ref.mkFbas [⟨2, [0, 1, 2], []⟩, ⟨2, [0, 1, 2], []⟩, ⟨2, [0, 1, 2], []⟩,
  ⟨3, [0, 1, 3], []⟩]

theorem fbasT_wf : WF fbasT := Ref.wf_of (by decide +kernel)

example : WF fbasT ∧
    findSymmetricTopTier (Ref.refEnv 4) fbasT = .ok (some ⟨2, [0, 1, 2], []⟩) ∧
    findSymmetricTopTier (Ref.refEnv 6) fbasS = .ok none :=
  ⟨fbasT_wf, Ref.ok_of (by decide +kernel), Ref.ok_of (by decide +kernel)⟩

#print axioms C24_symmetric_top_tier

end FA.Props
