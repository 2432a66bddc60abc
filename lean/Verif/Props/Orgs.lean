import Verif.Lemmas.Orgs
import Verif.Props.Tidy
import Verif.Props.Uniform

/-!
# C92: networks of organizations
-/

namespace FA.Props
open FA Spec Analysis QuorumSet

section
variable {f : Fbas} {orgs : Finset NodeSet} {need : NodeSet → ℕ} {q : QuorumSet}

/-- C92: The minimal quorums that are reported are all sets of `need o` nodes of each of `t` organizations
`o`, where `t` is the threshold. -/
theorem C92_minimal_quorums (env : Env) (hwf : WF f) (h : OrgCore f orgs need q) (history : List Call) :
    ∃ L, answerAfter env f history .minimalQuorums = .ok (.sets L) ∧
      AllPicks orgs need q.threshold L ∧ L.length = pickCount orgs need q.threshold := by
  obtain ⟨L, h1, h2, h3⟩ := (C91_all_exact env f hwf h.exists_quorum h.tidy history).minimalQuorums
  have hL : AllPicks orgs need q.threshold L :=
    ⟨nodup_of_listed h3, fun S => by rw [h2, h.isMinQuorum_iff]⟩
  exact ⟨L, h1, hL, hL.length h.disjoint fun o ho => (h.sizes o ho).1⟩

/-- C92: Quorum intersection is reported iff the threshold is more than half of the number of
organizations, where organizations that can agree to two things at once count twice. -/
theorem C92_quorum_intersection (env : Env) (hwf : WF f) (h : OrgCore f orgs need q)
    (history : List Call) :
    answerAfter env f history .hasQuorumIntersection =
      .ok (.bool (decide (orgs.card + (orgs.filter fun o => 2 * need o ≤ o.card).card <
        2 * q.threshold))) := by
  obtain ⟨b, h1, h2⟩ := (C91_all_exact env f hwf h.exists_quorum h.tidy history).hasQuorumIntersection
  rw [h.quorumIntersection_iff] at h2
  rw [h1, Bool.eq_iff_iff.2 (h2.trans decide_eq_true_iff.symm)]

/-- C92: The minimal blocking sets that are reported are all sets of `|o| - need o + 1` nodes of each of
`|orgs| - t + 1` organizations `o`. -/
theorem C92_minimal_blocking_sets (env : Env) (hwf : WF f) (h : OrgCore f orgs need q)
    (history : List Call) :
    ∃ L, answerAfter env f history .minimalBlockingSets = .ok (.sets L) ∧
      AllPicks orgs (fun o => o.card - need o + 1) (orgs.card - q.threshold + 1) L ∧
      L.length = pickCount orgs (fun o => o.card - need o + 1) (orgs.card - q.threshold + 1) := by
  obtain ⟨L, h1, h2, h3⟩ := (C91_all_exact env f hwf h.exists_quorum h.tidy history).minimalBlockingSets
  have hL : AllPicks orgs (fun o => o.card - need o + 1) (orgs.card - q.threshold + 1) L :=
    ⟨nodup_of_listed h3, fun S => by rw [h2, h.isMinBlocking_iff]⟩
  exact ⟨L, h1, hL, hL.length h.disjoint fun _ _ => by omega⟩

/-- C92: Suppose that in every organization more than half but not all of the nodes are needed. Then the
minimal splitting sets that are reported are all sets of `2 * need o - |o|` nodes of each of
`2 * t - |orgs|` organizations `o`, or just the empty set if not more than half of the organizations are
needed. -/
theorem C92_minimal_splitting_sets (env : Env) (hwf : WF f) (h : OrgCore f orgs need q)
    (hm : ∀ o ∈ orgs, o.card < 2 * need o ∧ need o < o.card) (history : List Call) :
    ∃ L, answerAfter env f history .minimalSplittingSets = .ok (.sets L) ∧
      (2 * q.threshold ≤ orgs.card → L = [∅]) ∧
      (orgs.card < 2 * q.threshold →
        AllPicks orgs (fun o => 2 * need o - o.card) (2 * q.threshold - orgs.card) L ∧
        L.length = pickCount orgs (fun o => 2 * need o - o.card) (2 * q.threshold - orgs.card)) := by
  obtain ⟨L, h1, h2, h3⟩ := (C91_all_exact env f hwf h.exists_quorum h.tidy history).minimalSplittingSets
    (.inl (h.majorities hm))
  refine ⟨L, h1, fun hle => ?_, fun hlt => ?_⟩
  · have hqi : ¬ QuorumIntersection f := by
      rw [h.quorumIntersection_iff]
      omega
    refine eq_of_before h3 (List.pairwise_singleton _ _) fun S => ?_
    rw [h2, isMinSplitting_of_not_intersection h.exists_quorum hqi, List.mem_singleton]
  · have hL : AllPicks orgs (fun o => 2 * need o - o.card) (2 * q.threshold - orgs.card) L :=
      ⟨nodup_of_listed h3, fun S => by rw [h2, h.isMinSplitting_iff hm hlt]⟩
    exact ⟨hL, hL.length h.disjoint fun o ho => by have := hm o ho; omega⟩

/-- C92: The top tier consists of the nodes of all organizations; the quorum set is reported as the only
symmetric cluster and as symmetric top tier. -/
theorem C92_top_tier (env : Env) (hwf : WF f) (h : OrgCore f orgs need q) (history : List Call) :
    (∃ T, answerAfter env f history .topTier = .ok (.set T) ∧ ∀ x, x ∈ T ↔ ∃ o ∈ orgs, x ∈ o) ∧
      answerAfter env f history .symmetricClusters = .ok (.qsets [q]) ∧
      answerAfter env f history .symmetricTopTier = .ok (.qset (some q)) := by
  refine ⟨?_, reported_cluster env hwf (C91_well_shaped env hwf h.tidy) h.exists_quorum h.symCluster_iff
    (fun x hx => (h.mentions_iff x).2 ((h.inTopTier_iff x).1 hx)) history⟩
  obtain ⟨T, h1, h2⟩ := (C91_all_exact env f hwf h.exists_quorum h.tidy history).topTier
  exact ⟨T, h1, fun x => by rw [h2, h.inTopTier_iff]⟩

/-- C92: If all organizations have `c` nodes, of which `s` are needed, then the numbers of reported sets are
products of binomial coefficients. -/
theorem C92_counts (env : Env) (hwf : WF f) (h : OrgCore f orgs need q) {c s : ℕ}
    (hc : ∀ o ∈ orgs, o.card = c ∧ need o = s) (history : List Call) :
    (∃ L, answerAfter env f history .minimalQuorums = .ok (.sets L) ∧
      L.length = orgs.card.choose q.threshold * c.choose s ^ q.threshold) ∧
    (∃ L, answerAfter env f history .minimalBlockingSets = .ok (.sets L) ∧
      L.length = orgs.card.choose (orgs.card - q.threshold + 1) *
        c.choose (c - s + 1) ^ (orgs.card - q.threshold + 1)) ∧
    (c < 2 * s → s < c → orgs.card < 2 * q.threshold →
      ∃ L, answerAfter env f history .minimalSplittingSets = .ok (.sets L) ∧
        L.length = orgs.card.choose (2 * q.threshold - orgs.card) *
          c.choose (2 * s - c) ^ (2 * q.threshold - orgs.card)) := by
  refine ⟨?_, ?_, fun h1 h2 h3 => ?_⟩
  · obtain ⟨L, h1, -, h2⟩ := C92_minimal_quorums env hwf h history
    exact ⟨L, h1, h2.trans (pickCount_same hc)⟩
  · obtain ⟨L, h1, -, h2⟩ := C92_minimal_blocking_sets env hwf h history
    exact ⟨L, h1, h2.trans (pickCount_same fun o ho => ⟨(hc o ho).1, by
      show o.card - need o + 1 = _
      rw [(hc o ho).1, (hc o ho).2]⟩)⟩
  · obtain ⟨L, h4, -, h5⟩ := C92_minimal_splitting_sets env hwf h (fun o ho => by
      rw [(hc o ho).1, (hc o ho).2]; exact ⟨h1, h2⟩) history
    exact ⟨L, h4, (h5 h3).2.trans (pickCount_same fun o ho => ⟨(hc o ho).1, by
      show 2 * need o - o.card = _
      rw [(hc o ho).1, (hc o ho).2]⟩)⟩

end

/-! ## Concrete case

Three organizations of three nodes; two of three nodes of two of three organizations are required. Node 9
only follows node 0. -/

def threeOrgs : QuorumSet := ⟨2, [], [⟨2, [0, 1, 2], []⟩, ⟨2, [3, 4, 5], []⟩, ⟨2, [6, 7, 8], []⟩]⟩

def threeOrgsFbas : Fbas := Ref.mkFbas (List.replicate 9 threeOrgs ++ [⟨1, [0], []⟩])

def threeOrgsSets : Finset NodeSet := {{0, 1, 2}, {3, 4, 5}, {6, 7, 8}}

theorem threeOrgs_core : OrgCore threeOrgsFbas threeOrgsSets (fun _ => 2) threeOrgs where
  members := by
    have h : ∀ o ∈ threeOrgsSets, ∀ x ∈ o, x < threeOrgsFbas.nodes.length ∧
      threeOrgsFbas.qset x = threeOrgs := by decide +kernel
    exact fun o ho x hx => hasQSet_iff.2 (h o ho x hx)
  noValidators := rfl
  flat := by decide +kernel
  once := by decide +kernel
  lists o := by
    simp only [threeOrgsSets, threeOrgs, Finset.mem_insert, Finset.mem_singleton, List.mem_cons,
      List.not_mem_nil, or_false, exists_eq_or_imp, exists_eq_left, List.toFinset_cons, List.toFinset_nil,
      insert_empty_eq]
    simp only [eq_comm]
  agree := by decide +kernel
  disjoint := by
    have h : ∀ o ∈ threeOrgsSets, ∀ o' ∈ threeOrgsSets, ∀ x ∈ o, x ∈ o' → o = o' := by decide +kernel
    exact fun o ho o' ho' x hx => h o ho o' ho' x hx
  sizes := by decide +kernel
  pos := by decide
  le := by decide +kernel
  needed Q hQ := by
    have h : ∀ Q ∈ (Finset.range 10).powerset, threeOrgsFbas.isQuorum Q = true →
      ∃ o ∈ threeOrgsSets, ∃ x ∈ o, x ∈ Q := by decide +kernel
    exact h Q (Finset.mem_powerset.2 hQ.subset_all) (Fbas.isQuorum_iff.2 hQ)

theorem threeOrgs_wf : WF threeOrgsFbas := Ref.wf_of (by decide +kernel)

/-- 27 minimal quorums, 27 minimal blocking sets, 9 minimal splitting sets. -/
example (env : Env) (history : List Call) :
    (∃ L, answerAfter env threeOrgsFbas history .minimalQuorums = .ok (.sets L) ∧ L.length = 27) ∧
    (∃ L, answerAfter env threeOrgsFbas history .minimalBlockingSets = .ok (.sets L) ∧ L.length = 27) ∧
    (∃ L, answerAfter env threeOrgsFbas history .minimalSplittingSets = .ok (.sets L) ∧ L.length = 9) := by
  have := C92_counts env threeOrgs_wf threeOrgs_core (c := 3) (s := 2) (by decide +kernel) history
  exact ⟨this.1, this.2.1, this.2.2 (by decide) (by decide) (by decide +kernel)⟩

example (env : Env) (history : List Call) :
    answerAfter env threeOrgsFbas history .hasQuorumIntersection = .ok (.bool true) :=
  C92_quorum_intersection env threeOrgs_wf threeOrgs_core history

#print axioms C92_minimal_quorums
#print axioms C92_quorum_intersection
#print axioms C92_minimal_blocking_sets
#print axioms C92_minimal_splitting_sets
#print axioms C92_top_tier
#print axioms C92_counts

end FA.Props
