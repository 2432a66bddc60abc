import Verif.Lemmas.Uniform
import Verif.Props.FrontEnd
import Verif.Props.Symmetric
import Verif.Props.Simulation
import Verif.Ref.Decide

/-!
# C89: networks with a uniform core
-/

namespace FA.Props
open FA Spec Analysis QuorumSet Simulator

section
variable {env : Env} {f : Fbas} {K : NodeSet} {q : QuorumSet}

theorem uniform_shaped (env : Env) (h : UniformCore f K q) : WellShaped env f :=
  ⟨(shapedOn_iff _ _).1 (h.flatSomewhere.shaped _),
    fun T _ => (shapedOn_iff _ _).1 (h.flatSomewhere.shaped T)⟩

theorem nodup_of_listed {L : List NodeSet} (h : L.Pairwise Before) : L.Nodup :=
  h.imp fun h he => by
    rw [he] at h
    rcases h with h | ⟨-, x, h1, h2, -⟩
    · omega
    · exact h2 h1

/-- C89: In a network whose core `K` requires `t` of the nodes in `K`, the minimal quorums that are
reported (after any other calls) are all sets of `t` nodes in `K`. -/
theorem C89_minimal_quorums (env : Env) (hwf : WF f) (h : UniformCore f K q) (history : List Call) :
    ∃ L, answerAfter env f history .minimalQuorums = .ok (.sets L) ∧ AllOfSize K q.threshold L ∧
      L.length = K.card.choose q.threshold := by
  have hd : ∀ p, SymCluster f p → DupFree p := by
    intro p hp
    rw [h.symCluster_iff] at hp
    subst hp
    exact .intro _ h.once (by simp [h.flat]) (by simp [h.flat]) (by simp [h.flat])
  obtain ⟨L, h1, h2⟩ := C27_minimal_quorums_partial env f hwf (uniform_shaped env h) hd history
    (.inr h.exists_quorum)
  obtain ⟨L', h3, h4, -, h5⟩ := findMinimalQuorums_spec env hwf
  rw [h1] at h3
  obtain rfl := Except.ok.inj h3
  have hL : AllOfSize K q.threshold L := ⟨h5 hd, fun S => by rw [h4, h.isMinQuorum_iff]⟩
  exact ⟨L, h2, hL, hL.length⟩

/-- C89: The verdict is that all quorums intersect if and only if `t` is more than half of the core. -/
theorem C89_quorum_intersection (env : Env) (hwf : WF f) (h : UniformCore f K q) (history : List Call) :
    answerAfter env f history .hasQuorumIntersection = .ok (.bool (decide (K.card < 2 * q.threshold))) := by
  obtain ⟨b, h1, h2⟩ := C12_all_histories_partial env f hwf (uniform_shaped env h) history
    (.inr h.exists_quorum)
  rw [h.quorumIntersection_iff] at h2
  rw [h1, Bool.eq_iff_iff.2 (h2.trans decide_eq_true_iff.symm)]

/-- C89: The minimal blocking sets that are reported are all sets of `|K| - t + 1` nodes in the core. -/
theorem C89_minimal_blocking_sets (env : Env) (hwf : WF f) (h : UniformCore f K q)
    (history : List Call) :
    ∃ L, answerAfter env f history .minimalBlockingSets = .ok (.sets L) ∧
      AllOfSize K (K.card - q.threshold + 1) L ∧ L.length = K.card.choose (K.card - q.threshold + 1) := by
  obtain ⟨L, h1, h2, h3⟩ := C29_minimal_blocking_sets_partial env f hwf (uniform_shaped env h)
    h.exists_quorum history
  have hL : AllOfSize K (K.card - q.threshold + 1) L :=
    ⟨nodup_of_listed h3, fun S => by rw [h2, IsMinBlocking, minimal_inter_iff h.blocking_iff]⟩
  exact ⟨L, h1, hL, hL.length⟩

/-- C89: The minimal splitting sets that are reported: only the empty set if `t` is at most half of the
core; none if all nodes of the core are required; otherwise, all sets of `2 * t - |K|` nodes in the
core. -/
theorem C89_minimal_splitting_sets (env : Env) (hwf : WF f) (h : UniformCore f K q)
    (history : List Call) :
    ∃ L, answerAfter env f history .minimalSplittingSets = .ok (.sets L) ∧
      (2 * q.threshold ≤ K.card → L = [∅]) ∧
      (K.card < 2 * q.threshold → q.threshold = K.card → L = []) ∧
      (K.card < 2 * q.threshold → q.threshold < K.card → AllOfSize K (2 * q.threshold - K.card) L ∧
        L.length = K.card.choose (2 * q.threshold - K.card)) := by
  have hw := uniform_shaped env h
  by_cases hqi : K.card < 2 * q.threshold
  · have hqi' := h.quorumIntersection_iff.2 hqi
    obtain ⟨L, h1, h2, h3⟩ := C19_all_histories_partial env f hwf hqi' hw (by
      intro T _ f' sm hs p hp p' hp'
      rw [(h.flatSomewhere.cluster (isShrunken_of_shrunken hs) hp).1] at hp'
      cases hp') history
    refine ⟨L, h1, fun hle => by omega, fun _ he => ?_, fun _ hlt => ?_⟩
    · refine List.eq_nil_iff_forall_not_mem.2 fun S hS => ?_
      exact h.not_splitting he S ((h2 S).1 hS).prop
    · have hL : AllOfSize K (2 * q.threshold - K.card) L :=
        ⟨nodup_of_listed h3, fun S => by
          rw [h2, IsMinSplitting, minimal_inter_iff (h.splitting_iff hlt (by omega))]⟩
      exact ⟨hL, hL.length⟩
  · obtain ⟨L, h1, h2, -⟩ := C21_all_histories_partial env f hwf hw history (.inr h.exists_quorum)
    exact ⟨L, h1, fun _ => h2.2 fun hq => hqi (h.quorumIntersection_iff.1 hq),
      fun a => absurd a hqi, fun a => absurd a hqi⟩

/-- If `q` is the only symmetric cluster and lists the top tier, then this is what is reported. -/
theorem reported_cluster (env : Env) (hwf : WF f) (hw : WellShaped env f) (hq : ∃ Q, IsQuorum f Q)
    (hs : ∀ p, SymCluster f p ↔ p = q) (ht : ∀ x, InTopTier f x → Mentions q x) (history : List Call) :
    answerAfter env f history .symmetricClusters = .ok (.qsets [q]) ∧
      answerAfter env f history .symmetricTopTier = .ok (.qset (some q)) := by
  constructor
  · obtain ⟨L, h1, h2, h3, -⟩ := C22_symmetric_clusters env f hwf
    have hL : L = [q] := List.perm_singleton.1 ((List.perm_ext_iff_of_nodup h3 (by simp)).2 fun p => by
      rw [h2, hs, List.mem_singleton])
    obtain ⟨ans, ha⟩ := C28_no_panic_shaped env f hwf hw hq history .symmetricClusters
    rw [(answer_static env history (by simp [Static, Passive]) (by rw [ha]; simp)).1]
    obtain ⟨fR, a, hnew, -, hst⟩ := start_new env f
    simp only [answerAfter, hnew, Analysis.calls]
    show ((findSymmetricClusters env a.fbasOriginal).map (fun q => (Answer.qsets q, a))).map Prod.fst = _
    rw [show a.fbasOriginal = f by rw [hst], h1, hL]; rfl
  · obtain ⟨r, h1, -, h2⟩ := C24_symmetric_top_tier env f hwf
    obtain rfl := h2 q ((hs q).2 rfl) ht
    obtain ⟨ans, ha⟩ := C28_no_panic_shaped env f hwf hw hq history .symmetricTopTier
    rw [(answer_static env history (by simp [Static, Passive]) (by rw [ha]; simp)).1]
    obtain ⟨fR, a, hnew, -, hst⟩ := start_new env f
    simp only [answerAfter, hnew, Analysis.calls]
    show ((findSymmetricTopTier env a.fbasOriginal).map (fun q => (Answer.qset q, a))).map Prod.fst = _
    rw [show a.fbasOriginal = f by rw [hst], h1]; rfl

/-- C89: The top tier is the core; the quorum set of the core is the only symmetric cluster and the
symmetric top tier. -/
theorem C89_top_tier (env : Env) (hwf : WF f) (h : UniformCore f K q) (history : List Call) :
    answerAfter env f history .topTier = .ok (.set K) ∧
      answerAfter env f history .symmetricClusters = .ok (.qsets [q]) ∧
      answerAfter env f history .symmetricTopTier = .ok (.qset (some q)) := by
  have hw := uniform_shaped env h
  refine ⟨?_, reported_cluster env hwf hw h.exists_quorum h.symCluster_iff
    (fun x hx => (h.mentions_iff x).2 ((h.inTopTier_iff x).1 hx)) history⟩
  obtain ⟨T, h1, h2⟩ := C18_top_tier_all_histories_partial env f hwf hw history (.inr h.exists_quorum)
  rw [h1, show T = K from Finset.ext fun x => by rw [h2, h.inTopTier_iff]]

/-- A network in which all nodes require `t` of all nodes. -/
theorem uniformCore_of_all {n t : ℕ} (hl : f.nodes.length = n)
    (ha : AllHave f ⟨t, List.range n, []⟩) (h1 : 1 ≤ t) (h2 : t ≤ n) :
    UniformCore f (Finset.range n) ⟨t, List.range n, []⟩ where
  members x hx := ha x (by rw [hl]; exact Finset.mem_range.1 hx)
  flat := rfl
  once := List.nodup_range
  lists y := by rw [Finset.mem_range]; exact List.mem_range
  pos := h1
  le := by rw [Finset.card_range]; exact h2
  needed Q hQ := by
    obtain ⟨x, hx⟩ := hQ.1
    have := hQ.subset_all hx
    rw [Fbas.allNodes, hl] at this
    exact ⟨x, hx, this⟩

theorem wf_of_all {n t : ℕ} (hl : f.nodes.length = n) (ha : AllHave f ⟨t, List.range n, []⟩) : WF f := by
  rintro x y ⟨p, hp, hm⟩
  obtain ⟨hx, he⟩ := hasQSet_iff.1 hp
  rw [(hasQSet_iff.1 (ha x hx)).2] at he
  subst he
  cases hm with
  | validator h => rw [hl]; exact List.mem_range.1 h
  | inner h _ => cases h

/-- C89 for simulated networks: what is reported for a network of `n ≥ 1` nodes grown with `IdealQsc`. -/
theorem C89_ideal (env : Env) (R : Rand) (n : ℕ) (hn : 1 ≤ n) (s : R.State) (history : List Call) :
    ∃ sim', simulateGrowth (Qsc.ideal R) n ⟨Fbas.new, [], s⟩ = .ok sim' ∧
      (∃ L, answerAfter env sim'.fbas history .minimalQuorums = .ok (.sets L) ∧
        AllOfSize (Finset.range n) (n - (n - 1) / 3) L) ∧
      answerAfter env sim'.fbas history .hasQuorumIntersection = .ok (.bool true) ∧
      (∃ L, answerAfter env sim'.fbas history .minimalBlockingSets = .ok (.sets L) ∧
        AllOfSize (Finset.range n) ((n - 1) / 3 + 1) L) ∧
      (∃ L, answerAfter env sim'.fbas history .minimalSplittingSets = .ok (.sets L) ∧
        (n < 4 → L = []) ∧ (4 ≤ n → AllOfSize (Finset.range n) (n - 2 * ((n - 1) / 3)) L)) ∧
      answerAfter env sim'.fbas history .topTier = .ok (.set (Finset.range n)) := by
  obtain ⟨sim', h1, h2, h3⟩ := growth_from_empty (qsc := Qsc.ideal R)
    (cand := fun n => ⟨Qsc.calculate67pThreshold n, rangeFT 0 n, []⟩) (fun _ _ => rfl) n s
  rw [rangeFT_zero] at h3
  have ht := C41_bounds n hn
  have hwf := wf_of_all h2 h3
  have h := uniformCore_of_all h2 h3 ht.1 ht.2
  have e : Qsc.calculate67pThreshold n = n - (n - 1) / 3 := rfl
  obtain ⟨L1, a1, a2, -⟩ := C89_minimal_quorums env hwf h history
  have b := C89_quorum_intersection env hwf h history
  obtain ⟨L2, c1, c2, -⟩ := C89_minimal_blocking_sets env hwf h history
  obtain ⟨L3, d1, -, d2, d3⟩ := C89_minimal_splitting_sets env hwf h history
  simp only [Finset.card_range, e] at a2 b c2 d2 d3
  refine ⟨sim', h1, ⟨L1, a1, a2⟩, ?_, ⟨L2, c1, ?_⟩, ⟨L3, d1, fun hlt => d2 (by omega) (by omega),
    fun hle => ?_⟩, (C89_top_tier env hwf h history).1⟩
  · rw [b, decide_eq_true (by omega)]
  · rwa [show (n - 1) / 3 + 1 = n - (n - (n - 1) / 3) + 1 by omega]
  · rw [show n - 2 * ((n - 1) / 3) = 2 * (n - (n - 1) / 3) - n by omega]
    exact (d3 (by omega) (by omega)).1

/-! ## Concrete case

Four nodes that require three of them, and a fifth node that requires two of the four. -/

def coreOfFour : Fbas := Ref.mkFbas
  [⟨3, [0, 1, 2, 3], []⟩, ⟨3, [0, 1, 2, 3], []⟩, ⟨3, [0, 1, 2, 3], []⟩, ⟨3, [0, 1, 2, 3], []⟩,
    ⟨2, [0, 1, 2, 3], []⟩]

theorem coreOfFour_wf : WF coreOfFour := Ref.wf_of (by decide +kernel)

theorem coreOfFour_core : UniformCore coreOfFour {0, 1, 2, 3} ⟨3, [0, 1, 2, 3], []⟩ where
  members x hx := by
    simp only [Finset.mem_insert, Finset.mem_singleton] at hx
    rcases hx with rfl | rfl | rfl | rfl <;> exact ⟨_, rfl, rfl⟩
  flat := rfl
  once := by decide
  lists y := by simp
  pos := by decide
  le := by decide
  needed Q hQ := by
    have hs : Q ∈ (Finset.range 5).powerset := Finset.mem_powerset.2 hQ.subset_all
    have key : ∀ S ∈ (Finset.range 5).powerset, coreOfFour.isQuorum S = true →
        ∃ x ∈ S, x ∈ ({0, 1, 2, 3} : NodeSet) := by decide +kernel
    exact key Q hs (Fbas.isQuorum_iff.2 hQ)

example (env : Env) (history : List Call) :
    answerAfter env coreOfFour history .topTier = .ok (.set {0, 1, 2, 3}) ∧
      answerAfter env coreOfFour history .hasQuorumIntersection = .ok (.bool true) ∧
      (∃ L, answerAfter env coreOfFour history .minimalQuorums = .ok (.sets L) ∧ L.length = 4) ∧
      (∃ L, answerAfter env coreOfFour history .minimalBlockingSets = .ok (.sets L) ∧ L.length = 6) ∧
      ∃ L, answerAfter env coreOfFour history .minimalSplittingSets = .ok (.sets L) ∧ L.length = 6 := by
  refine ⟨(C89_top_tier env coreOfFour_wf coreOfFour_core history).1,
    C89_quorum_intersection env coreOfFour_wf coreOfFour_core history, ?_, ?_, ?_⟩
  · obtain ⟨L, h1, -, h2⟩ := C89_minimal_quorums env coreOfFour_wf coreOfFour_core history
    exact ⟨L, h1, h2⟩
  · obtain ⟨L, h1, -, h2⟩ := C89_minimal_blocking_sets env coreOfFour_wf coreOfFour_core history
    exact ⟨L, h1, h2⟩
  · obtain ⟨L, h1, -, -, h2⟩ := C89_minimal_splitting_sets env coreOfFour_wf coreOfFour_core history
    exact ⟨L, h1, (h2 (by decide) (by decide)).2⟩

end

#print axioms C89_minimal_quorums
#print axioms C89_quorum_intersection
#print axioms C89_minimal_blocking_sets
#print axioms C89_minimal_splitting_sets
#print axioms C89_top_tier
#print axioms C89_ideal

end FA.Props
