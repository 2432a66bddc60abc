import Verif.Lemmas.Bounds
import Verif.Props.BulkAnalyze
import Verif.Ref.Decide

/-!
# C83: numbers in one report are consistent with each other
-/

namespace FA.Props
open FA Spec Analysis

/-- C83: a minimal blocking set and some minimal quorum have at most one node more than the top tier together,
and vice versa. -/
theorem C83_blocking (f : Fbas) (T : NodeSet) (hT : ∀ x, x ∈ T ↔ InTopTier f x) :
    (∀ B, IsMinBlocking f B → (∃ Q, IsQuorum f Q) → ∃ Q, IsMinQuorum f Q ∧ Q.card + B.card ≤ T.card + 1) ∧
      ∀ Q, IsMinQuorum f Q → ∃ B, IsMinBlocking f B ∧ Q.card + B.card ≤ T.card + 1 := by
  classical
  have hlt : ∀ x, InTopTier f x → x < f.nodes.length := by
    rintro x ⟨Q, hQ, hx⟩
    simpa [Fbas.allNodes] using hQ.prop.subset_all hx
  have hG : GroupsOf [] f (InTopTier f) T := by
    intro y
    simp only [Representative, SameGroup, List.not_mem_nil, false_and, exists_false, or_false,
      exists_eq_right, IsEmpty.forall_iff, implies_true, and_true, ← hT]
    exact ⟨fun h => ⟨hlt y ((hT y).1 h), h⟩, fun h => h.2⟩
  have hcq : ∀ S, Minimal (ContainsQuorum f) S ↔ IsMinQuorum f S := fun S =>
    (isMinQuorum_iff_contains S).symm
  have hq : MinimalGroupSets [] f (ContainsQuorum f) (T.powerset.toList.filter (fun S => IsMinQuorum f S)) := by
    refine (minimalGroupSets_nil fun S hS x hx => hlt x ⟨S, (hcq S).1 hS, hx⟩).2 fun S => ?_
    simp only [hcq, List.mem_filter, Finset.mem_toList, Finset.mem_powerset, decide_eq_true_eq]
    exact ⟨fun h => h.2, fun h => ⟨fun x hx => (hT x).2 ⟨S, h, hx⟩, h⟩⟩
  have hb : MinimalGroupSets [] f (Blocking f) (T.powerset.toList.filter (fun S => IsMinBlocking f S)) := by
    have hsub : ∀ S, IsMinBlocking f S → ∀ x ∈ S, InTopTier f x := fun S hS x hx =>
      (C18_duality f x).2 ⟨S, hS, hx⟩
    refine (minimalGroupSets_nil fun S hS x hx => hlt x (hsub S hS x hx)).2 fun S => ?_
    simp only [List.mem_filter, Finset.mem_toList, Finset.mem_powerset, decide_eq_true_eq]
    exact ⟨fun h => h.2, fun h => ⟨fun x hx => (hT x).2 (hsub S h x hx), h⟩⟩
  have hd : DisjointGroups ([] : List Grouping) := by simp [DisjointGroups]
  have he : MembersExist ([] : List Grouping) f := by simp [MembersExist]
  constructor
  · intro B hB hex
    obtain ⟨Q, h1, h2⟩ := (group_blocking_bound hd he hG hq hb hex).1 B
      ((minimalGroupSets_nil fun S hS x hx => hlt x ((C18_duality f x).2 ⟨S, hS, hx⟩)).1 hb B |>.2 hB)
    simp at h1
    exact ⟨Q, h1.2, h2⟩
  · intro Q hQ
    obtain ⟨B, h1, h2⟩ := (group_blocking_bound hd he hG hq hb ⟨Q, hQ.prop⟩).2 Q
      ((minimalGroupSets_nil fun S hS x hx => hlt x ⟨S, (hcq S).1 hS, hx⟩).1 hq Q |>.2 ((hcq Q).2 hQ))
    simp at h1
    exact ⟨B, h1.2, h2⟩

/-- C83: a minimal splitting set is so large that two different minimal quorums share it in the top tier; and
each minimal quorum contains a smaller minimal splitting set, if there is another minimal quorum. -/
theorem C83_splitting (f : Fbas) (T : NodeSet) (hT : ∀ x, x ∈ T ↔ InTopTier f x) :
    (∀ S, IsMinSplitting f S →
      ∃ P Q, IsMinQuorum f P ∧ IsMinQuorum f Q ∧ P ≠ Q ∧ P.card + Q.card ≤ T.card + S.card) ∧
      ((∃ P Q, IsMinQuorum f P ∧ IsMinQuorum f Q ∧ P ≠ Q) →
        ∀ Q, IsMinQuorum f Q → ∃ S, IsMinSplitting f S ∧ S.card < Q.card) :=
  ⟨fun _ => splitting_bound hT, fun h2 _ => splitting_lt h2⟩

/-- C83 for the answers of `Analysis` about a well-shaped FBAS. -/
theorem C83_analysis_partial (env : Env) (f : Fbas) (hwf : WF f) (hw : WellShaped env f)
    (hq : ∃ Q, IsQuorum f Q) (history : List Call) :
    ∃ T Lq Lb, answerAfter env f history .topTier = .ok (.set T) ∧
      answerAfter env f history .minimalQuorums = .ok (.sets Lq) ∧
      answerAfter env f history .minimalBlockingSets = .ok (.sets Lb) ∧
      (∀ B ∈ Lb, ∃ Q ∈ Lq, Q.card + B.card ≤ T.card + 1) ∧
      (∀ Q ∈ Lq, ∃ B ∈ Lb, Q.card + B.card ≤ T.card + 1) ∧
      (QuorumIntersection f → ∀ Q ∈ Lq, ∃ B ∈ Lb, B.card ≤ Q.card) := by
  obtain ⟨T, h1, hT⟩ := C18_top_tier_all_histories_partial env f hwf hw history (.inr hq)
  obtain ⟨fR, p, hR, hp, -, h⟩ := all_shaped (history := history) (c := .minimalQuorums) hwf hw (.inr hq)
    (by simp)
  have h3 := (hp.exact hwf hR).1.minQuorums hp.is
  obtain ⟨Lb, h4, h5, -⟩ := C29_minimal_blocking_sets_partial env f hwf hw hq history
  refine ⟨T, _, Lb, h1, h _ rfl, h4, fun B hB => ?_, fun Q hQ => ?_, fun hqi Q hQ => ?_⟩
  · obtain ⟨Q, g1, g2⟩ := (C83_blocking f T hT).1 B ((h5 B).1 hB) hq
    exact ⟨Q, (h3 Q).2 g1, g2⟩
  · obtain ⟨B, g1, g2⟩ := (C83_blocking f T hT).2 Q ((h3 Q).1 hQ)
    exact ⟨B, (h5 B).2 g1, g2⟩
  · have hbl : Blocking f Q := fun P hP => by
      obtain ⟨x, hx, hx'⟩ := hqi.2 P Q hP ((h3 Q).1 hQ).prop
      exact ⟨x, hx, hx'⟩
    obtain ⟨B, g1, g2⟩ := exists_minimal_le_of_wellFoundedLT (Blocking f) Q hbl
    exact ⟨B, (h5 B).2 g2, Finset.card_le_card g1⟩

section
variable {env : Env} {order : List String → List String} {hash : Json → String} {label : Text}
  {nodes : Json} {organizations : Option Json} {r : RawFbas} {k : Kind} {g : Option Groupings}
  {gs : List Grouping} {d : Bulk.DataPoint}

/-- C83 for the columns of a data point, about nodes as well as about disjoint groups: quorums and blocking
sets. -/
theorem C83_bulk_blocking_partial (ho : ∀ l, (order l).Perm l)
    (hr : BulkRun env order hash label nodes organizations r k g gs d) (hd : DisjointGroups gs)
    (hi : HasInformation r organizations k) (hq : ∃ Q, IsQuorum (Fbas.fromRaw r) Q)
    (hw : ∀ T : NodeSet, (∀ x, x ∈ T ↔ InTopTier (Fbas.fromRaw r) x) → Shaped (Fbas.fromRaw r) T) :
    ∃ t qlo qhi qm blo bhi bm, (columns d k).topTierSize = some t ∧
      (columns d k).mq = (some qlo, some qhi, some qm) ∧ (columns d k).mbs = (some blo, some bhi, some bm) ∧
      qlo + bhi ≤ t + 1 ∧ qhi + blo ≤ t + 1 ∧ 1 ≤ qlo ∧ 1 ≤ blo ∧
      (d.hasQuorumIntersection = true → blo ≤ qlo) := by
  obtain ⟨T, a1, -, a2⟩ := C69_top_tier ho hr hd hi
  obtain ⟨Lq, b1, -, -, qlo, qhi, qm, b2, b3⟩ := C69_quorums ho hr hd hi
  obtain ⟨Lb, c1, -, -, blo, bhi, bm, c2, c3⟩ := C69_blocking_partial ho hr hd hi hq hw
  have he := hr.spec.1
  have n1 := group_quorum_exists hd he b1 hq
  obtain ⟨e1, e2⟩ := group_blocking_bound hd he a1 b1 c1 hq
  obtain ⟨⟨Q₁, f1, f2⟩, Q₂, f3, f4⟩ := b3.attained n1
  obtain ⟨B, f5, f6⟩ := e2 Q₂ f3
  obtain ⟨⟨B₁, g1, g2⟩, B₂, g3, g4⟩ := c3.attained (List.ne_nil_of_mem f5)
  refine ⟨T.card, qlo, qhi, qm, blo, bhi, bm, a2, b2, c2, ?_, ?_, ?_, ?_, fun hv => ?_⟩
  · obtain ⟨Q, h1, h2⟩ := e1 B₂ g3
    have := (b3.bounds Q h1).1
    omega
  · have := (c3.bounds B f5).1
    omega
  · rw [← f2]; exact group_quorum_nonempty b1 Q₁ f1
  · rw [← g2]; exact group_blocking_nonempty c1 hq B₁ g1
  · obtain ⟨B', h1, h2⟩ := group_blocking_le b1 c1 ((C69_has_quorum_intersection hr).2.1 hv) Q₁ f1
    rw [← f2]
    exact (c3.bounds B' h1).1.trans (Finset.card_le_card h2)

/-- C83 for the columns of a data point: quorums and splitting sets. The first two bounds are those for nodes. -/
theorem C83_bulk_splitting_partial (ho : ∀ l, (order l).Perm l)
    (hr : BulkRun env order hash label nodes organizations r k g gs d) (hd : DisjointGroups gs)
    (hi : HasInformation r organizations k) (hqi : QuorumIntersection (Fbas.fromRaw r))
    (h2 : ∃ P Q, IsMinQuorum (Fbas.fromRaw r) P ∧ IsMinQuorum (Fbas.fromRaw r) Q ∧ P ≠ Q)
    (hsym : ∀ T : NodeSet, (∀ x, x ∈ T ↔ InTopTier (Fbas.fromRaw r) x) → ∀ f' sm,
      (Fbas.fromRaw r).shrunken T = .ok (f', sm) →
      ∀ q, SymCluster f' q → DupFree q ∧ q.threshold ≤ q.validators.length + q.inner.length ∧
        ∀ q' ∈ q.inner, Majority q')
    (hdup : ∀ f' sm, (Fbas.fromRaw r).shrunken ((Fbas.fromRaw r).relevantNodes env) = .ok (f', sm) →
      ∀ q, SymCluster f' q → DupFree q) :
    ∃ t qlo qhi qm slo shi sm, (columns d k).topTierSize = some t ∧
      (columns d k).mq = (some qlo, some qhi, some qm) ∧ (columns d k).mss = (some slo, some shi, some sm) ∧
      (k = .nodes → 2 * qlo ≤ t + slo ∧ slo < qlo) ∧ slo ≤ qlo ∧ 1 ≤ slo := by
  obtain ⟨T, a1, a3, a2⟩ := C69_top_tier ho hr hd hi
  obtain ⟨Lq, b1, b4, -, qlo, qhi, qm, b2, b3⟩ := C69_quorums ho hr hd hi
  obtain ⟨Ls, c1, c4, -, slo, shi, sm, c2, c3⟩ := C69_splitting_partial ho hr hd hi hqi hsym hdup
  have n1 := group_quorum_exists hd hr.spec.1 b1 hqi.1
  obtain ⟨⟨Q₁, f1, f2⟩, -⟩ := b3.attained n1
  obtain ⟨S, f3, f4⟩ := group_splitting_le b1 c1 h2 Q₁ f1
  obtain ⟨⟨S₁, g1, g2⟩, -⟩ := c3.attained (List.ne_nil_of_mem f3)
  refine ⟨T.card, qlo, qhi, qm, slo, shi, sm, a2, b2, c2, fun hk => ⟨?_, ?_⟩, ?_, ?_⟩
  · obtain ⟨P, Q, h3, h4, -, h5⟩ := splitting_bound (a3 hk) ((c4 hk S₁).1 g1)
    have h6 := (b3.bounds P ((b4 hk P).2 h3)).1
    have h7 := (b3.bounds Q ((b4 hk Q).2 h4)).1
    omega
  · obtain ⟨S', h3, h4⟩ := splitting_lt h2 ((b4 hk Q₁).1 f1)
    have := (c3.bounds S' ((c4 hk S').2 h3)).1
    omega
  · rw [← f2]; exact (c3.bounds S f3).1.trans (Finset.card_le_card f4)
  · rw [← g2]; exact group_splitting_nonempty c1 hqi S₁ g1

end

/-! ## Concrete cases -/

/-- Minimal blocking sets of two nodes, minimal quorums of three nodes, four nodes in the top tier. -/
example : ∃ T Lq Lb, answerAfter (Ref.refEnv 5) fbasFront [.minimalBlockingSets] .topTier = .ok (.set T) ∧
    answerAfter (Ref.refEnv 5) fbasFront [.minimalBlockingSets] .minimalQuorums = .ok (.sets Lq) ∧
    answerAfter (Ref.refEnv 5) fbasFront [.minimalBlockingSets] .minimalBlockingSets = .ok (.sets Lb) ∧
    (∀ B ∈ Lb, ∃ Q ∈ Lq, Q.card + B.card ≤ T.card + 1) ∧
    (∀ Q ∈ Lq, ∃ B ∈ Lb, Q.card + B.card ≤ T.card + 1) ∧
    (QuorumIntersection fbasFront → ∀ Q ∈ Lq, ∃ B ∈ Lb, B.card ≤ Q.card) :=
  C83_analysis_partial _ _ fbasFront_wf (fbasFront_shaped _) ⟨{0, 1, 2}, by decide +kernel⟩ _

theorem fbasTopTier_iff {f : Fbas} {T : NodeSet}
    (h : ∀ Q ∈ f.allNodes.powerset, IsMinQuorum f Q → Q ⊆ T)
    (h' : ∀ x ∈ T, ∃ Q ∈ f.allNodes.powerset, IsMinQuorum f Q ∧ x ∈ Q) (x : NodeId) :
    x ∈ T ↔ InTopTier f x := by
  constructor
  · intro hx
    obtain ⟨Q, -, h2, h3⟩ := h' x hx
    exact ⟨Q, h2, h3⟩
  · rintro ⟨Q, h2, h3⟩
    exact h Q (Finset.mem_powerset.2 h2.prop.subset_all) h2 h3

/-- The hypotheses of `C83_blocking` and `C83_splitting` are met, and the bounds are attained. -/
example : (∀ x, x ∈ ({0, 1, 2, 4} : NodeSet) ↔ InTopTier fbasFront x) ∧ IsMinBlocking fbasFront {1, 4} ∧
    IsMinQuorum fbasFront {0, 1, 2} ∧ IsMinSplitting fbasFront {0, 4} ∧
    ({0, 1, 2} : NodeSet).card + ({1, 4} : NodeSet).card = ({0, 1, 2, 4} : NodeSet).card + 1 ∧
    ({0, 1, 4} : NodeSet).card + ({0, 2, 4} : NodeSet).card =
      ({0, 1, 2, 4} : NodeSet).card + ({0, 4} : NodeSet).card :=
  ⟨fbasTopTier_iff (by decide +kernel) (by decide +kernel), by decide +kernel, by decide +kernel,
    by decide +kernel, by decide, by decide⟩

/-- The hypotheses of the theorems about data points are met by `nodesBulk`, for example for the ISPs. -/
example : ∃ r g gs, BulkRun (Ref.refEnv 4) id (fun _ => "h") "x".toList nodesBulk (some orgsFour) r .isps g gs
      pointBulk ∧
    (∃ t qlo qhi qm blo bhi bm, (columns pointBulk .isps).topTierSize = some t ∧
      (columns pointBulk .isps).mq = (some qlo, some qhi, some qm) ∧
      (columns pointBulk .isps).mbs = (some blo, some bhi, some bm) ∧
      qlo + bhi ≤ t + 1 ∧ qhi + blo ≤ t + 1 ∧ 1 ≤ qlo ∧ 1 ≤ blo ∧
      (pointBulk.hasQuorumIntersection = true → blo ≤ qlo)) ∧
    ∃ t qlo qhi qm slo shi sm, (columns pointBulk .isps).topTierSize = some t ∧
      (columns pointBulk .isps).mq = (some qlo, some qhi, some qm) ∧
      (columns pointBulk .isps).mss = (some slo, some shi, some sm) ∧
      (Kind.isps = .nodes → 2 * qlo ≤ t + slo ∧ slo < qlo) ∧ slo ≤ qlo ∧ 1 ≤ slo := by
  obtain ⟨r, g, gs, hr⟩ := exists_bulkRun analyze_bulk .isps
  have ho : ∀ l : List String, (id l).Perm l := fun l => .refl l
  have er : r = (RawFbas.fromJson nodesBulk).get nodesBulk_isSome :=
    Option.some.inj ((fbas_fromJson_iff.2 hr.described).symm.trans (Option.some_get _).symm)
  have hk : DistinctKeys r := by rw [er]; unfold DistinctKeys; decide +kernel
  have hi : HasInformation r (some orgsFour) .isps := by
    rw [er]; show ∃ n ∈ _, _; decide +kernel
  have hqi : QuorumIntersection (Fbas.fromRaw r) := by rw [er]; decide +kernel
  have hflat := flat_of_list (f := Fbas.fromRaw r) (by rw [er]; decide +kernel)
  have hw := wellShaped_of_flat (Ref.refEnv 4) _ hflat
  have h2 : ∃ P Q, IsMinQuorum (Fbas.fromRaw r) P ∧ IsMinQuorum (Fbas.fromRaw r) Q ∧ P ≠ Q := by
    rw [er]; exact ⟨{0, 1, 2}, {0, 1, 3}, by decide +kernel, by decide +kernel, by decide⟩
  have hd := (C69_groups ho hr hk hi).2 (by simp)
  exact ⟨r, g, gs, hr, C83_bulk_blocking_partial ho hr hd hi hqi.1 hw.topTier,
    C83_bulk_splitting_partial ho hr hd hi hqi h2 (fun T hT f' sm hs q hsc => by
      obtain ⟨g1, g2⟩ := hw.topTier T hT f' sm hs q hsc
      refine ⟨g1, ?_, majority_of_flat _ hflat T hT f' sm hs q hsc⟩
      cases g2 with
      | intro _ _ h _ => exact h)
    (fun f' sm hs q hsc => (hw.relevant f' sm hs q hsc).1)⟩

/-- The nodes of `nodesBulk` belong to two organizations. -/
def orgsPairs : Json := .arr [.obj [("name", .str "A"), ("validators", .arr [.str "n0", .str "n1"])],
  .obj [("name", .str "B"), ("validators", .arr [.str "n2", .str "n3"])]]

/-- C83 is false for FBASs that are not well-shaped: for `fbasFrontInner`, the data point has two nodes in the
top tier, minimal quorums of at least two nodes and minimal blocking sets of at least two nodes. The bound
for splitting sets of nodes is false for organizations: two organizations in the top tier are needed for every
quorum, but each of them is a splitting set. -/
theorem C83_counterexample :
    (∃ d, Bulk.analyze (Ref.refEnv 4) id (fun _ => "h") [] fbasFrontInner.toJson none = .ok d ∧
      d.topTierSize = 2 ∧ d.mqMin = 2 ∧ d.mbsMin = 2 ∧ ¬ d.mqMin + d.mbsMin ≤ d.topTierSize + 1) ∧
    ∃ d, Bulk.analyze (Ref.refEnv 4) id (fun _ => "h") [] nodesBulk (some orgsPairs) = .ok d ∧
      d.orgsTopTierSize = some 2 ∧ d.orgsMqMin = some 2 ∧ d.orgsMssMin = some 1 ∧ ¬ 2 * 2 ≤ 2 + 1 := by
  refine ⟨⟨{ label := [], hasQuorumIntersection := true, topTierSize := 2
             mbsMin := 2, mbsMax := 2, mbsMean := 2, mssMin := 1, mssMax := 1, mssMean := 1
             mqMin := 2, mqMax := 2, mqMean := 2, standardFormHash := "h" },
    Ref.ok_of (by decide +kernel), rfl, rfl, rfl, by decide⟩,
    { label := [], hasQuorumIntersection := true, topTierSize := 4
      mbsMin := 2, mbsMax := 2, mbsMean := 2, mssMin := 2, mssMax := 2, mssMean := 2
      mqMin := 3, mqMax := 3, mqMean := 3
      orgsTopTierSize := some 2, orgsMbsMin := some 1, orgsMbsMax := some 1, orgsMbsMean := some 1
      orgsMssMin := some 1, orgsMssMax := some 1, orgsMssMean := some 1
      orgsMqMin := some 2, orgsMqMax := some 2, orgsMqMean := some 2
      ispsTopTierSize := some 3, ispsMbsMin := some 1, ispsMbsMax := some 2, ispsMbsMean := some (3 / 2)
      ispsMssMin := some 1, ispsMssMax := some 2, ispsMssMean := some (3 / 2)
      ispsMqMin := some 2, ispsMqMax := some 2, ispsMqMean := some 2
      standardFormHash := "h" }, Ref.ok_of (by decide +kernel), rfl, rfl, rfl, by decide⟩

#print axioms C83_blocking
#print axioms C83_splitting
#print axioms C83_analysis_partial
#print axioms C83_bulk_blocking_partial
#print axioms C83_bulk_splitting_partial
#print axioms C83_counterexample

end FA.Props
