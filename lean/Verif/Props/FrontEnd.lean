import Verif.Lemmas.FrontEndShape

/-!
# C12, C21, C27-C29 (and C14, C15, C18, C19 for `Analysis`): the caching front end

`answerAfter env f history c` is what the method call `c` on an `Analysis` object for `f` returns
(after `unwrap()`) when the calls `history` were made on the object before.
-/

namespace FA.Props
open FA Spec Analysis

/-- The FBAS `f` is well-shaped when restricted to `K`: quorum sets of symmetric clusters list no
node twice and have thresholds between 1 and the number of entries (at all depths). -/
def Shaped (f : Fbas) (K : NodeSet) : Prop :=
  ∀ f' sm, f.shrunken K = .ok (f', sm) → ∀ q, SymCluster f' q → DupFree q ∧ Sane q

/-- Well-shaped when restricted to the relevant nodes, and when restricted to the top tier. -/
structure WellShaped (env : Env) (f : Fbas) : Prop where
  relevant : Shaped f (f.relevantNodes env)
  topTier : ∀ T : NodeSet, (∀ x, x ∈ T ↔ InTopTier f x) → Shaped f T

/-- FBASs with flat quorum sets that list no validator twice are well-shaped. -/
theorem wellShaped_of_flat (env : Env) (f : Fbas)
    (h : ∀ x q, HasQSet f x q → q.inner = [] ∧ q.validators.Nodup) : WellShaped env f :=
  ⟨(shapedOn_iff _ _).1 (flat_shaped h _), fun T _ => (shapedOn_iff _ _).1 (flat_shaped h T)⟩

/-- The other condition of `C19_all_histories_partial` is also met by FBASs with flat quorum sets. -/
theorem majority_of_flat (f : Fbas) (h : ∀ x q, HasQSet f x q → q.inner = [] ∧ q.validators.Nodup) :
    ∀ T : NodeSet, (∀ x, x ∈ T ↔ InTopTier f x) → ∀ f' sm, f.shrunken T = .ok (f', sm) →
      ∀ q, SymCluster f' q → ∀ q' ∈ q.inner, Majority q' := by
  intro T _ f' sm hs q hq q' hq'
  obtain ⟨f'', h1, h2⟩ := f.shrunken_ok T
  rw [hs] at h1
  obtain ⟨rfl, -⟩ := Prod.mk.inj (Except.ok.inj h1)
  rw [flat_inner h h2 hq] at hq'
  cases hq'

/-- The alternative check is not used, or it cannot panic because there is a quorum. -/
def SafeHistory (f : Fbas) (history : List Call) : Prop :=
  .alternativeCheck ∉ history ∨ ∃ Q, IsQuorum f Q

/-- `history` computes the minimal blocking sets before it computes anything else that depends on
minimal quorums. (In this case the top tier is computed from blocking sets.) -/
def StartsWithBlockingSets (history : List Call) : Prop :=
  ∃ pre post, history = pre ++ .minimalBlockingSets :: post ∧ ∀ c ∈ pre,
    c ∉ ([.hasQuorumIntersection, .minimalQuorums, .minimalBlockingSets, .minimalSplittingSets,
      .topTier] : List Call)

theorem startsWithBlockingSets_iff {history : List Call} :
    StartsWithBlockingSets history ↔ BlockingFirst history := by
  unfold StartsWithBlockingSets BlockingFirst Passive
  simp

section
variable {env : Env} {f : Fbas} {history : List Call} {c : Call}

theorem ok_of_safe (hwf : WF f) (hs : SafeHistory f history) (hc : c ≠ .alternativeCheck)
    (hb : ¬ BlockingFirst (history ++ [c])) : ∃ ans, answerAfter env f history c = .ok ans := by
  rcases hs with hs | hs
  · exact answer_no_panic env f history c hs hc
  · exact answer_no_panic_quorums_first env hwf hs history c hb

theorem ok_of_safe_shaped (hwf : WF f) (hw : WellShaped env f) (hs : SafeHistory f history)
    (hc : c ≠ .alternativeCheck) : ∃ ans, answerAfter env f history c = .ok ans := by
  rcases hs with hs | hs
  · exact answer_no_panic env f history c hs hc
  · exact answer_no_panic_shaped env hwf hs ((shapedOn_iff _ _).2 hw.relevant) history c

theorem not_blockingFirst_append (hc : c ≠ .minimalBlockingSets) (h : ¬ BlockingFirst history) :
    ¬ BlockingFirst (history ++ [c]) := by
  rintro ⟨pre, post, he, hpre⟩
  rcases List.eq_nil_or_concat post with rfl | ⟨post', d, rfl⟩
  · have := List.append_inj' he rfl
    simp at this
    exact hc this.2
  · rw [List.concat_eq_append, ← List.cons_append, ← List.append_assoc] at he
    exact h ⟨pre, post', (List.append_inj' he rfl).1, hpre⟩

/-- Values in the quorum mode. -/
theorem quorums_first (hwf : WF f) (hs : SafeHistory f history) (hc : c ≠ .alternativeCheck)
    (hb : ¬ BlockingFirst (history ++ [c])) :
    ∃ fR p, IsShrunken f (f.relevantNodes env) fR ∧ ModeQ env f fR p ∧
      ∀ ans, answerOf p c = some ans → answerAfter env f history c = .ok ans := by
  obtain ⟨ans, hans⟩ := ok_of_safe (env := env) hwf hs hc hb
  obtain ⟨fR, p, hR, hp, h⟩ := answer_quorums_first env f
  exact ⟨fR, p, hR, hp, h history c hb (by rw [hans]; simp)⟩

/-- Values in the general case. -/
theorem all_shaped (hwf : WF f) (hw : WellShaped env f) (hs : SafeHistory f history)
    (hc : c ≠ .alternativeCheck) :
    ∃ fR p, IsShrunken f (f.relevantNodes env) fR ∧ ModeQ env f fR p ∧ ModeB env f fR p ∧
      ∀ ans, answerOf p c = some ans → answerAfter env f history c = .ok ans := by
  obtain ⟨ans, hans⟩ := ok_of_safe_shaped hwf hw hs hc
  exact answer_shaped hwf env ((shapedOn_iff _ _).2 hw.relevant)
    (fun T hT => (shapedOn_iff _ _).2 (hw.topTier T hT)) history c (by rw [hans]; simp)

end

/-! ## C12 -/

/-- C12 for a new object, and for all objects on which the minimal blocking sets were not computed
before everything else: `has_quorum_intersection` returns true iff there is a quorum and every two
quorums share a node. For the remaining histories see `C12_all_histories_partial`, `C12_sound` and
`C12_counterexample`. -/
theorem C12_has_quorum_intersection (env : Env) (f : Fbas) (hwf : WF f) (history : List Call)
    (hs : SafeHistory f history) (hb : ¬ StartsWithBlockingSets history) :
    ∃ b, answerAfter env f history .hasQuorumIntersection = .ok (.bool b) ∧
      (b = true ↔ QuorumIntersection f) := by
  rw [startsWithBlockingSets_iff] at hb
  obtain ⟨fR, p, hR, hp, h⟩ := quorums_first (env := env) (c := .hasQuorumIntersection) hwf hs
    (by simp) (not_blockingFirst_append (by simp) hb)
  exact ⟨_, h _ rfl, (hp.exact hwf hR).1.verdict hp.is⟩

/-- C12 for a new object. -/
theorem C12_fresh (env : Env) (f : Fbas) (hwf : WF f) :
    ∃ b, answerAfter env f [] .hasQuorumIntersection = .ok (.bool b) ∧
      (b = true ↔ QuorumIntersection f) :=
  C12_has_quorum_intersection env f hwf [] (.inl (by simp)) (by
    rintro ⟨pre, post, h, _⟩; simp at h)

/-- C12 for all histories, for well-shaped FBASs.

Missing: for other FBASs the claim is false if the minimal blocking sets are computed first, see
`C12_counterexample`. -/
theorem C12_all_histories_partial (env : Env) (f : Fbas) (hwf : WF f) (hw : WellShaped env f)
    (history : List Call) (hs : SafeHistory f history) :
    ∃ b, answerAfter env f history .hasQuorumIntersection = .ok (.bool b) ∧
      (b = true ↔ QuorumIntersection f) := by
  obtain ⟨fR, p, hR, hp, _, h⟩ := all_shaped (c := .hasQuorumIntersection) hwf hw hs (by simp)
  exact ⟨_, h _ rfl, (hp.exact hwf hR).1.verdict hp.is⟩

/-- An FBAS with nodes outside the top tier, whose IDs are changed by shrinking. -/
def fbasFront : Fbas := Ref.mkFbas [⟨3, [0, 1, 2, 4], []⟩, ⟨3, [0, 1, 2, 4], []⟩, ⟨1, [0], []⟩,
  ⟨9, [0], []⟩, ⟨3, [0, 1, 2, 4], []⟩]

theorem fbasFront_wf : WF fbasFront := Ref.wf_of (by decide +kernel)

theorem flat_of_list {f : Fbas} (h : f.nodes.all (fun n =>
    decide (n.quorumSet.inner = []) && decide n.quorumSet.validators.Nodup) = true) :
    ∀ x q, HasQSet f x q → q.inner = [] ∧ q.validators.Nodup := by
  rintro x q ⟨n, hn, rfl⟩
  rw [List.all_eq_true] at h
  have := h n (List.mem_of_getElem? hn)
  simpa using this

theorem fbasFront_shaped (env : Env) : WellShaped env fbasFront :=
  wellShaped_of_flat env _ (flat_of_list (by decide +kernel))

/-- Concrete case. -/
example : WF fbasFront ∧ WellShaped (Ref.refEnv 5) fbasFront ∧ QuorumIntersection fbasFront ∧
    answerAfter (Ref.refEnv 5) fbasFront [.topTier, .minimalBlockingSets] .hasQuorumIntersection =
      .ok (.bool true) ∧
    answerAfter (Ref.refEnv 5) fbasFront [.minimalBlockingSets] .hasQuorumIntersection =
      .ok (.bool true) ∧
    ¬ QuorumIntersection fbasB ∧
    answerAfter (Ref.refEnv 8) fbasB [] .hasQuorumIntersection = .ok (.bool false) :=
  ⟨fbasFront_wf, fbasFront_shaped _, by decide +kernel, Ref.ok_of (by decide +kernel),
    Ref.ok_of (by decide +kernel), by decide +kernel, Ref.ok_of (by decide +kernel)⟩

#print axioms C12_has_quorum_intersection
#print axioms C12_fresh
#print axioms C12_all_histories_partial

/-! ## C14, C15 for `Analysis` -/

/-- C14: the alternative check on an object on which the minimal blocking sets were not computed
before everything else. It agrees with `has_quorum_intersection` (C12), and its witness consists of
pairwise disjoint quorums of the original FBAS. -/
theorem C14_alternative_check (env : Env) (f : Fbas) (hwf : WF f) (hq : ∃ Q, IsQuorum f Q)
    (history : List Call) (hb : ¬ StartsWithBlockingSets history) :
    (QuorumIntersection f ∧ answerAfter env f history .alternativeCheck = .ok (.verdict true none)) ∨
    (¬ QuorumIntersection f ∧ ∃ l, answerAfter env f history .alternativeCheck =
      .ok (.verdict false (some l)) ∧ 2 ≤ l.length ∧ (∀ S ∈ l, IsQuorum f S) ∧
        l.Pairwise (fun P Q => ∀ x ∈ P, x ∉ Q)) := by
  rw [startsWithBlockingSets_iff] at hb
  rcases answer_alternative_quorums_first env hwf hq history hb with
    ⟨h1, l, h2, h3, h4, h5⟩ | ⟨h1, h2⟩
  · exact .inr ⟨h1, l, h2, h3, h5, h4.imp (fun h x hx hx' => Finset.disjoint_left.1 h hx hx')⟩
  · exact .inl ⟨h1, h2⟩

/-- ... and on any object, for well-shaped FBASs.

Missing: for other FBASs the claim is false if the minimal blocking sets are computed first, see
`C12_counterexample`. What remains true for all FBASs: `C14_agree`, `C14_sound`. -/
theorem C14_alternative_check_all_histories_partial (env : Env) (f : Fbas) (hwf : WF f)
    (hw : WellShaped env f) (hq : ∃ Q, IsQuorum f Q) (history : List Call) :
    (QuorumIntersection f ∧ answerAfter env f history .alternativeCheck = .ok (.verdict true none)) ∨
    (¬ QuorumIntersection f ∧ ∃ l, answerAfter env f history .alternativeCheck =
      .ok (.verdict false (some l)) ∧ 2 ≤ l.length ∧ (∀ S ∈ l, IsQuorum f S) ∧
        l.Pairwise (fun P Q => ∀ x ∈ P, x ∉ Q)) := by
  rcases answer_alternative_shaped env hwf hq ((shapedOn_iff _ _).2 hw.relevant) history with
    ⟨h1, l, h2, h3, h4, h5⟩ | ⟨h1, h2⟩
  · exact .inr ⟨h1, l, h2, h3, h5, h4.imp (fun h x hx hx' => Finset.disjoint_left.1 h hx hx')⟩
  · exact .inl ⟨h1, h2⟩

/-- Concrete case. -/
example : (∃ Q, IsQuorum fbasB Q) ∧
    (answerAfter (Ref.refEnv 8) fbasB [.minimalQuorums] .alternativeCheck).map
      (fun | .verdict b _ => some b | _ => none) = .ok (some false) :=
  ⟨by decide +kernel, Ref.ok_of (by decide +kernel)⟩

#print axioms C14_alternative_check
#print axioms C14_alternative_check_all_histories_partial

/-! ## C18, C19 for `Analysis` -/

/-- C18: `top_tier` on an object on which the minimal blocking sets were not computed before
everything else. -/
theorem C18_top_tier (env : Env) (f : Fbas) (hwf : WF f) (history : List Call)
    (hs : SafeHistory f history) (hb : ¬ StartsWithBlockingSets history) :
    ∃ T, answerAfter env f history .topTier = .ok (.set T) ∧ ∀ x, x ∈ T ↔ InTopTier f x := by
  rw [startsWithBlockingSets_iff] at hb
  obtain ⟨fR, p, hR, hp, h⟩ := quorums_first (env := env) (c := .topTier) hwf hs
    (by simp) (not_blockingFirst_append (by simp) hb)
  exact ⟨_, h _ rfl, (hp.exact hwf hR).1.topTier hp.is⟩

/-- C18: `top_tier` on any object, for well-shaped FBASs. For other FBASs the claim is false, see
`C28_counterexample`. -/
theorem C18_top_tier_all_histories_partial (env : Env) (f : Fbas) (hwf : WF f)
    (hw : WellShaped env f) (history : List Call) (hs : SafeHistory f history) :
    ∃ T, answerAfter env f history .topTier = .ok (.set T) ∧ ∀ x, x ∈ T ↔ InTopTier f x := by
  obtain ⟨fR, p, hR, hp, _, h⟩ := all_shaped (c := .topTier) hwf hw hs (by simp)
  exact ⟨_, h _ rfl, (hp.exact hwf hR).1.topTier hp.is⟩

theorem splitting_exact {env : Env} {f fR : Fbas} {p : Params} (hwf : WF f)
    (hqi : QuorumIntersection f) (hR : IsShrunken f (f.relevantNodes env) fR) (hp : ModeQ env f fR p)
    (hsym : ∀ T : NodeSet, (∀ x, x ∈ T ↔ InTopTier f x) → ∀ f' sm, f.shrunken T = .ok (f', sm) →
      ∀ q, SymCluster f' q → DupFree q ∧ q.threshold ≤ q.validators.length + q.inner.length ∧
        ∀ q' ∈ q.inner, Majority q')
    (hdup : ∀ f' sm, f.shrunken (f.relevantNodes env) = .ok (f', sm) →
      ∀ q, SymCluster f' q → DupFree q) :
    (∀ S, S ∈ p.S.map (unSet p.K) ↔ IsMinSplitting f S) ∧ (p.S.map (unSet p.K)).Pairwise Before := by
  obtain ⟨he, hn⟩ := hp.exact hwf hR
  have hc := Covers.of_topTier he.K
  have hqi' := (hp.is.quorumIntersection hc).2 hqi
  have hsym' := hsym p.K he.K p.f' _ hp.sh
  have hdR : ∀ q, SymCluster fR q → DupFree q := by
    intro q hq
    obtain ⟨g, h1, h2⟩ := f.shrunken_ok (f.relevantNodes env)
    obtain ⟨h3, h4⟩ := hR.qset_eq h2
    exact hdup g _ h1 q (symCluster_congr h3 h4 q hq)
  obtain ⟨M, hM, hM2, hM3, hM4⟩ := findMinimalQuorums_spec env hp.is.wf
  have hMQ : M = p.Q := eq_of_lenLex hM3 he.sortedQ (hM4 (fun q hq => (hsym' q hq).1)) (hn hdR)
    (fun S => by rw [hM2, he.Q])
  obtain ⟨L, h1, h2, h3, h4⟩ := findMinimalSplittingSets_spec env env hp.is.wf hM (fun q hq =>
    ⟨(hsym' q hq).1, sym_majority hqi' hq (hsym' q hq).1 (hsym' q hq).2.1 (hsym' q hq).2.2,
      (hsym' q hq).2⟩)
  have hS : p.S = L := by
    have := hp.split
    rw [if_pos ((he.verdict hp.is).2 hqi), ← hMQ, h1] at this
    exact (Except.ok.inj this).symm
  refine ⟨he.minSplitting hp.is (fun S => ?_), ?_⟩
  · rw [hS, h2, kMeet_iff (consensusClusters_spec env hp.is.wf), minSplitting_iff hqi']
  · refine before_of ((sorted_unSet hp.good.S).2 ?_) ((nodup_unSet hp.good.S).2 ?_)
    · rw [hS]; exact h4
    · rw [hS]; exact h3

/-- C19 for `Analysis::minimal_splitting_sets`: for FBASs with quorum intersection that are
well-shaped (in the sense of `C19_minimal_splitting_sets_partial`) when restricted to the top tier. -/
theorem C19_analysis_partial (env : Env) (f : Fbas) (hwf : WF f) (hqi : QuorumIntersection f)
    (hsym : ∀ T : NodeSet, (∀ x, x ∈ T ↔ InTopTier f x) → ∀ f' sm, f.shrunken T = .ok (f', sm) →
      ∀ q, SymCluster f' q → DupFree q ∧ q.threshold ≤ q.validators.length + q.inner.length ∧
        ∀ q' ∈ q.inner, Majority q')
    (hdup : ∀ f' sm, f.shrunken (f.relevantNodes env) = .ok (f', sm) →
      ∀ q, SymCluster f' q → DupFree q)
    (history : List Call) (hb : ¬ StartsWithBlockingSets history) :
    ∃ L, answerAfter env f history .minimalSplittingSets = .ok (.sets L) ∧
      (∀ S, S ∈ L ↔ IsMinSplitting f S) ∧ L.Pairwise Before := by
  rw [startsWithBlockingSets_iff] at hb
  obtain ⟨fR, p, hR, hp, h⟩ := quorums_first (env := env) (c := .minimalSplittingSets) hwf
    (.inr hqi.1) (by simp) (not_blockingFirst_append (by simp) hb)
  exact ⟨_, h _ rfl, splitting_exact hwf hqi hR hp hsym hdup⟩

/-- C19 for `Analysis::minimal_splitting_sets` and all sequences of earlier calls, for well-shaped
FBASs with quorum intersection. -/
theorem C19_all_histories_partial (env : Env) (f : Fbas) (hwf : WF f) (hqi : QuorumIntersection f)
    (hw : WellShaped env f)
    (hmaj : ∀ T : NodeSet, (∀ x, x ∈ T ↔ InTopTier f x) → ∀ f' sm, f.shrunken T = .ok (f', sm) →
      ∀ q, SymCluster f' q → ∀ q' ∈ q.inner, Majority q')
    (history : List Call) :
    ∃ L, answerAfter env f history .minimalSplittingSets = .ok (.sets L) ∧
      (∀ S, S ∈ L ↔ IsMinSplitting f S) ∧ L.Pairwise Before := by
  obtain ⟨fR, p, hR, hp, _, h⟩ := all_shaped (history := history) (c := .minimalSplittingSets) hwf hw
    (.inr hqi.1) (by simp)
  refine ⟨_, h _ rfl, splitting_exact hwf hqi hR hp (fun T hT f' sm hs q hq => ?_)
    (fun f' sm hs q hq => (hw.relevant f' sm hs q hq).1)⟩
  obtain ⟨h1, h2⟩ := hw.topTier T hT f' sm hs q hq
  exact ⟨h1, by cases h2; assumption, hmaj T hT f' sm hs q hq⟩

/-- Concrete case (IDs are changed by shrinking). -/
example : answerAfter (Ref.refEnv 5) fbasFront [.minimalQuorums] .topTier =
      .ok (.set {0, 1, 2, 4}) ∧
    answerAfter (Ref.refEnv 5) fbasFront [.minimalBlockingSets] .topTier =
      .ok (.set {0, 1, 2, 4}) ∧
    answerAfter (Ref.refEnv 5) fbasFront [.hasQuorumIntersection] .minimalSplittingSets =
      .ok (.sets [{0, 1}, {0, 2}, {0, 4}]) ∧
    IsMinSplitting fbasFront {0, 4} :=
  ⟨Ref.ok_of (by decide +kernel), Ref.ok_of (by decide +kernel), Ref.ok_of (by decide +kernel),
    by decide +kernel⟩

/-- The hypotheses of `C19_all_histories_partial` are met. -/
example : ∃ L, answerAfter (Ref.refEnv 5) fbasFront [.minimalBlockingSets] .minimalSplittingSets =
      .ok (.sets L) ∧ (∀ S, S ∈ L ↔ IsMinSplitting fbasFront S) ∧ L.Pairwise Before :=
  C19_all_histories_partial _ _ fbasFront_wf (by decide +kernel) (fbasFront_shaped _)
    (majority_of_flat _ (flat_of_list (by decide +kernel))) _

#print axioms C18_top_tier
#print axioms C18_top_tier_all_histories_partial
#print axioms C19_analysis_partial
#print axioms C19_all_histories_partial

/-! ## C21 -/

/-- C21: `minimal_splitting_sets` returns exactly one set, the empty set, iff there is no quorum
intersection; for a new object and all objects on which the minimal blocking sets were not computed
before everything else. With quorum intersection no reported set is empty. -/
theorem C21_empty_splitting_set (env : Env) (f : Fbas) (hwf : WF f) (history : List Call)
    (hs : SafeHistory f history) (hb : ¬ StartsWithBlockingSets history) :
    ∃ L, answerAfter env f history .minimalSplittingSets = .ok (.sets L) ∧
      (L = [∅] ↔ ¬ QuorumIntersection f) ∧ (QuorumIntersection f → ∅ ∉ L) := by
  rw [startsWithBlockingSets_iff] at hb
  obtain ⟨fR, p, hR, hp, h⟩ := quorums_first (env := env) (c := .minimalSplittingSets) hwf hs
    (by simp) (not_blockingFirst_append (by simp) hb)
  obtain ⟨h1, h2⟩ := (hp.exact hwf hR).1.split_empty hp.is hp.split
  exact ⟨_, h _ rfl, h1, fun hq he => by simpa using h2 hq _ he⟩

/-- C21 for a new object. -/
theorem C21_fresh (env : Env) (f : Fbas) (hwf : WF f) :
    ∃ L, answerAfter env f [] .minimalSplittingSets = .ok (.sets L) ∧
      (L = [∅] ↔ ¬ QuorumIntersection f) ∧ (QuorumIntersection f → ∅ ∉ L) :=
  C21_empty_splitting_set env f hwf [] (.inl (by simp)) (by rintro ⟨pre, post, h, _⟩; simp at h)

/-- C21 for all histories, for well-shaped FBASs.

Missing: for other FBASs the claim is false if the minimal blocking sets are computed first, see
`C21_counterexample`; the result then still agrees with the reported verdict (`C21_consistent`). -/
theorem C21_all_histories_partial (env : Env) (f : Fbas) (hwf : WF f) (hw : WellShaped env f)
    (history : List Call) (hs : SafeHistory f history) :
    ∃ L, answerAfter env f history .minimalSplittingSets = .ok (.sets L) ∧
      (L = [∅] ↔ ¬ QuorumIntersection f) ∧ (QuorumIntersection f → ∅ ∉ L) := by
  obtain ⟨fR, p, hR, hp, _, h⟩ := all_shaped (c := .minimalSplittingSets) hwf hw hs (by simp)
  obtain ⟨h1, h2⟩ := (hp.exact hwf hR).1.split_empty hp.is hp.split
  exact ⟨_, h _ rfl, h1, fun hq he => by simpa using h2 hq _ he⟩

/-- Concrete case. -/
example : WF fbasB ∧ ¬ QuorumIntersection fbasB ∧
    answerAfter (Ref.refEnv 8) fbasB [.topTier] .minimalSplittingSets = .ok (.sets [∅]) :=
  ⟨fbasB_wf, by decide +kernel, Ref.ok_of (by decide +kernel)⟩

#print axioms C21_empty_splitting_set
#print axioms C21_fresh
#print axioms C21_all_histories_partial

/-! ## C27 -/

/-- C27 as sets, for objects on which the minimal blocking sets were not computed before everything
else. -/
theorem C27_minimal_quorums_as_sets_partial (env : Env) (f : Fbas) (hwf : WF f)
    (history : List Call) (hs : SafeHistory f history) (hb : ¬ StartsWithBlockingSets history) :
    ∃ L L', answerAfter env f history .minimalQuorums = .ok (.sets L) ∧
      findMinimalQuorums env f = .ok L' ∧ (∀ S, S ∈ L ↔ S ∈ L') ∧
      (∀ S, S ∈ L ↔ IsMinQuorum f S) := by
  rw [startsWithBlockingSets_iff] at hb
  obtain ⟨fR, p, hR, hp, h⟩ := quorums_first (env := env) (c := .minimalQuorums) hwf hs
    (by simp) (not_blockingFirst_append (by simp) hb)
  obtain ⟨L', h1, h2, _⟩ := findMinimalQuorums_spec env hwf
  have h3 := (hp.exact hwf hR).1.minQuorums hp.is
  exact ⟨_, L', h _ rfl, h1, fun S => by rw [h3, h2], h3⟩

/-- C27 for well-shaped FBASs, all histories: exactly the list returned by `find_minimal_quorums` for
the original FBAS.

Missing for the full statement: FBASs in which symmetric clusters (of the FBAS or of its restriction
to relevant nodes or to the top tier) list a node twice, or get insane thresholds by the
restriction; there the claim is false, see `C27_counterexample`. -/
theorem C27_minimal_quorums_partial (env : Env) (f : Fbas) (hwf : WF f) (hw : WellShaped env f)
    (hd : ∀ q, SymCluster f q → DupFree q) (history : List Call) (hs : SafeHistory f history) :
    ∃ L, findMinimalQuorums env f = .ok L ∧
      answerAfter env f history .minimalQuorums = .ok (.sets L) := by
  obtain ⟨fR, p, hR, hp, _, h⟩ := all_shaped (c := .minimalQuorums) hwf hw hs (by simp)
  obtain ⟨L', h1, h2, h3, h4⟩ := findMinimalQuorums_spec env hwf
  obtain ⟨he, hn⟩ := hp.exact hwf hR
  refine ⟨L', h1, ?_⟩
  rw [h _ rfl]
  congr 2
  refine eq_of_lenLex ((sorted_unSet hp.good.Q).2 he.sortedQ) h3
    ((nodup_unSet hp.good.Q).2 (hn (fun q hq =>
      (((shapedOn_iff _ _).2 hw.relevant) fR hR q hq).1))) (h4 hd) (fun S => ?_)
  rw [he.minQuorums hp.is, h2]

/-- An FBAS with a quorum set that lists a node twice and also lists an unsatisfiable node. -/
def fbasFrontDup : Fbas := Ref.mkFbas [⟨1, [0, 0, 1], []⟩, ⟨2, [0], []⟩]

/-- C27 is false for FBASs with repeated validators: `find_minimal_quorums` reports {0} once, the
`Analysis` object (which removes node 1 and then takes the symmetric-cluster shortcut) twice; and
for `fbasBlockDup'` no quorums are reported after `minimal_blocking_sets`. -/
theorem C27_counterexample :
    (WF fbasFrontDup ∧ findMinimalQuorums (Ref.refEnv 2) fbasFrontDup = .ok [{0}] ∧
      answerAfter (Ref.refEnv 2) fbasFrontDup [] .minimalQuorums = .ok (.sets [{0}, {0}])) ∧
    (WF fbasBlockDup' ∧
      findMinimalQuorums (Ref.refEnv 4) fbasBlockDup' =
        .ok [{0, 1, 3}, {0, 2, 3}, {1, 2, 3}] ∧
      answerAfter (Ref.refEnv 4) fbasBlockDup' [.minimalBlockingSets] .minimalQuorums =
        .ok (.sets [])) :=
  ⟨⟨Ref.wf_of (by decide +kernel), Ref.ok_of (by decide +kernel), Ref.ok_of (by decide +kernel)⟩,
    fbasBlockDup'_wf, Ref.ok_of (by decide +kernel), Ref.ok_of (by decide +kernel)⟩

/-- Concrete case. -/
example : answerAfter (Ref.refEnv 5) fbasFront [.minimalBlockingSets, .topTier] .minimalQuorums =
      .ok (.sets [{0, 1, 2}, {0, 1, 4}, {0, 2, 4}]) ∧
    findMinimalQuorums (Ref.refEnv 5) fbasFront = .ok [{0, 1, 2}, {0, 1, 4}, {0, 2, 4}] ∧
    ∀ q, SymCluster fbasFront q → DupFree q :=
  ⟨Ref.ok_of (by decide +kernel), Ref.ok_of (by decide +kernel), fun q hq => by
    obtain ⟨L, h1, h2, _⟩ := C22_symmetric_clusters (Ref.refEnv 5) fbasFront fbasFront_wf
    have h0 : findSymmetricClusters (Ref.refEnv 5) fbasFront = .ok [] :=
      Ref.ok_of (by decide +kernel)
    rw [h0] at h1
    have := (h2 q).2 hq
    rw [← Except.ok.inj h1] at this
    cases this⟩

#print axioms C27_minimal_quorums_as_sets_partial
#print axioms C27_minimal_quorums_partial
#print axioms C27_counterexample

/-! ## C28 -/

/-- C28: no sequence of calls without the alternative check panics, for *every* FBAS (in particular
no `RefCell` is borrowed mutably while it is borrowed, no assertion fails and the recursion ends; for
index accesses, which this model does not check, see `C60_analysis_iff`). -/
theorem C28_no_panic (env : Env) (f : Fbas) (history : List Call) (c : Call)
    (hh : .alternativeCheck ∉ history) (hc : c ≠ .alternativeCheck) :
    ∃ ans, answerAfter env f history c = .ok ans :=
  answer_no_panic env f history c hh hc

/-- C28: no sequence of calls panics if there is a quorum and the minimal blocking sets are not
computed before everything else. -/
theorem C28_no_panic_with_alternative_check (env : Env) (f : Fbas) (hwf : WF f)
    (hq : ∃ Q, IsQuorum f Q) (history : List Call) (c : Call)
    (hb : ¬ StartsWithBlockingSets (history ++ [c])) :
    ∃ ans, answerAfter env f history c = .ok ans :=
  answer_no_panic_quorums_first env hwf hq history c (startsWithBlockingSets_iff.not.1 hb)

/-- C28: no sequence of calls panics if there is a quorum and the FBAS is well-shaped. -/
theorem C28_no_panic_shaped (env : Env) (f : Fbas) (hwf : WF f) (hw : WellShaped env f)
    (hq : ∃ Q, IsQuorum f Q) (history : List Call) (c : Call) :
    ∃ ans, answerAfter env f history c = .ok ans :=
  answer_no_panic_shaped env hwf hq ((shapedOn_iff _ _).2 hw.relevant) history c

/-- C28 for well-shaped FBASs: the returned values do not depend on previous calls (except for the
list of disjoint quorums returned by the alternative check, see `C28_alternative_check_partial`).

Missing for the full statement: other FBASs, for which the claim is false, see
`C28_counterexample`. -/
theorem C28_history_independent_partial (env : Env) (f : Fbas) (hwf : WF f)
    (hw : WellShaped env f) (h₁ h₂ : List Call) (hs₁ : SafeHistory f h₁) (hs₂ : SafeHistory f h₂)
    (c : Call) (hc : c ≠ .alternativeCheck) :
    answerAfter env f h₁ c = answerAfter env f h₂ c := by
  rcases call_cases c with hst | rfl | hact
  · obtain ⟨a₁, ha₁⟩ := ok_of_safe_shaped (env := env) hwf hw hs₁ hc
    obtain ⟨a₂, ha₂⟩ := ok_of_safe_shaped (env := env) hwf hw hs₂ hc
    rw [(answer_static env h₁ hst (by rw [ha₁]; simp)).1,
      (answer_static env h₂ hst (by rw [ha₂]; simp)).1]
  · exact absurd rfl hc
  · obtain ⟨fR₁, p₁, hR₁, hp₁, _, g₁⟩ := all_shaped hwf hw hs₁ hc
    obtain ⟨fR₂, p₂, hR₂, _, hp₂, g₂⟩ := all_shaped hwf hw hs₂ hc
    obtain rfl := modes_agree hwf hR₁ hR₂ ((shapedOn_iff _ _).2 hw.relevant) hp₁ hp₂
      ((shapedOn_iff _ _).2 (hw.topTier _ (hp₁.exact hwf hR₁).1.K))
    obtain ⟨ans, hans⟩ := hact p₁
    rw [g₁ _ hans, g₂ _ hans]

/-- ... and neither on the order in which strongly connected components are found, nor on the node
ranking (for the methods whose results are sorted). -/
theorem C28_env_independent_partial (env₁ env₂ : Env) (f : Fbas) (hwf : WF f)
    (hw₁ : WellShaped env₁ f) (hw₂ : WellShaped env₂ f)
    (h₁ h₂ : List Call) (hs₁ : SafeHistory f h₁) (hs₂ : SafeHistory f h₂)
    (c : Call) (hc : c ∈ ([.hasQuorumIntersection, .minimalQuorums, .minimalBlockingSets,
      .minimalSplittingSets, .topTier] : List Call)) :
    answerAfter env₁ f h₁ c = answerAfter env₂ f h₂ c := by
  have hc' : c ≠ .alternativeCheck := by rintro rfl; simp at hc
  obtain ⟨fR₁, p₁, hR₁, hp₁, _, g₁⟩ := all_shaped hwf hw₁ hs₁ hc'
  obtain ⟨fR₂, p₂, hR₂, _, hp₂, g₂⟩ := all_shaped hwf hw₂ hs₂ hc'
  obtain rfl := modes_agree hwf hR₁ hR₂ ((shapedOn_iff _ _).2 hw₁.relevant) hp₁ hp₂
    ((shapedOn_iff _ _).2 (hw₁.topTier _ (hp₁.exact hwf hR₁).1.K))
  rcases call_cases c with hst | rfl | hact
  · obtain ⟨⟨n1, n2, n3, n4, n5⟩, _⟩ := hst
    simp_all
  · exact absurd rfl hc'
  · obtain ⟨ans, hans⟩ := hact p₁
    rw [g₁ _ hans, g₂ _ hans]

/-- C28 for every FBAS, for histories that do not start with the minimal blocking sets. -/
theorem C28_quorums_first_partial (env : Env) (f : Fbas) (hwf : WF f) (h₁ h₂ : List Call)
    (hs₁ : SafeHistory f h₁) (hs₂ : SafeHistory f h₂) (c : Call) (hc : c ≠ .alternativeCheck)
    (hb₁ : ¬ StartsWithBlockingSets (h₁ ++ [c])) (hb₂ : ¬ StartsWithBlockingSets (h₂ ++ [c])) :
    answerAfter env f h₁ c = answerAfter env f h₂ c := by
  rw [startsWithBlockingSets_iff] at hb₁ hb₂
  rcases call_cases c with hst | rfl | hact
  · obtain ⟨a₁, ha₁⟩ := ok_of_safe (env := env) hwf hs₁ hc hb₁
    obtain ⟨a₂, ha₂⟩ := ok_of_safe (env := env) hwf hs₂ hc hb₂
    rw [(answer_static env h₁ hst (by rw [ha₁]; simp)).1,
      (answer_static env h₂ hst (by rw [ha₂]; simp)).1]
  · exact absurd rfl hc
  · obtain ⟨a, ha⟩ := ok_of_safe (env := env) hwf hs₁ hc hb₁
    obtain ⟨b, hb⟩ := ok_of_safe (env := env) hwf hs₂ hc hb₂
    obtain ⟨fR, p, hR, hp, h⟩ := answer_quorums_first env f
    obtain ⟨ans, hans⟩ := hact p
    rw [h h₁ c hb₁ (by rw [ha]; simp) ans hans, h h₂ c hb₂ (by rw [hb]; simp) ans hans]

/-- C28 for the alternative check on well-shaped FBASs with a quorum: the verdict does not depend on
previous calls. (The witness does, see `C28_counterexample`.) -/
theorem C28_alternative_check_partial (env : Env) (f : Fbas) (hwf : WF f) (hw : WellShaped env f)
    (hq : ∃ Q, IsQuorum f Q) (h₁ h₂ : List Call) :
    ∃ b w₁ w₂, answerAfter env f h₁ .alternativeCheck = .ok (.verdict b w₁) ∧
      answerAfter env f h₂ .alternativeCheck = .ok (.verdict b w₂) := by
  rcases C14_alternative_check_all_histories_partial env f hwf hw hq h₁ with ⟨h, g⟩ | ⟨h, l, g, _⟩ <;>
  rcases C14_alternative_check_all_histories_partial env f hwf hw hq h₂ with ⟨h', g'⟩ | ⟨h', l', g', _⟩
  · exact ⟨_, _, _, g, g'⟩
  · exact absurd h h'
  · exact absurd h' h
  · exact ⟨_, _, _, g, g'⟩

/-- Three nodes in a triangle. -/
def fbasTriangle : Fbas := Ref.mkFbas [⟨1, [1, 2], []⟩, ⟨1, [1, 0], []⟩, ⟨1, [2, 0], []⟩]

/-- C28 is false in general. If validators are repeated, calling `minimal_blocking_sets` first
changes the verdict, the top tier and the splitting sets, and makes the alternative check panic
although there are quorums. The witness of the alternative check depends on previous calls even for
flat quorum sets without repetitions. -/
theorem C28_counterexample :
    (WF fbasBlockDup' ∧ (∃ Q, IsQuorum fbasBlockDup' Q) ∧
      answerAfter (Ref.refEnv 4) fbasBlockDup' [] .hasQuorumIntersection = .ok (.bool true) ∧
      answerAfter (Ref.refEnv 4) fbasBlockDup' [.minimalBlockingSets] .hasQuorumIntersection =
        .ok (.bool false) ∧
      answerAfter (Ref.refEnv 4) fbasBlockDup' [] .topTier = .ok (.set {0, 1, 2, 3}) ∧
      answerAfter (Ref.refEnv 4) fbasBlockDup' [.minimalBlockingSets] .topTier = .ok (.set ∅) ∧
      answerAfter (Ref.refEnv 4) fbasBlockDup' [.minimalBlockingSets] .minimalSplittingSets =
        .ok (.sets [∅]) ∧
      answerAfter (Ref.refEnv 4) fbasBlockDup' [.minimalBlockingSets] .alternativeCheck =
        .error .assertion) ∧
    (WF fbasTriangle ∧ WellShaped (Ref.refEnv 3) fbasTriangle ∧
      answerAfter (Ref.refEnv 3) fbasTriangle [] .alternativeCheck =
        .ok (.verdict false (some [{1}, {0, 2}])) ∧
      answerAfter (Ref.refEnv 3) fbasTriangle [.minimalQuorums] .alternativeCheck =
        .ok (.verdict false (some [{1}, {2}]))) :=
  ⟨⟨fbasBlockDup'_wf, by decide +kernel, Ref.ok_of (by decide +kernel),
    Ref.ok_of (by decide +kernel), Ref.ok_of (by decide +kernel), Ref.ok_of (by decide +kernel),
    Ref.ok_of (by decide +kernel), Ref.error_of (by decide +kernel)⟩,
    Ref.wf_of (by decide +kernel), wellShaped_of_flat _ _ (flat_of_list (by decide +kernel)),
    Ref.ok_of (by decide +kernel), Ref.ok_of (by decide +kernel)⟩

#print axioms C28_no_panic
#print axioms C28_no_panic_with_alternative_check
#print axioms C28_no_panic_shaped
#print axioms C28_history_independent_partial
#print axioms C28_env_independent_partial
#print axioms C28_quorums_first_partial
#print axioms C28_alternative_check_partial
#print axioms C28_counterexample

/-! ## C29 -/

/-- C29 for well-shaped FBASs with a quorum: exactly the minimal blocking sets, each once, in the
reporting order, for all histories.

Missing for the full statement: FBASs without quorums (∅ is not reported, `C29_no_quorum`) and FBASs
that are not well-shaped; there the claim is false, see `C29_counterexample`. -/
theorem C29_minimal_blocking_sets_partial (env : Env) (f : Fbas) (hwf : WF f)
    (hw : WellShaped env f) (hq : ∃ Q, IsQuorum f Q) (history : List Call) :
    ∃ L, answerAfter env f history .minimalBlockingSets = .ok (.sets L) ∧
      (∀ S, S ∈ L ↔ IsMinBlocking f S) ∧ L.Pairwise Before := by
  obtain ⟨fR, p, hR, hp, _, h⟩ := all_shaped (history := history) (c := .minimalBlockingSets) hwf hw
    (.inr hq) (by simp)
  have he := (hp.exact hwf hR).1
  obtain ⟨h1, _, h3, h4⟩ := hp.blocking hwf hR ((shapedOn_iff _ _).2 (hw.topTier _ he.K))
  exact ⟨_, h _ rfl, he.minBlocking hp.is (h1 hq),
    before_of ((sorted_unSet hp.good.B).2 h3) ((nodup_unSet hp.good.B).2 h4)⟩

/-- C29 for objects on which something else was computed first: only the shape of the FBAS
restricted to the top tier matters. -/
theorem C29_quorums_first_partial (env : Env) (f : Fbas) (hwf : WF f)
    (hw : ∀ T : NodeSet, (∀ x, x ∈ T ↔ InTopTier f x) → Shaped f T) (hq : ∃ Q, IsQuorum f Q)
    (history : List Call) (hb : ¬ StartsWithBlockingSets (history ++ [.minimalBlockingSets])) :
    ∃ L, answerAfter env f history .minimalBlockingSets = .ok (.sets L) ∧
      (∀ S, S ∈ L ↔ IsMinBlocking f S) ∧ L.Pairwise Before := by
  rw [startsWithBlockingSets_iff] at hb
  obtain ⟨fR, p, hR, hp, h⟩ := quorums_first (env := env) (history := history)
    (c := .minimalBlockingSets) hwf (.inr hq) (by simp) hb
  have he := (hp.exact hwf hR).1
  obtain ⟨h1, _, h3, h4⟩ := hp.blocking hwf hR ((shapedOn_iff _ _).2 (hw _ he.K))
  exact ⟨_, h _ rfl, he.minBlocking hp.is (h1 hq),
    before_of ((sorted_unSet hp.good.B).2 h3) ((nodup_unSet hp.good.B).2 h4)⟩

/-- C29 is false for FBASs without quorums: then the empty set is the (only) minimal blocking set,
but no set is reported. -/
theorem C29_no_quorum (env : Env) (f : Fbas) (hwf : WF f) (hw : WellShaped env f)
    (hq : ¬ ∃ Q, IsQuorum f Q) (history : List Call) (hh : .alternativeCheck ∉ history) :
    answerAfter env f history .minimalBlockingSets = .ok (.sets []) ∧ IsMinBlocking f ∅ := by
  obtain ⟨fR, p, hR, hp, _, h⟩ := all_shaped (history := history) (c := .minimalBlockingSets) hwf hw
    (.inl hh) (by simp)
  have he := (hp.exact hwf hR).1
  obtain ⟨_, h2, _⟩ := hp.blocking hwf hR ((shapedOn_iff _ _).2 (hw.topTier _ he.K))
  refine ⟨by rw [h _ rfl, h2 hq]; rfl, fun Q hQ => absurd ⟨Q, hQ⟩ hq, fun S _ _ => by simp⟩

/-- An FBAS without repetitions in which an inner quorum set contains an unsatisfiable node. -/
def fbasFrontInner : Fbas := Ref.mkFbas (List.replicate 3 ⟨2, [0, 1], [⟨2, [2, 3], []⟩]⟩ ++
  [⟨2, [0], []⟩])

/-- C29 is false for FBASs that are not well-shaped when shrunk, even if no validator is repeated and
all thresholds are sane in the given FBAS: `find_minimal_blocking_sets` returns the right result for
the FBAS, but not for the FBAS after removing the unsatisfiable node 3. -/
theorem C29_counterexample :
    WF fbasFrontInner ∧ (∃ Q, IsQuorum fbasFrontInner Q) ∧
    findMinimalBlockingSets (Ref.refEnv 4) fbasFrontInner = .ok [{0}, {1}] ∧
    answerAfter (Ref.refEnv 4) fbasFrontInner [] .minimalBlockingSets = .ok (.sets [{0, 1}]) ∧
    answerAfter (Ref.refEnv 4) fbasFrontInner [.minimalQuorums] .minimalBlockingSets =
      .ok (.sets [{0, 1}]) ∧
    IsMinBlocking fbasFrontInner {0} ∧ IsMinBlocking fbasFrontInner {1} ∧
    ¬ IsMinBlocking fbasFrontInner {0, 1} :=
  ⟨Ref.wf_of (by decide +kernel), by decide +kernel, Ref.ok_of (by decide +kernel),
    Ref.ok_of (by decide +kernel), Ref.ok_of (by decide +kernel), by decide +kernel,
    by decide +kernel, by decide +kernel⟩

/-- Concrete case. -/
example : (∃ Q, IsQuorum fbasFront Q) ∧
    answerAfter (Ref.refEnv 5) fbasFront [.minimalQuorums, .alternativeCheck] .minimalBlockingSets =
      .ok (.sets [{0}, {1, 2}, {1, 4}, {2, 4}]) ∧ IsMinBlocking fbasFront {2, 4} :=
  ⟨by decide +kernel, Ref.ok_of (by decide +kernel), by decide +kernel⟩

#print axioms C29_minimal_blocking_sets_partial
#print axioms C29_quorums_first_partial
#print axioms C29_no_quorum
#print axioms C29_counterexample

end FA.Props
