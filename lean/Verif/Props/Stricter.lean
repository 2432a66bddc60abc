import Verif.SpecStricter
import Verif.Props.FrontEndSound
import Verif.Ref.Decide

/-!
# C78: stricter quorum sets
-/

namespace FA
open Spec QuorumSet

theorem Spec.Stricter.slice {q q' : QuorumSet} (h : Stricter q q') {S : NodeSet}
    (hs : Slice S q') : Slice S q := by
  classical
  induction h generalizing S with
  | refl => exact hs
  | raise vs qs hpos h =>
    rw [slice_iff_count] at hs ⊢
    dsimp only at hs ⊢
    omega
  | never t vs qs =>
    rw [slice_iff_count] at hs
    dsimp only at hs
    omega
  | remove t hv hq =>
    rw [slice_iff_count] at hs ⊢
    dsimp only at hs ⊢
    have h1 := (hv.filter (fun x => decide (x ∈ S))).length_le
    have h2 := (hq.filter (fun q => decide (Slice S q))).length_le
    omega
  | nested t vs l₁ l₂ h ih =>
    rw [slice_iff_count] at hs ⊢
    dsimp only at hs ⊢
    refine ⟨hs.1, hs.2.trans (Nat.add_le_add_left ?_ _)⟩
    rw [List.filter_append, List.filter_append, List.length_append, List.length_append,
      List.filter_cons, List.filter_cons]
    refine Nat.add_le_add_left ?_ _
    split
    · rename_i hq'
      rw [if_pos (decide_eq_true (ih (of_decide_eq_true hq')))]
      simp
    · split
      · simp
      · exact Nat.le_refl _
  | trans h₁ h₂ ih₁ ih₂ => exact ih₁ (ih₂ hs)

theorem Spec.StricterFbas.hasQSet {f g : Fbas} (h : StricterFbas f g) {x : ℕ} {q' : QuorumSet}
    (hq : HasQSet g x q') : ∃ q, HasQSet f x q ∧ Stricter q q' := by
  obtain ⟨n', hn', rfl⟩ := hq
  have hx := (List.getElem?_eq_some_iff.1 hn').1
  have hl := h.length_eq
  have hxf : x < f.nodes.length := hl ▸ hx
  refine ⟨_, ⟨f.nodes[x], List.getElem?_eq_getElem hxf, rfl⟩, ?_⟩
  have := List.Forall₂.get h hxf hx
  rw [List.getElem?_eq_getElem hx] at hn'
  cases hn'
  exact this

theorem Spec.StricterFbas.isQuorum {f g : Fbas} (h : StricterFbas f g) {Q : NodeSet}
    (hQ : IsQuorum g Q) : IsQuorum f Q := by
  refine ⟨hQ.1, fun x hx => ?_⟩
  obtain ⟨q', hq', hs⟩ := hQ.2 x hx
  obtain ⟨q, hq, hst⟩ := h.hasQSet hq'
  exact ⟨q, hq, hst.slice hs⟩

end FA

namespace FA.Props
open FA Spec Analysis

/-- C78, quorum intersection: if nodes make their quorum sets stricter then `has_quorum_intersection` (of
new analyses) can change from true to false only if no quorum is left. -/
theorem C78_intersection (env env' : Env) (f g : Fbas) (hwf : WF f) (hwf' : WF g)
    (h : StricterFbas f g)
    (hf : answerAfter env f [] .hasQuorumIntersection = .ok (.bool true)) (hq : ∃ Q, IsQuorum g Q) :
    answerAfter env' g [] .hasQuorumIntersection = .ok (.bool true) := by
  obtain ⟨b, h1, h2⟩ := C12_fresh env f hwf
  rw [h1] at hf
  cases hf
  obtain ⟨b, h3, h4⟩ := C12_fresh env' g hwf'
  rw [h3, h4.2 ⟨hq, fun P Q hP hQ => (h2.1 rfl).2 P Q (h.isQuorum hP) (h.isQuorum hQ)⟩]

/-- C78, satisfiable nodes: none are added. -/
theorem C78_satisfiable (f g : Fbas) (h : StricterFbas f g) :
    g.satisfiableNodes ⊆ f.satisfiableNodes := by
  intro x hx
  rw [Fbas.mem_satisfiableNodes] at hx ⊢
  obtain ⟨Q, hQ, hxQ⟩ := hx
  exact ⟨Q, h.isQuorum hQ, hxQ⟩

/-- C78, blocking sets: every set reported for `f` contains one that is reported for `g`, after any
calls. So the nodes that suffice to threaten liveness become fewer or stay the same.

Missing for the full statement: `g` has to be well-shaped (else sets can be missing in the answer for
`g`, see `C78_counterexample`). -/
theorem C78_blocking_partial (env env' : Env) (f g : Fbas) (hwf : WF f) (hwf' : WF g)
    (hw : WellShaped env' g) (h : StricterFbas f g) (hq : ∃ Q, IsQuorum g Q)
    (history history' : List Call) (L : List NodeSet)
    (hL : answerAfter env f history .minimalBlockingSets = .ok (.sets L)) :
    ∃ L', answerAfter env' g history' .minimalBlockingSets = .ok (.sets L') ∧
      ∀ S ∈ L, ∃ S' ∈ L', S' ⊆ S := by
  obtain ⟨L', h1, h2, -⟩ := C29_minimal_blocking_sets_partial env' g hwf' hw hq history'
  refine ⟨L', h1, fun S hS => ?_⟩
  have hb := C29_sound env f hwf history L hL S hS
  have hb' : Blocking g S := fun Q hQ => hb Q (h.isQuorum hQ)
  obtain ⟨S', hsub, hmin⟩ := exists_minimal_le_of_wellFoundedLT (P := Blocking g) S hb'
  exact ⟨S', (h2 S').2 hmin, hsub⟩

/-- C78, blocking sets as found by `find_minimal_blocking_sets`; only the quorum sets of symmetric clusters
of `g` matter. -/
theorem C78_blocking_finder_partial (env env' : Env) (f g : Fbas) (hwf : WF f) (hwf' : WF g)
    (hsym : ∀ q, SymCluster g q → DupFree q ∧ Sane q) (h : StricterFbas f g)
    (hq : ∃ Q, IsQuorum g Q) :
    ∃ L L', findMinimalBlockingSets env f = .ok L ∧ findMinimalBlockingSets env' g = .ok L' ∧
      ∀ S ∈ L, ∃ S' ∈ L', S' ⊆ S := by
  obtain ⟨L, h1, h2⟩ := C16_sound env f hwf
  obtain ⟨L', h3, h4, -⟩ := C16_minimal_blocking_sets_partial env' g hwf' hq hsym
  refine ⟨L, L', h1, h3, fun S hS => ?_⟩
  have hb' : Blocking g S := fun Q hQ => h2 S hS Q (h.isQuorum hQ)
  obtain ⟨S', hsub, hmin⟩ := exists_minimal_le_of_wellFoundedLT (P := Blocking g) S hb'
  exact ⟨S', (h4 S').2 hmin, hsub⟩

/-- C78, splitting sets: every set reported for `g` contains one that is reported for `f`, or it contains a
whole quorum of `f` (so that `f` had fewer minimal quorums that could be split). So more nodes have to
be malicious, or the same.

Missing for the full statement: FBASs that are not well-shaped, or have inner quorum sets in symmetric
clusters that need no majority; their splitting sets are not reported correctly (C19). -/
theorem C78_splitting_partial (env env' : Env) (f g : Fbas) (hwf : WF f) (hwf' : WF g)
    (h : StricterFbas f g) (hqi : QuorumIntersection f) (hq : ∃ Q, IsQuorum g Q)
    (hw : WellShaped env f) (hw' : WellShaped env' g)
    (hmaj : ∀ T : NodeSet, (∀ x, x ∈ T ↔ InTopTier f x) → ∀ f' sm, f.shrunken T = .ok (f', sm) →
      ∀ q, SymCluster f' q → ∀ q' ∈ q.inner, Majority q')
    (history history' : List Call) :
    ∃ L L', answerAfter env f history .minimalSplittingSets = .ok (.sets L) ∧
      answerAfter env' g history' .minimalSplittingSets = .ok (.sets L') ∧
      ∀ S' ∈ L', (∃ S ∈ L, S ⊆ S') ∨ ∃ Q, IsQuorum f Q ∧ Q ⊆ S' := by
  have hqi' : QuorumIntersection g :=
    ⟨hq, fun P Q hP hQ => hqi.2 P Q (h.isQuorum hP) (h.isQuorum hQ)⟩
  obtain ⟨L, h1, h2, -⟩ := C19_all_histories_partial env f hwf hqi hw hmaj history
  obtain ⟨L', h3, h4⟩ := C19_analysis_sound_partial env' g hwf' hw' hqi' history'
  refine ⟨L, L', h1, h3, fun S' hS' => ?_⟩
  obtain ⟨-, P, Q, hP, hQ, -, rfl⟩ := h4 S' hS'
  obtain ⟨P', hP', hPm⟩ := exists_minimal_le_of_wellFoundedLT (P := IsQuorum f) P (h.isQuorum hP.prop)
  obtain ⟨Q', hQ', hQm⟩ := exists_minimal_le_of_wellFoundedLT (P := IsQuorum f) Q (h.isQuorum hQ.prop)
  by_cases he : P' = Q'
  · subst he
    exact .inr ⟨P', hPm.prop, Finset.subset_inter hP' hQ'⟩
  · obtain ⟨S, hS, hm⟩ := exists_minimal_le_of_wellFoundedLT (P := Splitting f) (P ∩ Q)
      ⟨P', Q', hPm, hQm, he, Finset.inter_subset_inter hP' hQ'⟩
    exact .inl ⟨S, (h2 S).2 hm, hS⟩

/-- Concrete case: five nodes that need three of them, and then four of them. -/
example :
    (∃ L L', answerAfter (Ref.refEnv 5) (Ref.mkFbas (List.replicate 5 ⟨3, [0, 1, 2, 3, 4], []⟩))
        [.topTier] .minimalSplittingSets = .ok (.sets L) ∧
      answerAfter (Ref.refEnv 5) (Ref.mkFbas (List.replicate 5 ⟨4, [0, 1, 2, 3, 4], []⟩))
        [] .minimalSplittingSets = .ok (.sets L') ∧
      ∀ S' ∈ L', (∃ S ∈ L, S ⊆ S') ∨ ∃ Q,
        IsQuorum (Ref.mkFbas (List.replicate 5 ⟨3, [0, 1, 2, 3, 4], []⟩)) Q ∧ Q ⊆ S') ∧
    answerAfter (Ref.refEnv 5) (Ref.mkFbas (List.replicate 5 ⟨3, [0, 1, 2, 3, 4], []⟩))
      [.topTier] .minimalSplittingSets = .ok (.sets [{0}, {1}, {2}, {3}, {4}]) ∧
    answerAfter (Ref.refEnv 5) (Ref.mkFbas (List.replicate 5 ⟨4, [0, 1, 2, 3, 4], []⟩))
      [] .minimalSplittingSets = .ok (.sets [{0, 1, 2}, {0, 1, 3}, {0, 1, 4}, {0, 2, 3}, {0, 2, 4},
        {0, 3, 4}, {1, 2, 3}, {1, 2, 4}, {1, 3, 4}, {2, 3, 4}]) := by
  refine ⟨C78_splitting_partial _ _ _ _ (Ref.wf_of (by decide +kernel)) (Ref.wf_of (by decide +kernel))
    ?_ (by decide +kernel) (by decide +kernel)
    (wellShaped_of_flat _ _ (flat_of_list (by decide +kernel)))
    (wellShaped_of_flat _ _ (flat_of_list (by decide +kernel)))
    (majority_of_flat _ (flat_of_list (by decide +kernel))) _ _,
    Ref.ok_of (by decide +kernel), Ref.ok_of (by decide +kernel)⟩
  have h : Stricter ⟨3, [0, 1, 2, 3, 4], []⟩ ⟨4, [0, 1, 2, 3, 4], []⟩ :=
    .raise _ _ (by decide) (by decide)
  exact .cons h (.cons h (.cons h (.cons h (.cons h .nil))))

/-- Concrete case for the second alternative: at first node 0 is a quorum on its own and everyone needs
it; when it wants one of two others, it becomes a splitting set. -/
example :
    StricterFbas (Ref.mkFbas [⟨2, [0, 0, 1, 2], []⟩, ⟨2, [0, 1], []⟩, ⟨2, [0, 2], []⟩])
      (Ref.mkFbas [⟨2, [0, 1, 2], []⟩, ⟨2, [0, 1], []⟩, ⟨2, [0, 2], []⟩]) ∧
    answerAfter (Ref.refEnv 3) (Ref.mkFbas [⟨2, [0, 0, 1, 2], []⟩, ⟨2, [0, 1], []⟩, ⟨2, [0, 2], []⟩])
      [] .minimalSplittingSets = .ok (.sets []) ∧
    answerAfter (Ref.refEnv 3) (Ref.mkFbas [⟨2, [0, 1, 2], []⟩, ⟨2, [0, 1], []⟩, ⟨2, [0, 2], []⟩])
      [] .minimalSplittingSets = .ok (.sets [{0}]) :=
  ⟨.cons (.remove _ (by decide) (.refl _)) (.cons (.refl _) (.cons (.refl _) .nil)),
    Ref.ok_of (by decide +kernel), Ref.ok_of (by decide +kernel)⟩

/-- As `fbasFrontInner`, but node 3 has a lower threshold. -/
def fbasFrontInner' : Fbas := Ref.mkFbas (List.replicate 3 ⟨2, [0, 1], [⟨2, [2, 3], []⟩]⟩ ++
  [⟨1, [0], []⟩])

theorem fbasFrontInner_stricter : StricterFbas fbasFrontInner' fbasFrontInner :=
  .cons (.refl _) (.cons (.refl _) (.cons (.refl _) (.cons (.raise _ _ (by decide) (by decide)) .nil)))

/-- C78 for blocking sets fails without the condition on `g`: node 0 is reported as a blocking set,
and when node 3 raises its threshold only `{0, 1}` is reported. -/
theorem C78_counterexample : WF fbasFrontInner' ∧ WF fbasFrontInner ∧
    StricterFbas fbasFrontInner' fbasFrontInner ∧ (∃ Q, IsQuorum fbasFrontInner Q) ∧
    answerAfter (Ref.refEnv 4) fbasFrontInner' [] .minimalBlockingSets =
      .ok (.sets [{0}, {1, 2}, {1, 3}]) ∧
    answerAfter (Ref.refEnv 4) fbasFrontInner [] .minimalBlockingSets = .ok (.sets [{0, 1}]) :=
  ⟨Ref.wf_of (by decide +kernel), Ref.wf_of (by decide +kernel), fbasFrontInner_stricter,
    by decide +kernel, Ref.ok_of (by decide +kernel), Ref.ok_of (by decide +kernel)⟩

/-- As `fbasFront`, with higher thresholds and less entries for some nodes. -/
def fbasFrontStrict : Fbas := Ref.mkFbas [⟨3, [0, 1, 2, 4], []⟩, ⟨4, [0, 1, 2, 4], []⟩, ⟨1, [0], []⟩,
  ⟨9, [0], []⟩, ⟨3, [0, 1, 4], []⟩]

/-- Concrete case: the hypotheses of the theorems hold, and the answers differ. -/
example : WF fbasFront ∧ WF fbasFrontStrict ∧ StricterFbas fbasFront fbasFrontStrict ∧
    (∃ Q, IsQuorum fbasFrontStrict Q) ∧ WellShaped (Ref.refEnv 5) fbasFrontStrict ∧
    answerAfter (Ref.refEnv 5) fbasFront [] .hasQuorumIntersection = .ok (.bool true) ∧
    answerAfter (Ref.refEnv 5) fbasFront [] .minimalBlockingSets =
      .ok (.sets [{0}, {1, 2}, {1, 4}, {2, 4}]) ∧
    answerAfter (Ref.refEnv 5) fbasFrontStrict [] .minimalBlockingSets =
      .ok (.sets [{0}, {1}, {2}, {4}]) ∧
    answerAfter (Ref.refEnv 5) fbasFrontStrict [] .minimalSplittingSets = .ok (.sets []) := by
  refine ⟨fbasFront_wf, Ref.wf_of (by decide +kernel), ?_, by decide +kernel,
    wellShaped_of_flat _ _ (flat_of_list (by decide +kernel)), Ref.ok_of (by decide +kernel),
    Ref.ok_of (by decide +kernel), Ref.ok_of (by decide +kernel), Ref.ok_of (by decide +kernel)⟩
  exact .cons (.refl _) (.cons (.raise _ _ (by decide) (by decide)) (.cons (.refl _) (.cons (.refl _)
    (.cons (.remove _ (by decide) (.refl _)) .nil))))

#print axioms C78_intersection
#print axioms C78_satisfiable
#print axioms C78_blocking_partial
#print axioms C78_blocking_finder_partial
#print axioms C78_splitting_partial
#print axioms C78_counterexample

end FA.Props
