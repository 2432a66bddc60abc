import Verif.Lemmas.Tidy
import Verif.Props.FrontEnd
import Verif.Ref.Decide

/-!
# C91: networks with a tidy top tier
-/

namespace FA.Props
open FA Spec Analysis QuorumSet

section
variable {f g : Fbas}

/-- C91: Networks with a tidy top tier are well-shaped, so all results that need this (C12, C14, C18, C19, C21,
C27-C29, C65, C69, C74, C78, C80, C83, C87, C88) hold for them. -/
theorem C91_well_shaped (env : Env) (hwf : WF f) (h : TidyTopTier f) : WellShaped env f :=
  ⟨(shapedOn_iff _ _).1 (h.shaped fun _ ⟨Q, hQ, hx⟩ => C08_contains_minQuorums env f hwf Q hQ hx),
    fun _ hT => (shapedOn_iff _ _).1 (h.shaped fun x hx => (hT x).2 hx)⟩

/-- C91: If inner quorum sets of nodes in the top tier require a majority, then so do those of the symmetric
clusters that the search for splitting sets looks at, as required in C19. -/
theorem C91_majorities (h : TidyTopTier f) (hm : MajoritiesInside f) :
    ∀ T : NodeSet, (∀ x, x ∈ T ↔ InTopTier f x) → ∀ f' sm, f.shrunken T = .ok (f', sm) →
      ∀ q, SymCluster f' q → ∀ q' ∈ q.inner, Majority q' :=
  fun _ hT _ _ hs _ hq => h.majority hm (fun x hx => (hT x).2 hx) (isShrunken_of_shrunken hs) hq

theorem before_antisymm {a b : NodeSet} (h : Before a b) (h' : Before b a) : a = b := by
  rcases h with h | ⟨h, x, hx, hxb, hlt⟩
  · rcases h' with h' | ⟨h', -⟩ <;> omega
  · rcases h' with h' | ⟨-, y, hy, hya, hlt'⟩
    · omega
    · rcases Nat.lt_trichotomy x y with hxy | rfl | hxy
      · exact absurd ((hlt' x hxy).2 hx) hxb
      · exact absurd hx hya
      · exact absurd ((hlt y hxy).2 hy) hya

theorem eq_of_before {L L' : List NodeSet} (h : L.Pairwise Before) (h' : L'.Pairwise Before)
    (hm : ∀ S, S ∈ L ↔ S ∈ L') : L = L' := by
  have hn : ∀ {L : List NodeSet}, L.Pairwise Before → L.Nodup := fun h => h.imp fun {S T} hST => by
    rintro rfl
    unfold Before at hST
    simp at hST
  exact List.Perm.eq_of_pairwise (le := Before) (fun a b _ _ => before_antisymm) h h'
    ((List.perm_ext_iff_of_nodup (hn h) (hn h')).2 hm)

/-- What an `Analysis` of `f` answers after the calls `history` is exactly what is asked for, each set once
and in the documented order; nothing panics. For minimal splitting sets inner quorum sets of nodes in the
top tier must require a majority, unless quorums do not intersect. -/
structure AllExact (env : Env) (f : Fbas) (history : List Call) : Prop where
  minimalQuorums : ∃ L, answerAfter env f history .minimalQuorums = .ok (.sets L) ∧
    (∀ S, S ∈ L ↔ IsMinQuorum f S) ∧ L.Pairwise Before
  hasQuorumIntersection : ∃ b, answerAfter env f history .hasQuorumIntersection = .ok (.bool b) ∧
    (b = true ↔ QuorumIntersection f)
  alternativeCheck : ∃ b w, answerAfter env f history .alternativeCheck = .ok (.verdict b w) ∧
    (b = true ↔ QuorumIntersection f)
  minimalBlockingSets : ∃ L, answerAfter env f history .minimalBlockingSets = .ok (.sets L) ∧
    (∀ S, S ∈ L ↔ IsMinBlocking f S) ∧ L.Pairwise Before
  minimalSplittingSets : MajoritiesInside f ∨ ¬ QuorumIntersection f → ∃ L, answerAfter env f history .minimalSplittingSets =
    .ok (.sets L) ∧ (∀ S, S ∈ L ↔ IsMinSplitting f S) ∧ L.Pairwise Before
  topTier : ∃ T, answerAfter env f history .topTier = .ok (.set T) ∧ ∀ x, x ∈ T ↔ InTopTier f x

/-- C91: All results are exact after any calls if there is a quorum and nodes in the top tier list only
nodes in the top tier and no node twice, with thresholds between 1 and the number of entries. -/
theorem C91_all_exact (env : Env) (f : Fbas) (hwf : WF f) (hq : ∃ Q, IsQuorum f Q) (h : TidyTopTier f)
    (history : List Call) : AllExact env f history := by
  have hw := C91_well_shaped env hwf h
  have hs : SafeHistory f history := .inr hq
  refine ⟨?_, C12_all_histories_partial env f hwf hw history hs, ?_,
    C29_minimal_blocking_sets_partial env f hwf hw hq history, ?_,
    C18_top_tier_all_histories_partial env f hwf hw history hs⟩
  · obtain ⟨L, h1, h2⟩ := C27_minimal_quorums_partial env f hwf hw (fun q => h.dupFree) history hs
    obtain ⟨L', h3, h4, h5, h6⟩ := findMinimalQuorums_spec env hwf
    rw [h1] at h3
    obtain rfl := Except.ok.inj h3
    refine ⟨L, h2, h4, (h5.and (h6 fun q => h.dupFree)).imp fun hab => ?_⟩
    exact lenLexLt_iff.1 hab
  · rcases C14_alternative_check_all_histories_partial env f hwf hw hq history with
      ⟨h1, h2⟩ | ⟨h1, l, h2, -⟩
    · exact ⟨_, _, h2, by simp [h1]⟩
    · exact ⟨_, _, h2, by simp [h1]⟩
  · intro hm
    by_cases hqi : QuorumIntersection f
    · exact C19_all_histories_partial env f hwf hqi hw
        (C91_majorities h (hm.resolve_right (not_not.2 hqi))) history
    · obtain ⟨L, h1, h2, -⟩ := C21_all_histories_partial env f hwf hw history hs
      obtain rfl := h2.2 hqi
      exact ⟨_, h1, fun S => by rw [isMinSplitting_of_not_intersection hq hqi, List.mem_singleton],
        List.pairwise_singleton _ _⟩

/-- C91: Only minimal quorums matter. If two networks as in `C91_all_exact` have the same minimal quorums,
then the same results are reported for both, whatever was called before. -/
theorem C91_determined (env env' : Env) (f g : Fbas) (hwf : WF f) (hwg : WF g) (hq : ∃ Q, IsQuorum f Q)
    (h : TidyTopTier f) (h' : TidyTopTier g)
    (hfg : ∀ Q, IsMinQuorum f Q ↔ IsMinQuorum g Q) (h₁ h₂ : List Call) (c : Call)
    (hc : c = .minimalQuorums ∨ c = .hasQuorumIntersection ∨ c = .minimalBlockingSets ∨
      c = .topTier ∨ (c = .minimalSplittingSets ∧ MajoritiesInside f ∧ MajoritiesInside g)) :
    answerAfter env f h₁ c = answerAfter env' g h₂ c := by
  obtain ⟨Q₀, hQ₀⟩ := hq
  have hqg : ∃ Q, IsQuorum g Q := by
    obtain ⟨M, hM, -⟩ := hQ₀.exists_min
    exact ⟨M, ((hfg M).1 hM).prop⟩
  have hsub : ∀ {f g : Fbas}, (∀ Q, IsMinQuorum f Q ↔ IsMinQuorum g Q) → ∀ Q, IsQuorum f Q →
      ∃ P, IsQuorum g P ∧ P ⊆ Q := by
    intro f g hfg Q hQ
    obtain ⟨M, hM, hs⟩ := hQ.exists_min
    exact ⟨M, ((hfg M).1 hM).prop, hs⟩
  have hgf : ∀ Q, IsMinQuorum g Q ↔ IsMinQuorum f Q := fun Q => (hfg Q).symm
  have hint : QuorumIntersection f ↔ QuorumIntersection g := by
    have : ∀ {f g : Fbas}, (∀ Q, IsMinQuorum f Q ↔ IsMinQuorum g Q) → QuorumIntersection f →
        QuorumIntersection g := by
      rintro f g hfg ⟨⟨Q, hQ⟩, hi⟩
      refine ⟨?_, fun Q₁ Q₂ h1 h2 => ?_⟩
      · obtain ⟨P, hP, -⟩ := hsub hfg Q hQ
        exact ⟨P, hP⟩
      · obtain ⟨P₁, a1, b1⟩ := hsub (fun Q => (hfg Q).symm) Q₁ h1
        obtain ⟨P₂, a2, b2⟩ := hsub (fun Q => (hfg Q).symm) Q₂ h2
        obtain ⟨x, hx1, hx2⟩ := hi P₁ P₂ a1 a2
        exact ⟨x, b1 hx1, b2 hx2⟩
    exact ⟨this hfg, this hgf⟩
  have hbl : Blocking f = Blocking g := by
    have : ∀ {f g : Fbas}, (∀ Q, IsMinQuorum f Q ↔ IsMinQuorum g Q) → ∀ B, Blocking f B → Blocking g B := by
      intro f g hfg B hB Q hQ
      obtain ⟨P, hP, hs⟩ := hsub (fun Q => (hfg Q).symm) Q hQ
      obtain ⟨x, hx, hxB⟩ := hB P hP
      exact ⟨x, hs hx, hxB⟩
    exact funext fun B => propext ⟨this hfg B, this hgf B⟩
  have hsp : Splitting f = Splitting g := by
    funext S
    simp only [Splitting, hfg]
  have e := C91_all_exact env f hwf ⟨Q₀, hQ₀⟩ h h₁
  have e' := C91_all_exact env' g hwg hqg h' h₂
  rcases hc with rfl | rfl | rfl | rfl | ⟨rfl, hm, hm'⟩
  · obtain ⟨L, a1, a2, a3⟩ := e.minimalQuorums
    obtain ⟨L', b1, b2, b3⟩ := e'.minimalQuorums
    rw [a1, b1, eq_of_before a3 b3 fun S => by rw [a2, b2, hfg]]
  · obtain ⟨b, a1, a2⟩ := e.hasQuorumIntersection
    obtain ⟨b', b1, b2⟩ := e'.hasQuorumIntersection
    rw [a1, b1, Bool.eq_iff_iff.2 (a2.trans (hint.trans b2.symm))]
  · obtain ⟨L, a1, a2, a3⟩ := e.minimalBlockingSets
    obtain ⟨L', b1, b2, b3⟩ := e'.minimalBlockingSets
    rw [a1, b1, eq_of_before a3 b3 fun S => by rw [a2, b2, IsMinBlocking, IsMinBlocking, hbl]]
  · obtain ⟨T, a1, a2⟩ := e.topTier
    obtain ⟨T', b1, b2⟩ := e'.topTier
    rw [a1, b1, show T = T' from Finset.ext fun x => by rw [a2, b2]; simp only [InTopTier, hfg]]
  · obtain ⟨L, a1, a2, a3⟩ := e.minimalSplittingSets (.inl hm)
    obtain ⟨L', b1, b2, b3⟩ := e'.minimalSplittingSets (.inl hm')
    rw [a1, b1, eq_of_before a3 b3 fun S => by rw [a2, b2, IsMinSplitting, IsMinSplitting, hsp]]

end

/-! ## Concrete case

Two organizations of three nodes, in which two of three nodes are required of both; and another node
(6) with a quorum set that lists a node twice and has an inner quorum set that cannot be satisfied, or
that lists only one node. -/

def orgsAndWatcher (q : QuorumSet) : Fbas :=
  Ref.mkFbas (List.replicate 6 ⟨2, [], [⟨2, [0, 1, 2], []⟩, ⟨2, [3, 4, 5], []⟩]⟩ ++ [q])

def watchers : List QuorumSet := [⟨2, [0, 0, 1], [⟨3, [4], []⟩]⟩, ⟨1, [0], []⟩]

section
variable {w : QuorumSet}

theorem orgs_minimal {S : NodeSet} (h : (orgsAndWatcher w).isQuorum S = true)
    (h' : isMinimalForQuorum (orgsAndWatcher w) S = true) : IsMinQuorum (orgsAndWatcher w) S :=
  (isMinimalForQuorum_of_quorum (Fbas.isQuorum_iff.1 h)).1 h'

theorem orgs_topTier (hw : w ∈ watchers) (x : ℕ) (hx : x < 6) : InTopTier (orgsAndWatcher w) x := by
  have h1 : x ∈ ({0, 1, 3, 4} : NodeSet) ∨ x ∈ ({0, 2, 3, 5} : NodeSet) := by
    revert x; decide
  have key : ∀ w ∈ watchers, ∀ S ∈ [({0, 1, 3, 4} : NodeSet), {0, 2, 3, 5}],
      (orgsAndWatcher w).isQuorum S = true ∧ isMinimalForQuorum (orgsAndWatcher w) S = true := by
    decide +kernel
  rcases h1 with h1 | h1
  · exact ⟨_, orgs_minimal (key w hw _ (by simp)).1 (key w hw _ (by simp)).2, h1⟩
  · exact ⟨_, orgs_minimal (key w hw _ (by simp)).1 (key w hw _ (by simp)).2, h1⟩

theorem orgs_qset (hw : w ∈ watchers) {x : ℕ} {q : QuorumSet} (hx : InTopTier (orgsAndWatcher w) x)
    (hq : HasQSet (orgsAndWatcher w) x q) : q = ⟨2, [], [⟨2, [0, 1, 2], []⟩, ⟨2, [3, 4, 5], []⟩]⟩ := by
  obtain ⟨h1, rfl⟩ := hasQSet_iff.1 hq
  have key : ∀ w ∈ watchers, ∀ S ∈ (Finset.range 7).powerset, 6 ∈ S →
      (orgsAndWatcher w).isQuorum S = true → isMinimalForQuorum (orgsAndWatcher w) S = false := by
    decide +kernel
  have h6 : x ≠ 6 := by
    rintro rfl
    obtain ⟨Q, hQ, h6⟩ := hx
    have := key w hw Q (Finset.mem_powerset.2 hQ.prop.subset_all) h6 (Fbas.isQuorum_iff.2 hQ.prop)
    rw [(isMinimalForQuorum_of_quorum hQ.prop).2 hQ] at this
    cases this
  have h7 : x < 7 := h1
  have : ∀ w ∈ watchers, ∀ y < 7, y ≠ 6 → (orgsAndWatcher w).qset y =
      ⟨2, [], [⟨2, [0, 1, 2], []⟩, ⟨2, [3, 4, 5], []⟩]⟩ := by decide +kernel
  exact this w hw x h7 h6

theorem orgs_tidy (hw : w ∈ watchers) : TidyTopTier (orgsAndWatcher w) := by
  intro x q hx hq
  obtain rfl := orgs_qset hw hx hq
  refine ⟨Ref.dupFree_of (by decide +kernel), .intro _ (by decide) (by decide) ?_, fun y hy => ?_⟩
  · intro q' hq'
    simp only [List.mem_cons, List.not_mem_nil, or_false] at hq'
    rcases hq' with rfl | rfl <;> exact .intro _ (by decide) (by decide) (by simp)
  · rw [← mem_containedNodes] at hy
    have : ∀ y ∈ (⟨2, [], [⟨2, [0, 1, 2], []⟩, ⟨2, [3, 4, 5], []⟩]⟩ : QuorumSet).containedNodes, y < 6 := by
      decide +kernel
    exact orgs_topTier hw y (this y hy)

theorem orgs_majorities (hw : w ∈ watchers) : MajoritiesInside (orgsAndWatcher w) := by
  intro x q hx hq q' hq'
  obtain rfl := orgs_qset hw hx hq
  simp only [List.mem_cons, List.not_mem_nil, or_false] at hq'
  rcases hq' with rfl | rfl <;> exact .intro _ (by decide) (by decide) (by decide) (by simp)

theorem orgs_wf (hw : w ∈ watchers) : WF (orgsAndWatcher w) := by
  simp only [watchers, List.mem_cons, List.not_mem_nil, or_false] at hw
  rcases hw with rfl | rfl <;> exact Ref.wf_of (by decide +kernel)

theorem orgs_quorum (hw : w ∈ watchers) : ∃ Q, IsQuorum (orgsAndWatcher w) Q :=
  let ⟨Q, hQ, _⟩ := orgs_topTier hw 0 (by decide)
  ⟨Q, hQ.prop⟩

theorem orgs_same {w' : QuorumSet} (hw : w ∈ watchers) (hw' : w' ∈ watchers) (Q : NodeSet) :
    IsMinQuorum (orgsAndWatcher w) Q ↔ IsMinQuorum (orgsAndWatcher w') Q := by
  have key : ∀ w ∈ watchers, ∀ w' ∈ watchers, ∀ S ∈ (Finset.range 7).powerset,
      (orgsAndWatcher w).isQuorum S = true → isMinimalForQuorum (orgsAndWatcher w) S = true →
      (orgsAndWatcher w').isQuorum S = true ∧ isMinimalForQuorum (orgsAndWatcher w') S = true := by
    decide +kernel
  have : ∀ {w w' : QuorumSet}, w ∈ watchers → w' ∈ watchers → IsMinQuorum (orgsAndWatcher w) Q →
      IsMinQuorum (orgsAndWatcher w') Q := fun {w w'} hw hw' hQ =>
    let h := key w hw w' hw' Q (Finset.mem_powerset.2 hQ.prop.subset_all) (Fbas.isQuorum_iff.2 hQ.prop)
      ((isMinimalForQuorum_of_quorum hQ.prop).2 hQ)
    orgs_minimal h.1 h.2
  exact ⟨this hw hw', this hw' hw⟩

end

example (env : Env) (history : List Call) :
    AllExact env (orgsAndWatcher ⟨2, [0, 0, 1], [⟨3, [4], []⟩]⟩) history :=
  have hw : _ ∈ watchers := .head _
  C91_all_exact env _ (orgs_wf hw) (orgs_quorum hw) (orgs_tidy hw) history

example (env env' : Env) (history : List Call) :
    answerAfter env (orgsAndWatcher ⟨2, [0, 0, 1], [⟨3, [4], []⟩]⟩) history .minimalSplittingSets =
      answerAfter env' (orgsAndWatcher ⟨1, [0], []⟩) [] .minimalSplittingSets :=
  have hw : _ ∈ watchers := .head _
  have hw' : _ ∈ watchers := .tail _ (.head _)
  C91_determined env env' _ _ (orgs_wf hw) (orgs_wf hw') (orgs_quorum hw) (orgs_tidy hw)
    (orgs_tidy hw') (orgs_same hw hw') _ _ _ (by simp [orgs_majorities hw, orgs_majorities hw'])

#print axioms C91_well_shaped
#print axioms C91_majorities
#print axioms C91_all_exact
#print axioms C91_determined

end FA.Props
