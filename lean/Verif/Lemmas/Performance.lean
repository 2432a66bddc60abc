import Verif.Lemmas.BulkAnalyze
import Verif.Props.BulkAnalyze

/-!
# The performance experiment
-/

namespace FA.Bulk
open Spec Props Tool Analysis

/-! ### The FBASs have no symmetric clusters -/

/-- Nodes other than node 0 have the quorum set `q`, node 0 has a slightly different one. -/
structure Almost (f : Fbas) (n : ℕ) (q : QuorumSet) : Prop where
  two : 2 ≤ n
  len : f.nodes.length = n
  zero : HasQSet f 0 (zeroQuorumSet q)
  other : ∀ x : ℕ, 0 < x → x < n → HasQSet f x q
  mentions : ∀ x, Mentions q x ↔ x < n

theorem mentions_zero {q : QuorumSet} {x : NodeId} :
    Mentions (zeroQuorumSet q) x ↔ Mentions q x ∨ x = 0 := by
  obtain ⟨t, vs, qs⟩ := q
  constructor
  · intro h
    cases h with
    | validator h =>
      rcases List.mem_append.1 h with h | h
      · exact .inl (.validator h)
      · exact .inr (List.mem_singleton.1 h)
    | inner h1 h2 => exact .inl (.inner h1 h2)
  · rintro (h | rfl)
    · cases h with
      | validator h => exact .validator (List.mem_append_left _ h)
      | inner h1 h2 => exact .inner h1 h2
    · exact .validator (List.mem_append_right _ (List.mem_singleton.2 rfl))

section
variable {f : Fbas} {n : ℕ} {q : QuorumSet}

theorem Almost.mentions_of (h : Almost f n q) {x : ℕ} {q' : QuorumSet} (hq : HasQSet f x q') (y : ℕ) :
    Mentions q' y ↔ y < n := by
  have hx : x < n := by
    obtain ⟨nd, h1, -⟩ := hq
    rw [← h.len]
    exact (List.getElem?_eq_some_iff.1 h1).1
  by_cases h0 : x = 0
  · subst h0
    rw [← h.zero.unique hq, mentions_zero, h.mentions]
    have := h.two
    constructor
    · rintro (h | h)
      · exact h
      · subst h; exact hx
    · exact .inl
  · rw [← (h.other x (Nat.pos_of_ne_zero h0) hx).unique hq, h.mentions]

theorem Almost.wf (h : Almost f n q) : WF f := by
  rintro x y ⟨q', h1, h2⟩
  rw [h.len]
  exact (h.mentions_of h1 y).1 h2

theorem un_range {n i : ℕ} (hi : i < n) : un (Finset.range n) i = i := by
  have hc : (Finset.range n).card = n := Finset.card_range n
  have h1 : ∀ j, j < n → un (Finset.range n) j < n := fun j hj =>
    Finset.mem_range.1 (un_mem (by rw [hc]; exact hj))
  have h2 : ∀ j, j < n → j ≤ un (Finset.range n) j := by
    intro j
    induction j with
    | zero => intro _; exact Nat.zero_le _
    | succ j ih =>
      intro hj
      have h3 := ih (by omega)
      have h4 : un (Finset.range n) j < un (Finset.range n) (j + 1) :=
        un_lt (by rw [hc]; exact hj) (by omega)
      exact Nat.lt_of_le_of_lt h3 h4
  have h3 : ∀ k, k < n → un (Finset.range n) (n - 1 - k) ≤ n - 1 - k := by
    intro k
    induction k with
    | zero => intro hk; have := h1 (n - 1) (by omega); exact Nat.le_sub_one_of_lt this
    | succ k ih =>
      intro hk
      have h4 := ih (by omega)
      have h5 : un (Finset.range n) (n - 1 - (k + 1)) < un (Finset.range n) (n - 1 - k) :=
        un_lt (by rw [hc]; omega) (by omega)
      have h6 := Nat.lt_of_lt_of_le h5 h4
      exact Nat.le_of_lt_succ (by rw [show (n - 1 - (k + 1)).succ = n - 1 - k by omega]; exact h6)
  have h4 := h3 (n - 1 - i) (by omega)
  rw [show n - 1 - (n - 1 - i) = i by omega] at h4
  exact Nat.le_antisymm h4 (h2 i hi)

theorem HasQSet.qset_eq {x : ℕ} (h : HasQSet f x q) : f.qset x = q := by
  obtain ⟨nd, h1, h2⟩ := h
  rw [← h2, Fbas.qset, h1]

theorem Almost.noSym (h : Almost f n q) {K : NodeSet} (hK : ∀ x, x ∈ K ↔ x < n) {f' : Fbas}
    {sm : ShrinkManager} (hs : f.shrunken K = .ok (f', sm)) (q' : QuorumSet) : ¬ SymCluster f' q' := by
  obtain ⟨f'', h1, h2⟩ := f.shrunken_ok K
  rw [hs] at h1
  obtain ⟨rfl, -⟩ := Prod.mk.inj (Except.ok.inj h1)
  obtain rfl : K = Finset.range n := by ext x; rw [hK, Finset.mem_range]
  have hc : (Finset.range n).card = n := Finset.card_range n
  have h3 : ∀ x, x < n → f'.qset x = (f.qset x).shrunken (ShrinkManager.new (Finset.range n)).shrinkMap := by
    intro x hx
    rw [h2.qset x (by rw [hc]; exact hx), un_range hx]
  rintro ⟨h4, Q, hQ, hQm⟩
  obtain ⟨x, hx⟩ := hQ.1
  have hxn : x < n := by
    have := h2.quorum_subset hQ hx
    rw [hc] at this
    exact Finset.mem_range.1 this
  have h5 := HasQSet.qset_eq (h4 x (hQm x hx))
  have htwo := h.two
  have h6 : ∀ y, y < n → HasQSet f' y q' := by
    intro y hy
    apply h4
    rw [← h5, h3 x hxn, mentions_shrunken, hc, un_range hy]
    refine ⟨hy, ?_⟩
    by_cases h0 : x = 0
    · subst h0
      rw [HasQSet.qset_eq h.zero]
      exact mentions_zero.2 (.inl ((h.mentions y).2 hy))
    · rw [HasQSet.qset_eq (h.other x (Nat.pos_of_ne_zero h0) hxn)]
      exact (h.mentions y).2 hy
  have h7 := HasQSet.qset_eq (h6 0 (by omega))
  have h8 := HasQSet.qset_eq (h6 1 (by omega))
  rw [h3 0 (by omega), HasQSet.qset_eq h.zero] at h7
  rw [h3 1 (by omega), HasQSet.qset_eq (h.other 1 (by omega) (by omega))] at h8
  have h9 := congrArg QuorumSet.threshold (h7.trans h8.symm)
  rw [shrunken_threshold, shrunken_threshold] at h9
  have : (zeroQuorumSet q).threshold = q.threshold + 1 := rfl
  omega

/-! ### One run of the experiment -/

/-- The experiment does not panic if the FBAS has quorum intersection; it reports what the object
answers. -/
theorem perf_ok (env : Env) (run : ℕ) (stellarlike : Bool)
    (hf : (if stellarlike then makeAlmostIdealStellarlikeFbas n else makeAlmostIdealFbas n) = .ok f)
    (hwf : WF f) (hlen : f.nodes.length = n) (hqi : QuorumIntersection f) :
    ∃ v T Q B S d, Values env f v T Q B S ∧ perfAnalyze env n run stellarlike = .ok d ∧
      d.topTierSize = n ∧ d.run = run ∧ d.mqNumber = Q.length ∧ d.mbsNumber = B.length ∧
      d.mssNumber = S.length ∧ d.mqMean * Q.length = (Q.map Finset.card).sum ∧
      d.mbsMean * B.length = (B.map Finset.card).sum ∧
      d.mssMean * S.length = (S.map Finset.card).sum ∧ (S = [] → d.mssMean = 0) := by
  obtain ⟨fR, pq, pb, a, s, hn, hst⟩ := exists_setting env f
  obtain ⟨r, a₁, v, T, Q, B, S, q1, q2, q3, r1, hans, hv⟩ := ready_first hwf s hn hst
  obtain ⟨v', a₂, v1, v2, r2⟩ := r1.intersection s
  obtain rfl : v = v' := by have := hans.hqi; rw [v2] at this; simpa using this.symm
  obtain ⟨b, a₄, B', b1, b2, b3, b4, -, r4⟩ := r2.sets hwf s isMethod_minimalBlockingSets
  obtain rfl : B = B' := by have := hans.blocking; rw [b2] at this; simpa using this.symm
  obtain ⟨p, a₅, S', p1, p2, p3, p4, -, r5⟩ := r4.sets hwf s isMethod_minimalSplittingSets
  obtain rfl : S = S' := by have := hans.splitting; rw [p2] at this; simpa using this.symm
  -- the calls
  have c1 : a.call env .minimalQuorums = .ok (.sets Q, a₁) := by
    show answerSets (a.minimalQuorums env) = _
    rw [q1]; simp [answerSets, q2]
  have c2 : a₁.call env .hasQuorumIntersection = .ok (.bool v, a₂) := by
    show (a₁.hasQuorumIntersection env).map (fun r => (Answer.bool r.1, r.2)) = _
    rw [v1]; rfl
  have f1 : After env f fR pq pb [.minimalQuorums] a₁ :=
    (After.new hn hst (pq := pq) (pb := pb)).snoc c1 (.inr (.inl ⟨r1.at', r1.mq⟩))
  have f2 : After env f fR pq pb [.minimalQuorums, .hasQuorumIntersection] a₂ :=
    f1.snoc c2 (.inr (.inl ⟨r2.at', r2.mq⟩))
  have hns : ¬ StartsWithBlockingSets [.minimalQuorums, .hasQuorumIntersection] :=
    not_starts_of_not_mem (by simp)
  have hvt : v = true := by
    obtain ⟨b, e1, e2⟩ := C12_has_quorum_intersection env f hwf [.minimalQuorums] (.inl (by simp))
      (not_starts_of_not_mem (by simp))
    rw [hv.hqi] at e1
    cases e1
    exact e2.2 hqi
  subst hvt
  have halt : a₂.alternativeCheck env = .ok (true, none) := by
    rcases C14_alternative_check env f hwf hqi.1 _ hns with ⟨-, e⟩ | ⟨e, -⟩
    · rw [f2.answer] at e
      cases hc : a₂.call env .alternativeCheck with
      | error x => rw [hc] at e; cases e
      | ok x =>
        rw [hc] at e
        obtain ⟨x1, x2⟩ := x
        cases e
        rcases alternative_result hc with ⟨-, e⟩ | ⟨l, L, e, e', -⟩
        · exact e
        · cases e
    · exact absurd hqi e
  have sq := sizes_of_unwrap q2 (.inr q3)
  have sb := sizes_of_unwrap b3 (.inr b4)
  have ss := sizes_of_unwrap p3 (.inr p4)
  refine ⟨true, T, Q, B, S, ⟨n, run, r.len, b.len, p.len, r.mean, b.mean, p.mean⟩, hv, ?_, rfl, rfl,
    unwrap_length q2, unwrap_length b3, unwrap_length p3, sq.mean, sb.mean, ss.mean,
    fun e => (ss.empty e).2.2⟩
  cases stellarlike <;> simp only [Bool.false_eq_true, if_false, if_true] at hf <;>
    simp [perfAnalyze, hf, bind, Except.bind, hlen, assertE, hn, q1, v1, halt, b1, p1]

/-- Results that are determined by the quorums. -/
theorem perf_core (env : Env) (run : ℕ) (stellarlike : Bool)
    (hf : (if stellarlike then makeAlmostIdealStellarlikeFbas n else makeAlmostIdealFbas n) = .ok f)
    (h : Almost f n q) (hqi : QuorumIntersection f)
    (hall : ∀ x, x < n → InTopTier f x) :
    ∃ Q B S : List NodeSet, ∃ d, perfAnalyze env n run stellarlike = .ok d ∧ d.topTierSize = n ∧
      d.run = run ∧ d.mqNumber = Q.length ∧ d.mbsNumber = B.length ∧ d.mssNumber = S.length ∧
      d.mqMean * Q.length = (Q.map Finset.card).sum ∧ d.mbsMean * B.length = (B.map Finset.card).sum ∧
      d.mssMean * S.length = (S.map Finset.card).sum ∧ (S = [] → d.mssMean = 0) ∧
      (∀ P, P ∈ Q ↔ IsMinQuorum f P) ∧ (∀ P, P ∈ B ↔ IsMinBlocking f P) ∧
      (∀ P, P ∈ S ↔ IsMinSplitting f P) ∧ Q.Nodup ∧ B.Nodup ∧ S.Nodup := by
  have hwf := h.wf
  have htop : ∀ T : NodeSet, (∀ x, x ∈ T ↔ InTopTier f x) → ∀ x, x ∈ T ↔ x < n := by
    intro T hT x
    rw [hT]
    refine ⟨?_, hall x⟩
    rintro ⟨P, hP, hx⟩
    rw [← h.len]
    exact Finset.mem_range.1 (hP.prop.subset_all hx)
  have hrel : ∀ x, x ∈ f.relevantNodes env ↔ x < n := by
    intro x
    constructor
    · intro hx
      rw [← h.len]
      obtain ⟨⟨P, hP, hxP⟩, -⟩ := (C08_relevant_iff env f hwf x).1 hx
      exact Finset.mem_range.1 (hP.subset_all hxP)
    · intro hx
      obtain ⟨P, hP, hx⟩ := hall x hx
      exact C08_contains_minQuorums env f hwf P hP hx
  have hnT : ∀ T : NodeSet, (∀ x, x ∈ T ↔ InTopTier f x) → ∀ f' sm, f.shrunken T = .ok (f', sm) →
      ∀ q, ¬ SymCluster f' q := fun T hT f' sm hs q' => h.noSym (htop T hT) hs q'
  have hnR : ∀ f' sm, f.shrunken (f.relevantNodes env) = .ok (f', sm) → ∀ q, ¬ SymCluster f' q :=
    fun f' sm hs q' => h.noSym hrel hs q'
  obtain ⟨v, T, Q, B, S, d, hv, hd, d1, d2, d3, d4, d5, d6, d7, d8, d9⟩ :=
    perf_ok env run stellarlike hf hwf h.len hqi
  have hQ : (∀ P, P ∈ Q ↔ IsMinQuorum f P) ∧ Q.Nodup := by
    obtain ⟨L', -, e1, -, -, e2⟩ := C27_minimal_quorums_as_sets_partial env _ hwf [] (.inl (by simp))
      (not_starts_of_not_mem (by simp))
    rw [hv.quorums] at e1
    cases e1
    refine ⟨e2, ?_⟩
    obtain ⟨-, s2⟩ := quorums_sorted env _ hwf hv.quorums
    exact nodup_of_before (s2 fun f' sm hs q' hq' => absurd hq' (hnR f' sm hs q'))
  have hB : (∀ P, P ∈ B ↔ IsMinBlocking f P) ∧ B.Pairwise Before := by
    obtain ⟨L, e1, e2, e3⟩ := C29_quorums_first_partial env f hwf
      (fun T hT f' sm hs q' hq' => absurd hq' (hnT T hT f' sm hs q')) hqi.1 [.minimalQuorums]
      (not_starts_of_head (c := .minimalQuorums) (by simp) (by simp))
    rw [hv.blocking] at e1
    cases e1
    exact ⟨e2, e3⟩
  have hS : (∀ P, P ∈ S ↔ IsMinSplitting f P) ∧ S.Pairwise Before := by
    obtain ⟨L, e1, e2, e3⟩ := C19_analysis_partial env f hwf hqi
      (fun T hT f' sm hs q' hq' => absurd hq' (hnT T hT f' sm hs q'))
      (fun f' sm hs q' hq' => absurd hq' (hnR f' sm hs q')) [.minimalQuorums]
      (not_starts_of_not_mem (by simp))
    rw [hv.splitting] at e1
    cases e1
    exact ⟨e2, e3⟩
  exact ⟨Q, B, S, d, hd, d1, d2, d3, d4, d5, d6, d7, d8, d9, hQ.1, hB.1, hS.1, hQ.2,
    nodup_of_before hB.2, nodup_of_before hS.2⟩

end
end FA.Bulk
