import Verif.SpecTidy
import Verif.Lemmas.FrontEndShape

/-!
# Lemmas: networks with a tidy top tier
-/

namespace FA
open Spec QuorumSet

section
variable {K : NodeSet}

theorem Spec.Sane.ne_empty {q : QuorumSet} (h : Sane q) : q ≠ QuorumSet.empty := by
  rintro rfl
  cases h with
  | intro _ h _ _ => exact absurd h (by decide)

theorem Spec.Sane.shrunken_ne_empty {q : QuorumSet} (h : Sane q) (m : Map ℕ ℕ) :
    q.shrunken m ≠ QuorumSet.empty := by
  intro he
  have := congrArg QuorumSet.threshold he
  rw [shrunken_threshold] at this
  cases h with
  | intro _ h _ _ => rw [this] at h; exact absurd h (by decide)

theorem shrunken_inner_of_sane {q : QuorumSet} (h : ∀ q' ∈ q.inner, Sane q') (m : Map ℕ ℕ) :
    (q.shrunken m).inner.Perm (q.inner.map (QuorumSet.shrunken m)) := by
  refine (shrunken_inner_perm m q).trans ?_
  rw [List.filter_eq_self.2]
  intro a ha
  obtain ⟨q', hq', rfl⟩ := List.mem_map.1 ha
  exact decide_eq_true ((h q' hq').shrunken_ne_empty m)

theorem shrunken_validators_length {q : QuorumSet} (h : ∀ y ∈ q.validators, y ∈ K) :
    (q.shrunken (ShrinkManager.new K).shrinkMap).validators.length = q.validators.length := by
  rw [(shrunken_validators_perm _ q).length_eq]
  generalize q.validators = vs at h ⊢
  induction vs with
  | nil => rfl
  | cons v vs ih =>
    obtain ⟨i, hi, he⟩ := un_surj (h v (by simp))
    rw [List.filterMap_cons, (shrinkMap_get? K v i).2 ⟨hi, he⟩]
    simpa using ih fun y hy => h y (by simp [hy])

/-- Restricting to nodes that include all listed ones changes only names and order. -/
theorem tidy_shrunken (q : QuorumSet) (hd : DupFree q) (hs : Sane q) (hm : ∀ y, Mentions q y → y ∈ K) :
    DupFree (q.shrunken (ShrinkManager.new K).shrinkMap) ∧
      Sane (q.shrunken (ShrinkManager.new K).shrinkMap) := by
  induction q using QuorumSet.induct with
  | h t vs qs ih =>
    obtain ⟨_, hv, hvi, hii, hi⟩ := hd
    obtain ⟨_, hpos, hle, hsi⟩ := hs
    set m := (ShrinkManager.new K).shrinkMap with hmdef
    have hp := shrunken_inner_of_sane (q := ⟨t, vs, qs⟩) hsi m
    have hl := shrunken_validators_length (q := ⟨t, vs, qs⟩) (K := K) fun y hy => hm y (.validator hy)
    have hin : ∀ q' ∈ (QuorumSet.shrunken m ⟨t, vs, qs⟩).inner, ∃ q₀ ∈ qs, q' = q₀.shrunken m := by
      intro q' hq'
      obtain ⟨q₀, h1, h2⟩ := List.mem_map.1 (hp.mem_iff.1 hq')
      exact ⟨q₀, h1, h2.symm⟩
    have hboth : ∀ q₀ ∈ qs, DupFree (q₀.shrunken m) ∧ Sane (q₀.shrunken m) := fun q₀ h =>
      ih q₀ h (hi q₀ h) (hsi q₀ h) fun y hy => hm y (.inner h hy)
    have hval : ∀ i, i ∈ (QuorumSet.shrunken m ⟨t, vs, qs⟩).validators → un K i ∈ vs := by
      intro i h
      rw [(shrunken_validators_perm m ⟨t, vs, qs⟩).mem_iff, List.mem_filterMap] at h
      obtain ⟨a, ha, hai⟩ := h
      rw [((shrinkMap_get? K a i).1 hai).2]; exact ha
    constructor
    · refine .intro _ ?_ ?_ ?_ ?_
      · rw [(shrunken_validators_perm m ⟨t, vs, qs⟩).nodup_iff]
        refine List.Nodup.filterMap ?_ hv
        intro a a' b hb hb'
        rw [Option.mem_def] at hb hb'
        rw [← ((shrinkMap_get? K a b).1 hb).2, ← ((shrinkMap_get? K a' b).1 hb').2]
      · intro q' hq' x hx hxv
        obtain ⟨q₀, h1, rfl⟩ := hin q' hq'
        exact hvi q₀ h1 _ (mentions_shrunken.1 hx).2 (hval x hxv)
      · refine (hp.pairwise_iff fun h x h1 h2 => h x h2 h1).2 (List.pairwise_map.2 (hii.imp ?_))
        intro a b hab x h1 h2
        exact hab _ (mentions_shrunken.1 h1).2 (mentions_shrunken.1 h2).2
      · intro q' hq'
        obtain ⟨q₀, h1, rfl⟩ := hin q' hq'
        exact (hboth q₀ h1).1
    · refine .intro _ ?_ ?_ ?_
      · rw [shrunken_threshold]; exact hpos
      · rw [shrunken_threshold, hl, hp.length_eq, List.length_map]; exact hle
      · intro q' hq'
        obtain ⟨q₀, h1, rfl⟩ := hin q' hq'
        exact (hboth q₀ h1).2

theorem Spec.Majority.shrunken {q : QuorumSet} (h : Majority q) (hs : Sane q)
    (hm : ∀ y, Mentions q y → y ∈ K) : Majority (q.shrunken (ShrinkManager.new K).shrinkMap) := by
  induction q using QuorumSet.induct with
  | h t vs qs ih =>
    obtain ⟨_, h1, h2, h3, h4⟩ := h
    obtain ⟨_, hpos, hle, hsi⟩ := hs
    have hp := shrunken_inner_of_sane (q := ⟨t, vs, qs⟩) hsi (ShrinkManager.new K).shrinkMap
    have hl := shrunken_validators_length (q := ⟨t, vs, qs⟩) (K := K) fun y hy => hm y (.validator hy)
    have hl' := hp.length_eq
    rw [List.length_map] at hl'
    refine .intro _ ?_ ?_ ?_ ?_
    · rw [shrunken_threshold, hl, hl']; exact h1
    · rw [shrunken_threshold, hl, hl']; exact h2
    · rw [shrunken_threshold, hl, hl']
      refine h3.imp_right fun hne he => hne ?_
      rw [he, List.length_nil] at hl'
      exact List.length_eq_zero_iff.1 hl'.symm
    · intro q' hq'
      obtain ⟨q₀, g1, rfl⟩ := List.mem_map.1 (hp.mem_iff.1 hq')
      exact ih q₀ g1 (h4 q₀ g1) (hsi q₀ g1) fun y hy => hm y (.inner g1 hy)

/-- A symmetric cluster of a restriction to any set of nodes has the quorum set of a node in
the top tier. -/
theorem cluster_of_topTier {f f' : Fbas} (hf' : IsShrunken f K f')
    {q : QuorumSet} (hq : SymCluster f' q) :
    ∃ x q₀, InTopTier f x ∧ HasQSet f x q₀ ∧ q = q₀.shrunken (ShrinkManager.new K).shrinkMap := by
  obtain ⟨h1, Q, hQ, h3⟩ := hq
  have hsub := hf'.quorum_subset hQ
  have hQ' := (hf'.isQuorum hsub).1 hQ
  obtain ⟨M, hM, hMs⟩ := hQ'.exists_min
  obtain ⟨y, hy⟩ := hM.prop.1
  obtain ⟨x, hx, rfl⟩ := Finset.mem_image.1 (hMs hy)
  obtain ⟨hlt, hqs⟩ := hasQSet_iff.1 (h1 x (h3 x hx))
  rw [hf'.len] at hlt
  rw [hf'.qset x hlt] at hqs
  obtain ⟨q₀, h4, -⟩ := hM.prop.2 _ hy
  refine ⟨un K x, q₀, ⟨M, hM, hy⟩, h4, ?_⟩
  rw [← (hasQSet_iff.1 h4).2]; exact hqs.symm

theorem Spec.TidyTopTier.shaped {f : Fbas} (h : TidyTopTier f) (hK : ∀ x, InTopTier f x → x ∈ K) :
    ShapedOn f K := by
  intro f' hf' q hq
  obtain ⟨x, q₀, h1, h2, rfl⟩ := cluster_of_topTier hf' hq
  obtain ⟨h3, h4, h5⟩ := h x q₀ h1 h2
  exact tidy_shrunken q₀ h3 h4 fun y hy => hK y (h5 y hy)

theorem Spec.TidyTopTier.majority {f f' : Fbas} (h : TidyTopTier f) (hm : MajoritiesInside f)
    (hK : ∀ x, InTopTier f x → x ∈ K) (hf' : IsShrunken f K f') {q : QuorumSet} (hq : SymCluster f' q) :
    ∀ q' ∈ q.inner, Majority q' := by
  obtain ⟨x, q₀, h1, h2, rfl⟩ := cluster_of_topTier hf' hq
  obtain ⟨h3, h4, h5⟩ := h x q₀ h1 h2
  obtain ⟨_, -, -, hsi⟩ := h4
  intro q' hq'
  obtain ⟨q₁, g1, rfl⟩ := List.mem_map.1 ((shrunken_inner_of_sane hsi _).mem_iff.1 hq')
  exact (hm x q₀ h1 h2 q₁ g1).shrunken (hsi q₁ g1) fun y hy => hK y (h5 y (.inner g1 hy))

theorem Spec.TidyTopTier.dupFree {f : Fbas} (h : TidyTopTier f) {q : QuorumSet} (hq : SymCluster f q) :
    DupFree q := by
  obtain ⟨h1, Q, hQ, h3⟩ := hq
  obtain ⟨M, hM, hMs⟩ := hQ.exists_min
  obtain ⟨y, hy⟩ := hM.prop.1
  exact (h y q ⟨M, hM, hy⟩ (h1 y (h3 y (hMs hy)))).1

end

/-- Without quorum intersection (but with quorums) only the empty set is a minimal splitting set. -/
theorem isMinSplitting_of_not_intersection {f : Fbas} (hq : ∃ Q, IsQuorum f Q)
    (h : ¬ QuorumIntersection f) (S : NodeSet) : IsMinSplitting f S ↔ S = ∅ := by
  have h0 : Splitting f ∅ := by
    unfold QuorumIntersection at h
    push Not at h
    obtain ⟨Q₁, Q₂, h1, h2, h3⟩ := h hq
    obtain ⟨M₁, hM₁, hs₁⟩ := h1.exists_min
    obtain ⟨M₂, hM₂, hs₂⟩ := h2.exists_min
    obtain ⟨x, hx⟩ := hM₁.prop.1
    refine ⟨M₁, M₂, hM₁, hM₂, fun he => h3 x (hs₁ hx) (hs₂ (he ▸ hx)), fun y hy => ?_⟩
    obtain ⟨a, b⟩ := Finset.mem_inter.1 hy
    exact absurd (hs₂ b) (h3 y (hs₁ a))
  constructor
  · intro hS
    exact Finset.subset_empty.1 (hS.le_of_le h0 (Finset.empty_subset S))
  · rintro rfl
    exact ⟨h0, fun T _ _ => Finset.empty_subset T⟩

end FA
