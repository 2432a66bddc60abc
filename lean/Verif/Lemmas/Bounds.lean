import Verif.Lemmas.ToolRun
import Verif.Props.Blocking

/-!
# Bounds on the sizes of minimal sets
-/

namespace FA
open Spec

/-! ### A property of sets and its dual -/

/-- For every element of a minimal set whose complement lacks `A`, there is a minimal set with `A` that has
only this element in common with it. -/
theorem exists_meet_singleton {R : NodeSet} {A B : NodeSet → Prop}
    (hA : ∀ G H, G ⊆ H → A G → A H) (hAB : ∀ G ⊆ R, B G ↔ ¬ A (R \ G))
    {G : NodeSet} (hG : Minimal (fun G => G ⊆ R ∧ B G) G) {x : NodeId} (hx : x ∈ G) :
    ∃ H, Minimal (fun H => H ⊆ R ∧ A H) H ∧ H ∩ G = {x} := by
  have hs : G.erase x ⊆ R := (Finset.erase_subset _ _).trans hG.1.1
  have h1 : A (R \ G.erase x) := by
    by_contra hc
    have := hG.2 (y := G.erase x) ⟨hs, (hAB _ hs).2 hc⟩ (Finset.erase_subset _ _)
    exact absurd (this hx) (Finset.notMem_erase x G)
  obtain ⟨H, h2, h3⟩ := exists_minimal_le_of_wellFoundedLT (fun H => H ⊆ R ∧ A H) _
    ⟨Finset.sdiff_subset, h1⟩
  refine ⟨H, h3, ?_⟩
  have h4 : H ∩ G ⊆ {x} := fun y hy => by
    rw [Finset.mem_inter] at hy
    have := Finset.mem_sdiff.1 (h2 hy.1)
    by_contra hne
    exact this.2 (Finset.mem_erase.2 ⟨by simpa using hne, hy.2⟩)
  rcases Finset.subset_singleton_iff.1 h4 with h5 | h5
  · refine absurd (hA _ _ (fun y hy => ?_) h3.1.2) ((hAB G hG.1.1).1 hG.1.2)
    refine Finset.mem_sdiff.2 ⟨h3.1.1 hy, fun hyG => ?_⟩
    have : y ∈ H ∩ G := Finset.mem_inter.2 ⟨hy, hyG⟩
    simp [h5] at this
  · exact h5

theorem dual_symm {R : NodeSet} {A B : NodeSet → Prop} (hAB : ∀ G ⊆ R, B G ↔ ¬ A (R \ G)) :
    ∀ G ⊆ R, A G ↔ ¬ B (R \ G) := by
  intro G hG
  rw [hAB _ Finset.sdiff_subset, Finset.sdiff_sdiff_eq_self hG, not_not]

theorem card_of_meet_singleton {T G H : NodeSet} {x : NodeId} (hG : G ⊆ T) (hH : H ⊆ T)
    (h : H ∩ G = {x}) : H.card + G.card ≤ T.card + 1 := by
  have h1 := Finset.card_union_add_card_inter H G
  rw [h, Finset.card_singleton] at h1
  have h2 := Finset.card_le_card (Finset.union_subset hH hG)
  omega

/-! ### Groups -/

section
variable {gs : List Grouping} {f : Fbas}

theorem sameGroup_symm {x y : NodeId} (h : SameGroup gs x y) : SameGroup gs y x := by
  rcases h with rfl | ⟨o, h1, h2, h3⟩
  · exact .inl rfl
  · exact .inr ⟨o, h1, h3, h2⟩

theorem sameGroup_trans (hd : DisjointGroups gs) {x y z : NodeId} (h : SameGroup gs x y)
    (h' : SameGroup gs y z) : SameGroup gs x z := by
  rcases h with rfl | ⟨o, h1, h2, h3⟩
  · exact h'
  rcases h' with rfl | ⟨o', h4, h5, h6⟩
  · exact .inr ⟨o, h1, h2, h3⟩
  · exact .inr ⟨o, h1, h2, by rw [hd o h1 o' h4 y h3 h5]; exact h6⟩

theorem exists_representative (hd : DisjointGroups gs) (he : MembersExist gs f) {y : NodeId}
    (hy : y < f.nodes.length) : ∃ x, Representative gs f x ∧ SameGroup gs x y := by
  by_cases h : ∃ org ∈ gs, y ∈ org.validators
  · obtain ⟨org, ho, hyo⟩ := h
    obtain ⟨x, hx⟩ : ∃ x, org.validators.head? = some x := by
      cases hv : org.validators with
      | nil => rw [hv] at hyo; simp at hyo
      | cons a l => exact ⟨a, rfl⟩
    have hxm := List.mem_of_mem_head? (by rw [hx]; rfl : x ∈ org.validators.head?)
    refine ⟨x, ⟨he org ho x hxm, fun o' ho' hx' => ?_⟩, .inr ⟨org, ho, hxm, hyo⟩⟩
    rw [hd o' ho' org ho x hx' hxm]; exact hx
  · push Not at h
    exact ⟨y, ⟨hy, fun o ho hyo => absurd hyo (h o ho)⟩, .inl rfl⟩

theorem representative_unique {x y : NodeId} (hx : Representative gs f x) (hy : Representative gs f y)
    (h : SameGroup gs x y) : x = y := by
  rcases h with rfl | ⟨o, h1, h2, h3⟩
  · rfl
  · have e1 := hx.2 o h1 h2
    rw [hy.2 o h1 h3] at e1
    exact (Option.some.inj e1).symm

open Classical in
/-- All representatives. -/
noncomputable def reps (gs : List Grouping) (f : Fbas) : NodeSet :=
  (Finset.range f.nodes.length).filter (Representative gs f)

theorem mem_reps {x : NodeId} : x ∈ reps gs f ↔ Representative gs f x := by
  simp only [reps, Finset.mem_filter, Finset.mem_range]
  exact ⟨fun h => h.2, fun h => ⟨h.1, h⟩⟩

theorem subset_reps {G : NodeSet} : G ⊆ reps gs f ↔ ∀ x ∈ G, Representative gs f x :=
  ⟨fun h _ hx => mem_reps.1 (h hx), fun h x hx => mem_reps.2 (h x hx)⟩

theorem mem_expand' {G : NodeSet} {y : NodeId} :
    y ∈ expand gs f G ↔ y < f.nodes.length ∧ ∃ x ∈ G, SameGroup gs x y := by
  simp [expand]

theorem expand_mono {G H : NodeSet} (h : G ⊆ H) : expand gs f G ⊆ expand gs f H := by
  intro y hy
  rw [mem_expand'] at hy ⊢
  obtain ⟨h1, x, h2, h3⟩ := hy
  exact ⟨h1, x, h h2, h3⟩

theorem mem_expand_compl (hd : DisjointGroups gs) (he : MembersExist gs f) {G : NodeSet}
    (hG : G ⊆ reps gs f) {y : NodeId} (hy : y < f.nodes.length) :
    y ∈ expand gs f (reps gs f \ G) ↔ y ∉ expand gs f G := by
  simp only [mem_expand', hy, true_and, Finset.mem_sdiff, mem_reps]
  constructor
  · rintro ⟨x, ⟨h1, h2⟩, h3⟩ ⟨x', h4, h5⟩
    have := representative_unique h1 (mem_reps.1 (hG h4)) (sameGroup_trans hd h3 (sameGroup_symm h5))
    exact h2 (this ▸ h4)
  · intro h
    obtain ⟨x, h1, h2⟩ := exists_representative hd he hy
    exact ⟨x, ⟨h1, fun hx => h ⟨x, hx, h2⟩⟩, h2⟩

theorem blocking_iff_compl (hd : DisjointGroups gs) (he : MembersExist gs f) (G : NodeSet)
    (hG : G ⊆ reps gs f) :
    Blocking f (expand gs f G) ↔ ¬ ContainsQuorum f (expand gs f (reps gs f \ G)) := by
  constructor
  · rintro h ⟨Q, hQ, hs⟩
    obtain ⟨x, hx, hx'⟩ := h Q hQ
    exact (mem_expand_compl hd he hG (mem_expand'.1 hx').1).1 (hs hx) hx'
  · intro h Q hQ
    by_contra hc
    push Not at hc
    refine h ⟨Q, hQ, fun y hy => ?_⟩
    exact (mem_expand_compl hd he hG (by simpa [Fbas.allNodes] using hQ.subset_all hy)).2 (hc y hy)

theorem containsQuorum_mono {S T : NodeSet} (h : S ⊆ T) (hS : ContainsQuorum f S) :
    ContainsQuorum f T := by
  obtain ⟨Q, h1, h2⟩ := hS
  exact ⟨Q, h1, h2.trans h⟩

theorem minimalGroupSets_iff {P : NodeSet → Prop} {L : List NodeSet} :
    MinimalGroupSets gs f P L ↔
      ∀ G, G ∈ L ↔ Minimal (fun G => G ⊆ reps gs f ∧ P (expand gs f G)) G := by
  unfold MinimalGroupSets
  simp only [subset_reps]

theorem groupQuorum_subset {T : NodeSet}
    (hT : GroupsOf gs f (InTopTier f) T) {H : NodeSet}
    (hH : Minimal (fun G => G ⊆ reps gs f ∧ ContainsQuorum f (expand gs f G)) H) : H ⊆ T := by
  classical
  obtain ⟨Q₀, hQ₀, hs₀⟩ := hH.1.2
  obtain ⟨Q, hQ, hs⟩ := hQ₀.exists_min
  have hsub : Q ⊆ expand gs f (H.filter (fun x => ∃ y ∈ Q, SameGroup gs x y)) := fun y hy => by
    obtain ⟨h1, x, h2, h3⟩ := mem_expand'.1 (hs₀ (hs hy))
    exact mem_expand'.2 ⟨h1, x, Finset.mem_filter.2 ⟨h2, y, hy, h3⟩, h3⟩
  have := hH.2 (y := H.filter (fun x => ∃ y ∈ Q, SameGroup gs x y))
    ⟨(Finset.filter_subset _ _).trans hH.1.1, Q, hQ.prop, hsub⟩ (Finset.filter_subset _ _)
  intro x hx
  obtain ⟨-, y, hy, hxy⟩ := Finset.mem_filter.1 (this hx)
  exact (hT x).2 ⟨mem_reps.1 (hH.1.1 hx), y, ⟨Q, hQ, hy⟩, sameGroup_symm hxy⟩

variable {T : NodeSet} {q b s : List NodeSet}

/-- Every minimal blocking set has a minimal quorum that together with it is not larger than the top tier
plus one. -/
theorem group_blocking_bound (hd : DisjointGroups gs) (he : MembersExist gs f)
    (hT : GroupsOf gs f (InTopTier f) T) (hq : MinimalGroupSets gs f (ContainsQuorum f) q)
    (hb : MinimalGroupSets gs f (Blocking f) b) (hex : ∃ Q, IsQuorum f Q) :
    (∀ B ∈ b, ∃ Q ∈ q, Q.card + B.card ≤ T.card + 1) ∧
      ∀ Q ∈ q, ∃ B ∈ b, Q.card + B.card ≤ T.card + 1 := by
  rw [minimalGroupSets_iff] at hq hb
  have hAB := blocking_iff_compl hd he
  have hBA := dual_symm (A := fun G => ContainsQuorum f (expand gs f G)) (B := fun G => Blocking f (expand gs f G))
    hAB
  have hmA : ∀ G H, G ⊆ H → ContainsQuorum f (expand gs f G) → ContainsQuorum f (expand gs f H) :=
    fun G H h => containsQuorum_mono (expand_mono h)
  have hmB : ∀ G H, G ⊆ H → Blocking f (expand gs f G) → Blocking f (expand gs f H) :=
    fun G H h => Blocking.mono _ _ (expand_mono h)
  have hsB : ∀ B ∈ b, B ⊆ T := by
    intro B hB x hx
    obtain ⟨H, h1, h2⟩ := exists_meet_singleton hmA hAB ((hb B).1 hB) hx
    have : x ∈ H ∩ B := by rw [h2]; simp
    exact groupQuorum_subset hT h1 (Finset.mem_inter.1 this).1
  have hsQ : ∀ Q ∈ q, Q ⊆ T := fun Q hQ => groupQuorum_subset hT ((hq Q).1 hQ)
  constructor
  · intro B hB
    have hne : B.Nonempty := by
      rw [Finset.nonempty_iff_ne_empty]
      rintro rfl
      obtain ⟨Q, hQ⟩ := hex
      obtain ⟨x, -, hx⟩ := ((hb ∅).1 hB).1.2 Q hQ
      simp [mem_expand'] at hx
    obtain ⟨x, hx⟩ := hne
    obtain ⟨H, h1, h2⟩ := exists_meet_singleton hmA hAB ((hb B).1 hB) hx
    exact ⟨H, (hq H).2 h1, card_of_meet_singleton (hsB B hB) (hsQ H ((hq H).2 h1)) h2⟩
  · intro Q hQ
    have hne : Q.Nonempty := by
      rw [Finset.nonempty_iff_ne_empty]
      rintro rfl
      obtain ⟨P, hP, hs⟩ := ((hq ∅).1 hQ).1.2
      obtain ⟨x, hx⟩ := hP.1
      have := hs hx
      simp [mem_expand'] at this
    obtain ⟨x, hx⟩ := hne
    obtain ⟨H, h1, h2⟩ := exists_meet_singleton hmB hBA ((hq Q).1 hQ) hx
    refine ⟨H, (hb H).2 h1, ?_⟩
    have := card_of_meet_singleton (hsQ Q hQ) (hsB H ((hb H).2 h1)) h2
    omega

theorem group_quorum_exists (hd : DisjointGroups gs) (he : MembersExist gs f)
    (hq : MinimalGroupSets gs f (ContainsQuorum f) q) (hex : ∃ Q, IsQuorum f Q) : q ≠ [] := by
  rw [minimalGroupSets_iff] at hq
  obtain ⟨Q, hQ⟩ := hex
  obtain ⟨H, -, h⟩ := exists_minimal_le_of_wellFoundedLT
    (fun G => G ⊆ reps gs f ∧ ContainsQuorum f (expand gs f G)) (reps gs f)
    ⟨Finset.Subset.refl _, Q, hQ, fun y hy => by
      have hy' : y < f.nodes.length := by simpa [Fbas.allNodes] using hQ.subset_all hy
      obtain ⟨x, h1, h2⟩ := exists_representative hd he hy'
      exact mem_expand'.2 ⟨hy', x, mem_reps.2 h1, h2⟩⟩
  intro hc
  have := (hq H).2 h
  simp [hc] at this

theorem group_quorum_nonempty (hq : MinimalGroupSets gs f (ContainsQuorum f) q) :
    ∀ Q ∈ q, 1 ≤ Q.card := by
  intro Q hQ
  obtain ⟨P, hP, hs⟩ := ((hq Q).1 hQ).1.2
  obtain ⟨x, hx⟩ := hP.1
  obtain ⟨-, y, hy, -⟩ := mem_expand'.1 (hs hx)
  exact Finset.card_pos.2 ⟨y, hy⟩

theorem group_blocking_nonempty (hb : MinimalGroupSets gs f (Blocking f) b) (hex : ∃ Q, IsQuorum f Q) :
    ∀ B ∈ b, 1 ≤ B.card := by
  intro B hB
  obtain ⟨Q, hQ⟩ := hex
  obtain ⟨x, -, hx⟩ := ((hb B).1 hB).1.2 Q hQ
  obtain ⟨-, y, hy, -⟩ := mem_expand'.1 hx
  exact Finset.card_pos.2 ⟨y, hy⟩

theorem group_splitting_nonempty (hs : MinimalGroupSets gs f (Splitting f) s) (hqi : QuorumIntersection f) :
    ∀ S ∈ s, 1 ≤ S.card := by
  intro S hS
  obtain ⟨P, Q, hP, hQ, -, h⟩ := ((hs S).1 hS).1.2
  obtain ⟨x, hx, hx'⟩ := hqi.2 P Q hP.prop hQ.prop
  obtain ⟨-, y, hy, -⟩ := mem_expand'.1 (h (Finset.mem_inter.2 ⟨hx, hx'⟩))
  exact Finset.card_pos.2 ⟨y, hy⟩

/-- With quorum intersection, every minimal quorum contains a minimal blocking set. -/
theorem group_blocking_le (hq : MinimalGroupSets gs f (ContainsQuorum f) q)
    (hb : MinimalGroupSets gs f (Blocking f) b) (hqi : QuorumIntersection f) :
    ∀ Q ∈ q, ∃ B ∈ b, B ⊆ Q := by
  rw [minimalGroupSets_iff] at hq hb
  intro Q hQ
  obtain ⟨⟨h1, P, hP, hs⟩, -⟩ := (hq Q).1 hQ
  obtain ⟨B, h2, h3⟩ := exists_minimal_le_of_wellFoundedLT
    (fun G => G ⊆ reps gs f ∧ Blocking f (expand gs f G)) Q
    ⟨h1, fun R hR => by
      obtain ⟨x, hx, hx'⟩ := hqi.2 R P hR hP
      exact ⟨x, hx, hs hx'⟩⟩
  exact ⟨B, (hb B).2 h3, h2⟩

/-- If there are different minimal quorums, then every minimal quorum (of groups) contains a minimal splitting
set. -/
theorem group_splitting_le (hq : MinimalGroupSets gs f (ContainsQuorum f) q)
    (hs : MinimalGroupSets gs f (Splitting f) s)
    (h2 : ∃ P Q, IsMinQuorum f P ∧ IsMinQuorum f Q ∧ P ≠ Q) : ∀ Q ∈ q, ∃ S ∈ s, S ⊆ Q := by
  rw [minimalGroupSets_iff] at hq hs
  intro Q hQ
  obtain ⟨⟨h1, P₀, hP₀, hs₀⟩, -⟩ := (hq Q).1 hQ
  obtain ⟨P, hP, hPs⟩ := hP₀.exists_min
  have hsp : Splitting f (expand gs f Q) := by
    obtain ⟨P₁, P₂, g1, g2, g3⟩ := h2
    by_cases h : P = P₁
    · exact ⟨P, P₂, hP, g2, by rw [h]; exact g3, Finset.inter_subset_left.trans (hPs.trans hs₀)⟩
    · exact ⟨P, P₁, hP, g1, h, Finset.inter_subset_left.trans (hPs.trans hs₀)⟩
  obtain ⟨S, h3, h4⟩ := exists_minimal_le_of_wellFoundedLT
    (fun G => G ⊆ reps gs f ∧ Splitting f (expand gs f G)) Q ⟨h1, hsp⟩
  exact ⟨S, (hs S).2 h4, h3⟩

end

/-! ### Nodes -/

section
variable {f : Fbas} {T : NodeSet}

/-- A minimal splitting set is the intersection of two minimal quorums, whose sizes are bounded by it. -/
theorem splitting_bound (hT : ∀ x, x ∈ T ↔ InTopTier f x) {S : NodeSet} (hS : IsMinSplitting f S) :
    ∃ P Q, IsMinQuorum f P ∧ IsMinQuorum f Q ∧ P ≠ Q ∧ P.card + Q.card ≤ T.card + S.card := by
  obtain ⟨⟨P, Q, hP, hQ, hne, hs⟩, hm⟩ := hS
  have : S = P ∩ Q := Finset.Subset.antisymm (hm ⟨P, Q, hP, hQ, hne, le_rfl⟩ hs) hs
  refine ⟨P, Q, hP, hQ, hne, ?_⟩
  have h1 := Finset.card_union_add_card_inter P Q
  have h2 : (P ∪ Q).card ≤ T.card := Finset.card_le_card (fun x hx => (hT x).2 (by
    rcases Finset.mem_union.1 hx with h | h
    · exact ⟨P, hP, h⟩
    · exact ⟨Q, hQ, h⟩))
  rw [← this] at h1
  omega

/-- If there are different minimal quorums, then every minimal quorum has a smaller minimal splitting set in
it. -/
theorem splitting_lt (h2 : ∃ P Q, IsMinQuorum f P ∧ IsMinQuorum f Q ∧ P ≠ Q) {Q : NodeSet}
    (hQ : IsMinQuorum f Q) : ∃ S, IsMinSplitting f S ∧ S.card < Q.card := by
  obtain ⟨P, hP, hne⟩ : ∃ P, IsMinQuorum f P ∧ Q ≠ P := by
    obtain ⟨P₁, P₂, g1, g2, g3⟩ := h2
    by_cases h : Q = P₁
    · exact ⟨P₂, g2, by rw [h]; exact g3⟩
    · exact ⟨P₁, g1, h⟩
  obtain ⟨S, h3, h4⟩ := exists_minimal_le_of_wellFoundedLT (Splitting f) (Q ∩ P)
    ⟨Q, P, hQ, hP, hne, le_rfl⟩
  refine ⟨S, h4, (Finset.card_le_card h3).trans_lt (Finset.card_lt_card ?_)⟩
  refine ⟨Finset.inter_subset_left, fun hc => ?_⟩
  exact hne (hP.eq_of_subset hQ.prop (fun x hx => (Finset.mem_inter.1 (hc hx)).2))

end
end FA
