import Verif.Lemmas.Bounds
import Verif.Lemmas.Merge
import Verif.Lemmas.Orgs
import Verif.Props.Groupings
import Verif.SpecMergedOrgs
import Verif.SpecTool

/-!
# Networks of organizations, merged by organization
-/

namespace FA
open Spec Groupings Props

section
variable {gs : List Grouping} {orgs : Finset NodeSet} {need : NodeSet → ℕ} {f : Fbas} {R : NodeSet}

/-- Nodes in the group of a node of an organization are nodes of this organization. -/
theorem mem_org_iff (hd : DisjointGroups gs) (hg : AreOrgs gs orgs) {o : NodeSet} (ho : o ∈ orgs) {x y : ℕ}
    (hx : x ∈ o) : SameGroup gs x y ↔ y ∈ o := by
  obtain ⟨org, h1, rfl⟩ := hg o ho
  rw [List.mem_toFinset] at hx ⊢
  constructor
  · rintro (rfl | ⟨org', h2, h3, h4⟩)
    · exact hx
    · rw [hd org h1 org' h2 x hx h3]
      exact h4
  · intro hy
    exact .inr ⟨org, h1, hx, hy⟩

theorem exists_firstMembers (gs : List Grouping) (orgs : Finset NodeSet) : ∃ R, FirstMembers gs orgs R := by
  refine ⟨((gs.filter fun org => decide (org.validators.toFinset ∈ orgs)).filterMap
    fun org => org.validators.head?).toFinset, fun x => ?_⟩
  rw [List.mem_toFinset, List.mem_filterMap]
  simp only [List.mem_filter, decide_eq_true_iff, and_assoc]

/-- Exactly the representatives of organizations. -/
theorem firstMembers_iff (hd : DisjointGroups gs) (hg : AreOrgs gs orgs) (hR : FirstMembers gs orgs R)
    (hlt : ∀ o ∈ orgs, ∀ x ∈ o, x < f.nodes.length) (x : ℕ) :
    x ∈ R ↔ Representative gs f x ∧ ∃ o ∈ orgs, x ∈ o := by
  rw [hR]
  constructor
  · rintro ⟨org, h1, h2, h3⟩
    have hx := mem_of_head? h3
    refine ⟨⟨hlt _ h2 x (List.mem_toFinset.2 hx), fun org' h4 h5 => ?_⟩, _, h2, List.mem_toFinset.2 hx⟩
    rw [hd org' h4 org h1 x h5 hx, h3]
  · rintro ⟨⟨-, h1⟩, o, ho, hx⟩
    obtain ⟨org, h2, rfl⟩ := hg o ho
    exact ⟨org, h2, ho, h1 org h2 (List.mem_toFinset.1 hx)⟩

/-- Every organization has exactly one representative. -/
theorem rep_unique (hd : DisjointGroups gs) (hg : AreOrgs gs orgs) (hR : FirstMembers gs orgs R)
    {o : NodeSet} (ho : o ∈ orgs) {x y : ℕ} (hx : x ∈ R) (hy : y ∈ R) (hxo : x ∈ o) (hyo : y ∈ o) :
    x = y := by
  obtain ⟨org, h1, h2, h3⟩ := (hR x).1 hx
  obtain ⟨org', h1', h2', h3'⟩ := (hR y).1 hy
  have h4 := (mem_org_iff hd hg ho hxo).2 hyo
  rcases h4 with rfl | ⟨org'', h4, h5, h6⟩
  · rfl
  · have e1 := hd org h1 org'' h4 x (mem_of_head? h3) h5
    have e2 := hd org' h1' org'' h4 y (mem_of_head? h3') h6
    rw [e1] at h3
    rw [e2, h3] at h3'
    exact Option.some.inj h3'

theorem rep_exists (hg : AreOrgs gs orgs) (hR : FirstMembers gs orgs R)
    (hne : ∀ o ∈ orgs, 1 ≤ o.card) {o : NodeSet} (ho : o ∈ orgs) : ∃ x ∈ R, x ∈ o := by
  obtain ⟨org, h1, rfl⟩ := hg o ho
  obtain ⟨x, hx⟩ := Finset.card_pos.1 (hne _ ho)
  cases hv : org.validators.head? with
  | none =>
    rw [List.head?_eq_none_iff.1 hv] at hx
    exact absurd hx (by simp)
  | some y => exact ⟨y, (hR y).2 ⟨org, h1, ho, hv⟩, List.mem_toFinset.2 (mem_of_head? hv)⟩

/-- As many organizations as representatives in `G`. -/
theorem card_hit (hd : DisjointGroups gs) (hg : AreOrgs gs orgs) (hR : FirstMembers gs orgs R)
    (hdis : ∀ o ∈ orgs, ∀ o' ∈ orgs, ∀ x, x ∈ o → x ∈ o' → o = o')
    (hlt : ∀ o ∈ orgs, ∀ x ∈ o, x < f.nodes.length) (G : NodeSet) :
    (orgs.filter fun o => ∃ x ∈ G ∩ R, x ∈ o).card = (G ∩ R).card := by
  symm
  have key : ∀ x ∈ G ∩ R, ∃ o ∈ orgs, x ∈ o := fun x hx =>
    ((firstMembers_iff hd hg hR hlt x).1 (Finset.mem_inter.1 hx).2).2
  choose! φ h1 h2 using key
  refine Finset.card_bij (fun x _ => φ x) (fun x hx => ?_) (fun x hx y hy he => ?_) fun o ho => ?_
  · exact Finset.mem_filter.2 ⟨h1 x hx, x, hx, h2 x hx⟩
  · exact rep_unique hd hg hR (h1 x hx) (Finset.mem_inter.1 hx).2 (Finset.mem_inter.1 hy).2 (h2 x hx)
      (he ▸ h2 y hy)
  · obtain ⟨h3, x, h4, h5⟩ := Finset.mem_filter.1 ho
    exact ⟨x, h4, hdis _ (h1 x h4) _ h3 x (h2 x h4) h5⟩

/-- If all nodes of the groups in `G` agree, then exactly the organizations in `G` do. -/
theorem agreeing_expand (hd : DisjointGroups gs) (hg : AreOrgs gs orgs) (hR : FirstMembers gs orgs R)
    (hdis : ∀ o ∈ orgs, ∀ o' ∈ orgs, ∀ x, x ∈ o → x ∈ o' → o = o')
    (hlt : ∀ o ∈ orgs, ∀ x ∈ o, x < f.nodes.length) (hn : ∀ o ∈ orgs, 1 ≤ need o ∧ need o ≤ o.card)
    {G : NodeSet} (hG : ∀ x ∈ G, Representative gs f x) :
    (agreeing orgs need (expand gs f G)).card = (G ∩ R).card := by
  rw [← card_hit hd hg hR hdis hlt G]
  congr 1
  ext o
  rw [mem_agreeing, Finset.mem_filter]
  refine and_congr_right fun ho => ?_
  constructor
  · intro h
    obtain ⟨y, hy⟩ := Finset.card_pos.1 (lt_of_lt_of_le (hn o ho).1 h)
    obtain ⟨h1, h2⟩ := Finset.mem_inter.1 hy
    obtain ⟨-, x, hx, hs⟩ := mem_expand.1 h1
    have hxo := (mem_org_iff hd hg ho h2).1 (sameGroup_symm hs)
    exact ⟨x, Finset.mem_inter.2 ⟨hx, (firstMembers_iff hd hg hR hlt x).2 ⟨hG x hx, o, ho, hxo⟩⟩, hxo⟩
  · rintro ⟨x, hx, hxo⟩
    refine (hn o ho).2.trans (Finset.card_le_card fun y hy => Finset.mem_inter.2 ⟨?_, hy⟩)
    exact mem_expand.2 ⟨hlt o ho y hy, x, (Finset.mem_inter.1 hx).1, (mem_org_iff hd hg ho hxo).2 hy⟩

/-- A property of sets of nodes that holds iff `k` organizations agree. -/
theorem minimalGroupSets_orgs (hd : DisjointGroups gs) (hg : AreOrgs gs orgs) (hR : FirstMembers gs orgs R)
    (hdis : ∀ o ∈ orgs, ∀ o' ∈ orgs, ∀ x, x ∈ o → x ∈ o' → o = o')
    (hlt : ∀ o ∈ orgs, ∀ x ∈ o, x < f.nodes.length) (hn : ∀ o ∈ orgs, 1 ≤ need o ∧ need o ≤ o.card)
    {P : NodeSet → Prop} {k : ℕ} (hP : ∀ S, P S ↔ k ≤ (agreeing orgs need S).card) (G : NodeSet) :
    Minimal (fun G => (∀ x ∈ G, Representative gs f x) ∧ P (expand gs f G)) G ↔ G ⊆ R ∧ G.card = k := by
  have hrep : ∀ {G : NodeSet}, G ⊆ R → ∀ x ∈ G, Representative gs f x :=
    fun h x hx => ((firstMembers_iff hd hg hR hlt x).1 (h hx)).1
  have hcard : ∀ {G : NodeSet}, (∀ x ∈ G, Representative gs f x) → (P (expand gs f G) ↔ k ≤ (G ∩ R).card) :=
    fun h => by rw [hP, agreeing_expand hd hg hR hdis hlt hn h]
  constructor
  · intro h
    obtain ⟨h1, h2⟩ := h.prop
    rw [hcard h1] at h2
    obtain ⟨G', h3, h4⟩ := Finset.exists_subset_card_eq h2
    have h5 : G' ⊆ R := h3.trans Finset.inter_subset_right
    have h6 : G ⊆ G' := h.le_of_le ⟨hrep h5, (hcard (hrep h5)).2 (by
      rw [Finset.inter_eq_left.2 h5, h4])⟩ (h3.trans Finset.inter_subset_left)
    have h7 : G' ⊆ G := h3.trans Finset.inter_subset_left
    have : G = G' := Finset.Subset.antisymm h6 h7
    subst this
    exact ⟨h5, h4⟩
  · rintro ⟨h1, h2⟩
    refine ⟨⟨hrep h1, (hcard (hrep h1)).2 (by rw [Finset.inter_eq_left.2 h1, h2])⟩, fun G' h3 h4 => ?_⟩
    have h5 := (hcard h3.1).1 h3.2
    have h6 : G' ⊆ R := fun x hx => h1 (h4 hx)
    rw [Finset.inter_eq_left.2 h6] at h5
    exact (Finset.eq_of_subset_of_card_le h4 (by omega)).ge

theorem card_firstMembers (hd : DisjointGroups gs) (hg : AreOrgs gs orgs) (hR : FirstMembers gs orgs R)
    (hdis : ∀ o ∈ orgs, ∀ o' ∈ orgs, ∀ x, x ∈ o → x ∈ o' → o = o')
    (hlt : ∀ o ∈ orgs, ∀ x ∈ o, x < f.nodes.length) (hne : ∀ o ∈ orgs, 1 ≤ o.card) :
    R.card = orgs.card := by
  rw [← Finset.inter_self R, ← card_hit hd hg hR hdis hlt R]
  congr 1
  refine Finset.filter_true_of_mem fun o ho => ?_
  obtain ⟨x, h1, h2⟩ := rep_exists hg hR hne ho
  exact ⟨x, Finset.mem_inter.2 ⟨h1, h1⟩, h2⟩

end

/-! ## The merged quorum set -/

section
variable {gs : List Grouping} {orgs : Finset NodeSet} {need : NodeSet → ℕ} {f : Fbas} {R : NodeSet}
  {q : QuorumSet}

theorem mergeFinish_const {t v : ℕ} {vs : List ℕ} (hne : vs ≠ []) (h : ∀ x ∈ vs, x = v) :
    mergeFinish t vs [] = ⟨1, [v], []⟩ := by
  rcases mergeFinish_eq t vs [] with ⟨w, h1, h2, h3⟩ | ⟨h1, -⟩
  · have hw : w ∈ vs := by simpa [collected] using h1
    rw [h3, h w hw]
    rfl
  · obtain ⟨a, l, rfl⟩ := List.exists_cons_of_ne_nil hne
    obtain ⟨b, h2, h3⟩ := h1 a (by simp [collected])
    have hb : b ∈ a :: l := by simpa [collected] using h2
    exact absurd ((h b hb).trans (h a (by simp)).symm) h3

/-- Merging by organization turns the quorum set into a flat one with one validator per organization. -/
theorem Spec.OrgCore.merged (h : OrgCore f orgs need q) (hd : DisjointGroups gs) (hg : AreOrgs gs orgs)
    (hR : FirstMembers gs orgs R) {g : Groupings} (hgs : Groupings.new gs f = .ok g) :
    ∃ q', g.mergeQuorumSet q = .ok q' ∧ q'.threshold = q.threshold ∧ q'.inner = [] ∧
      q'.validators.Nodup ∧ ∀ x, x ∈ q'.validators ↔ x ∈ R := by
  have hlt : ∀ o ∈ orgs, ∀ x ∈ o, x < f.nodes.length := fun o ho x hx =>
    (hasQSet_iff.1 (h.members o ho x hx)).1
  have hne : ∀ o ∈ orgs, 1 ≤ o.card := fun o ho => (h.sizes o ho).1.trans (h.sizes o ho).2
  have hm : ∀ x, Mentions q x → g.mergeNode x = .ok (tailRep x gs x) := by
    intro x hx
    obtain ⟨o, ho, hxo⟩ := (h.mentions_iff x).1 hx
    exact merge_spec hgs x (hlt o ho x hxo)
  -- the representative of an inner quorum set
  have hrep : ∀ p ∈ q.inner, ∃ v, (v ∈ R ∧ v ∈ p.validators) ∧
      mergeQ (fun x => tailRep x gs x) p = ⟨1, [v], []⟩ := by
    intro p hp
    have ho := (h.lists _).2 ⟨p, hp, rfl⟩
    obtain ⟨v, hv, hvo⟩ := rep_exists hg hR hne ho
    obtain ⟨org, h1, h2⟩ := hg _ ho
    refine ⟨v, ⟨hv, List.mem_toFinset.1 hvo⟩, ?_⟩
    have hin := (h.flat p hp).1
    obtain ⟨t, vs, qs⟩ := p
    obtain rfl : qs = [] := hin
    rw [mergeQ_eq, List.map_nil]
    refine mergeFinish_const ?_ ?_
    · intro he
      rw [List.map_eq_nil_iff] at he
      subst he
      exact absurd hvo (by simp)
    · intro x hx
      obtain ⟨y, hy, rfl⟩ := List.mem_map.1 hx
      have hy' : y ∈ org.validators := by
        rw [← List.mem_toFinset, h2, List.mem_toFinset]
        exact hy
      have hv' : v ∈ org.validators := by
        rw [← List.mem_toFinset, h2]
        exact hvo
      have e1 := tailRep_of_mem hd h1 hy'
      have e2 := ((firstMembers_iff (f := f) hd hg hR hlt v).1 hv).1.2 org h1 hv'
      exact Option.some.inj (e1.symm.trans e2)
  choose! rep hr1 hr2 using hrep
  have hmap : q.inner.map (mergeQ fun x => tailRep x gs x) =
      q.inner.map fun p => (⟨1, [rep p], []⟩ : QuorumSet) := List.map_congr_left hr2
  have hcol : collected [] (q.inner.map fun p => (⟨1, [rep p], []⟩ : QuorumSet)) = q.inner.map rep := by
    unfold collected
    generalize q.inner = l
    induction l with
    | nil => rfl
    | cons a l ih => simpa using ih
  have hin : (q.inner.map fun p => (⟨1, [rep p], []⟩ : QuorumSet)).filter
      (fun q => !(q.validators.length == 1)) = [] := by
    rw [List.filter_eq_nil_iff]
    intro p hp
    obtain ⟨p', -, rfl⟩ := List.mem_map.1 hp
    simp
  have hnd : (q.inner.map rep).Nodup := by
    have h1 := h.once
    rw [List.Nodup, List.pairwise_map] at h1 ⊢
    refine h1.imp_of_mem fun {a b} ha hb hab he => hab ?_
    exact h.disjoint _ ((h.lists _).2 ⟨a, ha, rfl⟩) _ ((h.lists _).2 ⟨b, hb, rfl⟩) (rep a)
      (List.mem_toFinset.2 (hr1 a ha).2) (List.mem_toFinset.2 (he ▸ (hr1 b hb).2))
  have hmem : ∀ x, x ∈ q.inner.map rep ↔ x ∈ R := by
    intro x
    rw [List.mem_map]
    constructor
    · rintro ⟨p, hp, rfl⟩
      exact (hr1 p hp).1
    · intro hx
      obtain ⟨-, o, ho, hxo⟩ := (firstMembers_iff (f := f) hd hg hR hlt x).1 hx
      obtain ⟨p, hp, rfl⟩ := (h.lists o).1 ho
      exact ⟨p, hp, rep_unique hd hg hR ho (hr1 p hp).1 hx (List.mem_toFinset.2 (hr1 p hp).2) hxo⟩
  refine ⟨_, mergeQuorumSet_ok q hm, ?_⟩
  have hlen := h.length_inner
  have hle := h.le
  have hpos := h.pos
  have hnov := h.noValidators
  obtain ⟨t, vs, qs⟩ := q
  obtain rfl : vs = [] := hnov
  dsimp only at hmap hcol hin hnd hmem hlen hle hpos
  rw [mergeQ_eq, List.map_nil, hmap]
  rcases mergeFinish_eq t [] (qs.map fun p => (⟨1, [rep p], []⟩ : QuorumSet)) with
    ⟨v, h1, h2, h3⟩ | ⟨-, h3⟩
  · rw [hcol] at h1 h2
    have h4 : qs.map rep = [v] := by
      match hq : qs.map rep, hnd, h1, h2 with
      | [a], _, h1, h2 => rw [h2 a (by simp)]
      | a :: b :: l, hnd, h1, h2 =>
        rw [h2 a (by simp), h2 b (by simp)] at hnd
        simp at hnd
    have h5 : qs.length = 1 := by
      rw [← List.length_map (f := rep), h4]
      rfl
    rw [h3, hin]
    refine ⟨?_, rfl, List.nodup_singleton v, fun x => ?_⟩
    · show 1 = t
      omega
    · rw [← hmem x, h4]
  · rw [h3, hin, hcol]
    exact ⟨rfl, rfl, hnd, hmem⟩

end

end FA
