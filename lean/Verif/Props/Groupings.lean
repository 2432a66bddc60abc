import Verif.Lemmas.Merge
import Verif.Props.Results

/-!
# C32, C33, C55, C58, C59: groupings and merging by group
-/

namespace FA.Props
open FA Spec Groupings

/-! ## C33 -/

/-- C33: `Groupings::new` panics exactly if a member other than the first one of a group does not
exist. -/
theorem C33_new (gs : List Grouping) (f : Fbas) :
    (∃ g, Groupings.new gs f = .ok g) ↔
      ∀ org ∈ gs, ∀ v ∈ org.validators.tail, v < f.nodes.length := by
  constructor
  · rintro ⟨g, hg⟩
    by_contra h
    push Not at h
    rw [new_error h] at hg
    cases hg
  · intro h
    obtain ⟨g, hg, _⟩ := new_ok h
    exact ⟨g, hg⟩

/-- C33 for arbitrary groups: the merged ID of a node is the first member of the last group that lists
the node, but not as first member; nodes without such a group keep their ID. -/
theorem C33_general (gs : List Grouping) (f : Fbas) (g : Groupings) (hg : Groupings.new gs f = .ok g)
    (x : NodeId) (hx : x < f.nodes.length) :
    ∃ m, g.mergeNode x = .ok m ∧
      ((m = x ∧ ∀ org ∈ gs, x ∉ org.validators.tail) ∨
        ∃ (i : ℕ) (org : Grouping), gs[i]? = some org ∧ x ∈ org.validators.tail ∧
          org.validators.head? = some m ∧
          ∀ (j : ℕ) (org' : Grouping), i < j → gs[j]? = some org' → x ∉ org'.validators.tail) := by
  obtain ⟨g', hg', _, _, h, _⟩ := new_ok ((C33_new gs f).1 ⟨g, hg⟩)
  rw [hg'] at hg
  obtain rfl := Except.ok.inj hg
  exact ⟨_, h x hx, tailRep_last x gs x⟩

/-- C33: nodes that do not exist cannot be merged (the access panics). -/
theorem C33_missing (gs : List Grouping) (f : Fbas) (g : Groupings)
    (hg : Groupings.new gs f = .ok g) (x : NodeId) (hx : f.nodes.length ≤ x) :
    g.mergeNode x = .error .outOfBounds := by
  obtain ⟨g', hg', _, hl, _⟩ := new_ok ((C33_new gs f).1 ⟨g, hg⟩)
  rw [hg'] at hg
  obtain rfl := Except.ok.inj hg
  exact mergeNode_of_ge (hl ▸ hx)

theorem merge_spec {gs : List Grouping} {f : Fbas} {g : Groupings} (hg : Groupings.new gs f = .ok g) :
    ∀ x < f.nodes.length, g.mergeNode x = .ok (tailRep x gs x) := by
  obtain ⟨g', hg', _, _, h, _⟩ := new_ok ((C33_new gs f).1 ⟨g, hg⟩)
  rw [hg'] at hg
  obtain rfl := Except.ok.inj hg
  exact h

/-- C33 for disjoint groups: two nodes get the same merged ID iff they are equal or in a common group,
and merging is idempotent; the merged ID is that of the first member.

Missing for the full statement: groups that overlap without being equal; there the claim is false,
see `C33_counterexample`. What happens then is described by `C33_general`. -/
theorem C33_merge_node_partial (gs : List Grouping) (f : Fbas) (g : Groupings)
    (hg : Groupings.new gs f = .ok g) (hd : DisjointGroups gs) (he : MembersExist gs f)
    (x y : NodeId) (hx : x < f.nodes.length) (hy : y < f.nodes.length) :
    ∃ m m', g.mergeNode x = .ok m ∧ g.mergeNode y = .ok m' ∧ (m = m' ↔ SameGroup gs x y) ∧
      g.mergeNode m = .ok m ∧ Representative gs f m ∧ SameGroup gs x m := by
  have h := merge_spec hg
  have hlt := tailRep_lt he hx
  refine ⟨_, _, h x hx, h y hy, tailRep_eq_iff hd, ?_, ⟨hlt, fun org ho hm => ?_⟩, ?_⟩
  · rw [h _ hlt, tailRep_idem hd]
  · have := tailRep_of_mem hd ho hm
    rw [tailRep_idem hd] at this
    exact this
  · rw [SameGroup, ← tailRep_eq_iff hd, tailRep_idem hd]

/-- C33: `get_by_member` returns the last group that lists the node, if any, and never panics. -/
theorem C33_get_by_member (gs : List Grouping) (f : Fbas) (g : Groupings)
    (hg : Groupings.new gs f = .ok g) (x : NodeId) :
    (g.getByMember x = .ok none ∧ ∀ org ∈ gs, x ∉ org.validators) ∨
      ∃ (i : ℕ) (org : Grouping), g.getByMember x = .ok (some org) ∧ gs[i]? = some org ∧
        x ∈ org.validators ∧
        ∀ (j : ℕ) (org' : Grouping), i < j → gs[j]? = some org' → x ∉ org'.validators := by
  obtain ⟨g', hg', hgs, _, _, h⟩ := new_ok ((C33_new gs f).1 ⟨g, hg⟩)
  rw [hg'] at hg
  obtain rfl := Except.ok.inj hg
  unfold Groupings.getByMember
  rw [h x]
  rcases lastIdx_spec x 0 gs none with ⟨h1, h2⟩ | ⟨i, org, h1, h2, h3, h4⟩
  · rw [h1]; exact .inl ⟨rfl, h2⟩
  · rw [h3, Nat.zero_add]
    dsimp only
    rw [hgs, h1]
    exact .inr ⟨i, org, rfl, h1, h2, h4⟩

/-- Three nodes without trust, for examples. -/
def fbasThree : Fbas := Ref.mkFbas [⟨1, [0], []⟩, ⟨1, [1], []⟩, ⟨1, [2], []⟩]

/-- C33 is false for overlapping groups {0, 1} and {1, 2}: nodes 1 and 2 are in a common group, but get
different merged IDs, and merging node 2 twice gives another result than merging it once. -/
theorem C33_counterexample :
    ∃ g, Groupings.new [⟨"A", [0, 1]⟩, ⟨"B", [1, 2]⟩] fbasThree = .ok g ∧
      SameGroup [⟨"A", [0, 1]⟩, ⟨"B", [1, 2]⟩] 1 2 ∧ g.mergeNode 1 = .ok 0 ∧
      g.mergeNode 2 = .ok 1 :=
  ⟨⟨[⟨"A", [0, 1]⟩, ⟨"B", [1, 2]⟩], [0, 0, 1], [(2, 1), (1, 1), (0, 0)]⟩,
    Ref.ok_of (by decide +kernel), .inr ⟨⟨"B", [1, 2]⟩, by simp⟩, rfl, rfl⟩

/-- Concrete case. -/
example : DisjointGroups [⟨"A", [2, 0]⟩, ⟨"B", [1]⟩] ∧
    MembersExist [⟨"A", [2, 0]⟩, ⟨"B", [1]⟩] fbasThree ∧
    (Groupings.new [⟨"A", [2, 0]⟩, ⟨"B", [1]⟩] fbasThree).map Groupings.mergedIds =
      .ok [2, 1, 2] := by
  refine ⟨?_, ?_, Ref.ok_of (by decide +kernel)⟩ 
  · unfold DisjointGroups; decide
  · unfold MembersExist; decide

#print axioms C33_new
#print axioms C33_general
#print axioms C33_missing
#print axioms C33_merge_node_partial
#print axioms C33_get_by_member
#print axioms C33_counterexample

/-! ## C32 -/

theorem mem_expand {gs : List Grouping} {f : Fbas} {G : NodeSet} {y : NodeId} :
    y ∈ expand gs f G ↔ y < f.nodes.length ∧ ∃ x ∈ G, SameGroup gs x y := by
  classical
  unfold expand
  simp only [Finset.mem_filter, Finset.mem_range]

/-- Merging the minimal members of a monotone family by group. -/
theorem merged_minimal {P : NodeSet → Prop} (hP : ∀ S T, S ⊆ T → P S → P T) (f : Fbas)
    (r : SetVecResult) (l : List NodeSet) (hr : r.unwrap = .ok l) (hl : ∀ S, S ∈ l ↔ Minimal P S)
    (hlt : ∀ S ∈ l, ∀ x ∈ S, x < f.nodes.length)
    (gs : List Grouping) (g : Groupings) (hg : Groupings.new gs f = .ok g) (hd : DisjointGroups gs)
    (he : MembersExist gs f) :
    ∃ r' l', r.mergedByGroup g = .ok r' ∧ r'.minimalSets.unwrap = .ok l' ∧
      g.mergeMinimalNodeSets l = .ok l' ∧
      (∀ G, G ∈ l' ↔
        Minimal (fun G => (∀ x ∈ G, Representative gs f x) ∧ P (expand gs f G)) G) ∧
      l'.Pairwise Before := by
  have hm := merge_spec hg
  have hms : g.mergeNodeSets l = .ok (l.map (Finset.image (fun x => tailRep x gs x))) :=
    mergeNodeSets_ok (fun S hS x hx => hm x (hlt S hS x hx))
  refine ⟨⟨l.map (Finset.image (fun x => tailRep x gs x)), none⟩,
    removeNonMinimalNodeSets (l.map (Finset.image (fun x => tailRep x gs x))), ?_, rfl, ?_,
    fun G => ?_, (C30_minimal _).2⟩
  · unfold SetVecResult.mergedByGroup
    rw [SetVecResult.unshrink_of_unwrap hr]
    dsimp only
    rw [hms]
  · unfold Groupings.mergeMinimalNodeSets
    rw [hms]
  · rw [(removeNonMinimal_spec _).1]
    apply minimal_image hP hl
    · intro S hS x hx
      obtain ⟨m, _, h1, _, _, _, h2, _⟩ :=
        C33_merge_node_partial gs f g hg hd he x x (hlt S hS x hx) (hlt S hS x hx)
      rw [hm x (hlt S hS x hx)] at h1
      rw [Except.ok.inj h1]; exact h2
    · intro S hS x hx
      refine mem_expand.2 ⟨hlt S hS x hx, _, Finset.mem_image_of_mem _ hx, ?_⟩
      rw [SameGroup, ← tailRep_eq_iff hd, tailRep_idem hd]
    · intro G hG y hy
      obtain ⟨_, x, hx, hs⟩ := mem_expand.1 hy
      rw [SameGroup, ← tailRep_eq_iff hd] at hs
      rw [← hs]
      have : tailRep x gs x = x := by
        by_cases hmem : ∃ org ∈ gs, x ∈ org.validators
        · obtain ⟨org, ho, hxo⟩ := hmem
          have h1 := tailRep_of_mem hd ho hxo
          rw [(hG x hx).2 org ho hxo] at h1
          exact (Option.some.inj h1).symm
        · push Not at hmem
          exact tailRep_of_not_mem hmem
      rw [this]; exact hx

theorem isMinBlocking_lt {f : Fbas} {B : NodeSet} (h : IsMinBlocking f B) :
    ∀ x ∈ B, x < f.nodes.length := by
  have hb : Blocking f (B ∩ Finset.range f.nodes.length) := by
    intro Q hQ
    obtain ⟨x, h1, h2⟩ := h.1 Q hQ
    exact ⟨x, h1, Finset.mem_inter.2 ⟨h2, hQ.subset_all h1⟩⟩
  intro x hx
  exact Finset.mem_range.1 (Finset.mem_inter.1 (h.2 hb Finset.inter_subset_left hx)).2

theorem isMinSplitting_lt {f : Fbas} {B : NodeSet} (h : IsMinSplitting f B) :
    ∀ x ∈ B, x < f.nodes.length := by
  obtain ⟨Q₁, Q₂, h1, h2, h3, h4⟩ := h.1
  have hb : Splitting f (B ∩ Finset.range f.nodes.length) :=
    ⟨Q₁, Q₂, h1, h2, h3, fun x hx => Finset.mem_inter.2 ⟨h4 hx,
      h1.1.subset_all (Finset.mem_inter.1 hx).1⟩⟩
  intro x hx
  exact Finset.mem_range.1 (Finset.mem_inter.1 (h.2 hb Finset.inter_subset_left hx)).2

/-- C32 for minimal blocking sets. -/
theorem C32_blocking (f : Fbas) (r : SetVecResult) (l : List NodeSet) (hr : r.unwrap = .ok l)
    (hl : ∀ B, B ∈ l ↔ IsMinBlocking f B)
    (gs : List Grouping) (g : Groupings) (hg : Groupings.new gs f = .ok g) (hd : DisjointGroups gs)
    (he : MembersExist gs f) :
    ∃ r' l', r.mergedByGroup g = .ok r' ∧ r'.minimalSets.unwrap = .ok l' ∧
      g.mergeMinimalNodeSets l = .ok l' ∧
      (∀ G, G ∈ l' ↔
        Minimal (fun G => (∀ x ∈ G, Representative gs f x) ∧ Blocking f (expand gs f G)) G) ∧
      l'.Pairwise Before :=
  merged_minimal Blocking.mono f r l hr hl (fun S hS => isMinBlocking_lt ((hl S).1 hS)) gs g hg hd he

/-- C32 for minimal splitting sets. -/
theorem C32_splitting (f : Fbas) (r : SetVecResult) (l : List NodeSet) (hr : r.unwrap = .ok l)
    (hl : ∀ B, B ∈ l ↔ IsMinSplitting f B)
    (gs : List Grouping) (g : Groupings) (hg : Groupings.new gs f = .ok g) (hd : DisjointGroups gs)
    (he : MembersExist gs f) :
    ∃ r' l', r.mergedByGroup g = .ok r' ∧ r'.minimalSets.unwrap = .ok l' ∧
      g.mergeMinimalNodeSets l = .ok l' ∧
      (∀ G, G ∈ l' ↔
        Minimal (fun G => (∀ x ∈ G, Representative gs f x) ∧ Splitting f (expand gs f G)) G) ∧
      l'.Pairwise Before :=
  merged_minimal Splitting.mono f r l hr hl (fun S hS => isMinSplitting_lt ((hl S).1 hS))
    gs g hg hd he

/-- C32 for minimal quorums. -/
theorem C32_quorums (f : Fbas) (r : SetVecResult) (l : List NodeSet) (hr : r.unwrap = .ok l)
    (hl : ∀ Q, Q ∈ l ↔ IsMinQuorum f Q)
    (gs : List Grouping) (g : Groupings) (hg : Groupings.new gs f = .ok g) (hd : DisjointGroups gs)
    (he : MembersExist gs f) :
    ∃ r' l', r.mergedByGroup g = .ok r' ∧ r'.minimalSets.unwrap = .ok l' ∧
      g.mergeMinimalNodeSets l = .ok l' ∧
      (∀ G, G ∈ l' ↔ Minimal (fun G => (∀ x ∈ G, Representative gs f x) ∧
        ∃ Q, IsQuorum f Q ∧ Q ⊆ expand gs f G) G) ∧
      l'.Pairwise Before :=
  merged_minimal (P := fun T => ∃ Q, IsQuorum f Q ∧ Q ⊆ T)
    (fun S T hST ⟨Q, h1, h2⟩ => ⟨Q, h1, h2.trans hST⟩) f r l hr
    (fun S => by rw [hl, isMinQuorum_iff_contains])
    (fun S hS x hx => Finset.mem_range.1 (((hl S).1 hS).1.subset_all hx)) gs g hg hd he

/-- C32 for a single set (e.g. the top tier): the merged set consists of the representatives of the
groups of its members. -/
theorem C32_single_set (f : Fbas) (r : SetResult) (hr : ∀ x ∈ r.unwrap, x < f.nodes.length)
    (gs : List Grouping) (g : Groupings) (hg : Groupings.new gs f = .ok g) (hd : DisjointGroups gs)
    (he : MembersExist gs f) :
    ∃ r', r.mergedByGroup g = .ok r' ∧
      ∀ y, y ∈ r'.unwrap ↔ Representative gs f y ∧ ∃ x ∈ r.unwrap, SameGroup gs x y := by
  have hm := merge_spec hg
  refine ⟨⟨r.nodeSet.image (fun x => tailRep x gs x)⟩, ?_, fun y => ?_⟩
  · unfold SetResult.mergedByGroup
    rw [mergeNodeSet_ok (S := r.nodeSet) (fun x hx => hm x (hr x hx))]
  · show y ∈ r.nodeSet.image _ ↔ _
    rw [Finset.mem_image]
    constructor
    · rintro ⟨x, hx, rfl⟩
      obtain ⟨m, _, h1, _, _, _, h2, h3⟩ :=
        C33_merge_node_partial gs f g hg hd he x x (hr x hx) (hr x hx)
      rw [hm x (hr x hx)] at h1
      rw [Except.ok.inj h1]; exact ⟨h2, x, hx, h3⟩
    · rintro ⟨hrep, x, hx, hs⟩
      refine ⟨x, hx, ?_⟩
      rw [SameGroup, ← tailRep_eq_iff hd] at hs
      rw [hs]
      by_cases hmem : ∃ org ∈ gs, y ∈ org.validators
      · obtain ⟨org, ho, hxo⟩ := hmem
        have h1 := tailRep_of_mem hd ho hxo
        rw [hrep.2 org ho hxo] at h1
        exact (Option.some.inj h1).symm
      · push Not at hmem
        exact tailRep_of_not_mem hmem

/-- Four nodes that need three of four; two of them are run by the same organization. -/
def fbasFour : Fbas := Ref.mkFbas (List.replicate 4 ⟨3, [0, 1, 2, 3], []⟩)

/-- Concrete case: the organization of 0 and 3 alone is blocking. -/
example : (∀ B, B ∈ ([{0, 1}, {0, 2}, {1, 2}, {0, 3}, {1, 3}, {2, 3}] : List NodeSet) →
      IsMinBlocking fbasFour B) ∧
    DisjointGroups [⟨"A", [0, 3]⟩] ∧ MembersExist [⟨"A", [0, 3]⟩] fbasFour ∧
    (match Groupings.new [⟨"A", [0, 3]⟩] fbasFour with
      | Except.error e => Except.error e
      | Except.ok g => g.mergeMinimalNodeSets [{0, 1}, {0, 2}, {1, 2}, {0, 3}, {1, 3}, {2, 3}] :
        Except Panic (List NodeSet)) = .ok [{0}, {1, 2}] := by
  refine ⟨by decide +kernel, ?_, ?_, Ref.ok_of (by decide +kernel)⟩ 
  · unfold DisjointGroups; decide
  · unfold MembersExist; decide

#print axioms C32_blocking
#print axioms C32_splitting
#print axioms C32_quorums
#print axioms C32_single_set

/-! ## C55 -/

/-- C55: merging a quorum set succeeds if all nodes it lists exist, and every node listed by the merged
quorum set is the merged ID of a node listed by the original one. -/
theorem C55_mentions (gs : List Grouping) (f : Fbas) (g : Groupings)
    (hg : Groupings.new gs f = .ok g) (q : QuorumSet)
    (hq : ∀ x, Mentions q x → x < f.nodes.length) :
    ∃ q', g.mergeQuorumSet q = .ok q' ∧
      ∀ y, Mentions q' y → ∃ x, Mentions q x ∧ g.mergeNode x = .ok y := by
  have hm := merge_spec hg
  refine ⟨_, mergeQuorumSet_ok (m := fun x => tailRep x gs x) q (fun x hx => hm x (hq x hx)), ?_⟩
  intro y hy
  obtain ⟨x, hx, rfl⟩ := mentions_mergeQ _ q y hy
  exact ⟨x, hx, hm x (hq x hx)⟩

theorem mergeQ_id {q : QuorumSet} (h : Unmergeable q) {m : ℕ → ℕ} (hm : ∀ x, m x = x) :
    mergeQ m q = q := by
  induction h with
  | intro q hv h3 hi ih =>
    obtain ⟨t, vs, qs⟩ := q
    rw [mergeQ_eq]
    have hm' : m = id := funext hm
    dsimp only at *
    have h1 : vs.map m = vs := by rw [hm']; simp
    have h2 : qs.map (mergeQ m) = qs := by
      conv_rhs => rw [← List.map_id qs]
      exact List.map_congr_left (fun q hq => ih q hq)
    have h4 : collected vs qs = vs := by
      unfold collected
      rw [List.filter_eq_nil_iff.2 (fun q hq => by simpa using h3 q hq)]
      simp
    have h5 : qs.filter (fun q => !(q.validators.length == 1)) = qs :=
      List.filter_eq_self.2 (fun q hq => by simpa using h3 q hq)
    rw [h1, h2]
    rcases mergeFinish_eq t vs qs with ⟨w, hw, hall, he⟩ | ⟨_, he⟩
    · rw [h4] at hw hall
      rcases hv with ⟨rfl, hv⟩ | hv
      · obtain ⟨v, rfl⟩ := List.length_eq_one_iff.1 hv
        rw [he, h5, show w = v by simpa using hw]
      · obtain ⟨x, hx, hne⟩ := hv w hw
        exact absurd (hall x hx) hne
    · rw [he, h4, h5]

theorem unmergeable_of_eq {m : ℕ → ℕ} (hm : ∀ x, m x = x) (q : QuorumSet) (h : mergeQ m q = q) :
    Unmergeable q := by
  induction q using QuorumSet.induct with
  | h t vs qs ih =>
    rw [mergeQ_eq, show m = id from funext hm, List.map_id] at h
    rw [show m = id from funext hm] at ih
    have h1 : (qs.map (mergeQ id)).filter (fun q => !(q.validators.length == 1)) = qs := by
      have := congrArg QuorumSet.inner h
      rwa [mergeFinish_threshold] at this
    have h2 : (qs.map (mergeQ id)).filter (fun q => !(q.validators.length == 1)) = qs.map (mergeQ id) :=
      List.filter_sublist.eq_of_length (by rw [h1, List.length_map])
    have h3 : qs.map (mergeQ id) = qs := h2.symm.trans h1
    have h4 : ∀ q ∈ qs, q.validators.length ≠ 1 := fun q hq => by
      rw [← h1] at hq
      simpa using (List.mem_filter.1 hq).2
    have h5 : ∀ q ∈ qs, mergeQ id q = q := fun q hq =>
      List.map_inj_left.1 (h3.trans (List.map_id qs).symm) q hq
    have h6 : collected vs qs = vs := by
      unfold collected
      rw [List.filter_eq_nil_iff.2 (fun q hq => by simpa using h4 q hq)]
      simp
    refine .intro _ ?_ h4 (fun q hq => ih q hq (h5 q hq))
    rw [h3] at h
    rcases mergeFinish_eq t vs qs with ⟨w, hw, hall, he⟩ | ⟨hne, -⟩
    · rw [he] at h
      injection h with e1 e2 e3
      exact .inl ⟨e1.symm, by rw [← e2]; rfl⟩
    · rw [h6] at hne
      exact .inr hne

/-- C55: merging a quorum set with groups of at most one member changes nothing exactly if on every level
there are no validators or two different ones (or, outermost, a single one with threshold 1).

Missing for the full statement: other quorum sets; there the claim is false, see also
`C55_counterexample`. -/
theorem C55_trivial_groups_iff_partial (gs : List Grouping) (f : Fbas) (g : Groupings)
    (hg : Groupings.new gs f = .ok g) (hs : ∀ org ∈ gs, org.validators.length ≤ 1) (q : QuorumSet)
    (hq : ∀ x, Mentions q x → x < f.nodes.length) :
    g.mergeQuorumSet q = .ok q ↔ Unmergeable q := by
  have hm := merge_spec hg
  have hid : ∀ x, tailRep x gs x = x := by
    intro x
    rcases tailRep_spec x gs x with ⟨h, -⟩ | ⟨org, ho, hx, -⟩
    · exact h
    · have := hs org ho
      have h0 : org.validators.tail.length = 0 := by rw [List.length_tail]; omega
      rw [List.length_eq_zero_iff] at h0
      rw [h0] at hx
      simp at hx
  rw [mergeQuorumSet_ok (m := fun x => tailRep x gs x) q (fun x hx => hm x (hq x hx))]
  constructor
  · intro h
    exact unmergeable_of_eq hid q (Except.ok.inj h)
  · intro h
    rw [mergeQ_id h hid]

/-- C55 is false in general, even without any groups: a validator in an inner quorum set of its own is
moved to the outer list; a single validator makes the threshold 1, although there are inner quorum
sets (so that `{0}` becomes a slice); and nested quorum sets of an inner quorum set with one validator
are dropped. -/
theorem C55_counterexample :
    ∃ g, Groupings.new [] fbasFour = .ok g ∧
      g.mergeQuorumSet ⟨2, [0, 1], [⟨1, [2], []⟩]⟩ = .ok ⟨2, [0, 1, 2], []⟩ ∧
      (g.mergeQuorumSet ⟨2, [0], [⟨1, [1, 2], []⟩]⟩ = .ok ⟨1, [0], [⟨1, [1, 2], []⟩]⟩ ∧
        Slice {0} ⟨1, [0], [⟨1, [1, 2], []⟩]⟩ ∧ ¬ Slice {0} ⟨2, [0], [⟨1, [1, 2], []⟩]⟩) ∧
      g.mergeQuorumSet ⟨2, [0, 1], [⟨2, [2], [⟨1, [1, 3], []⟩]⟩]⟩ = .ok ⟨2, [0, 1, 2], []⟩ :=
  ⟨⟨[], [0, 1, 2, 3], []⟩, Ref.ok_of (by decide +kernel), Ref.ok_of (by decide +kernel),
    ⟨Ref.ok_of (by decide +kernel), by decide +kernel, by decide +kernel⟩,
    Ref.ok_of (by decide +kernel)⟩

/-- Concrete case. -/
example : Unmergeable ⟨2, [0, 1], [⟨1, [2, 3], []⟩]⟩ ∧
    (match Groupings.new [⟨"A", [3]⟩] fbasFour with
      | Except.error e => Except.error e
      | Except.ok g => g.mergeQuorumSet ⟨2, [0, 1], [⟨1, [2, 3], []⟩]⟩ :
        Except Panic QuorumSet) = .ok ⟨2, [0, 1], [⟨1, [2, 3], []⟩]⟩ :=
  ⟨.intro _ (by decide) (by decide) (fun q' hq' => by
    simp only [List.mem_singleton] at hq'
    subst hq'
    exact .intro _ (by decide) (by simp) (by simp)), Ref.ok_of (by decide +kernel)⟩

#print axioms C55_mentions
#print axioms C55_trivial_groups_iff_partial
#print axioms C55_counterexample

/-! ## C58 -/

/-- C58: a merged quorum set means at group level what the original one means: a set `G` of
representatives is a slice for the merged quorum set iff all nodes of the groups in `G` together are a
slice for the original quorum set. This needs `GroupShaped` quorum sets, see `C58_counterexample`. -/
theorem C58_merged_meaning_partial (gs : List Grouping) (f : Fbas) (g : Groupings)
    (hg : Groupings.new gs f = .ok g) (hd : DisjointGroups gs)
    (q : QuorumSet) (hq : ∀ x, Mentions q x → x < f.nodes.length) (hs : GroupShaped gs q) :
    ∃ q', g.mergeQuorumSet q = .ok q' ∧
      ∀ G : NodeSet, (∀ x ∈ G, Representative gs f x) → (Slice G q' ↔ Slice (expand gs f G) q) := by
  have hm := merge_spec hg
  refine ⟨_, mergeQuorumSet_ok (m := fun x => tailRep x gs x) q (fun x hx => hm x (hq x hx)), ?_⟩
  intro G hG
  apply slice_mergeQ (fun x y => tailRep_eq_iff hd) hs
  intro x hx
  rw [mem_expand]
  constructor
  · rintro ⟨_, y, hy, hyx⟩
    rw [SameGroup, ← tailRep_eq_iff hd] at hyx
    rw [← hyx]
    have : tailRep y gs y = y := by
      by_cases hmem : ∃ org ∈ gs, y ∈ org.validators
      · obtain ⟨org, ho, hxo⟩ := hmem
        have h1 := tailRep_of_mem hd ho hxo
        rw [(hG y hy).2 org ho hxo] at h1
        exact (Option.some.inj h1).symm
      · push Not at hmem
        exact tailRep_of_not_mem hmem
    rw [this]; exact hy
  · intro hin
    refine ⟨hq x hx, _, hin, ?_⟩
    rw [SameGroup, ← tailRep_eq_iff hd, tailRep_idem hd]

/-- C58 is false without the shape restriction: two validators of one organization and an inner quorum
set with nodes of two organizations, all of which are needed, become "one of" the organization. -/
theorem C58_counterexample :
    ∃ g, Groupings.new [⟨"A", [0, 1]⟩] fbasFour = .ok g ∧ DisjointGroups [⟨"A", [0, 1]⟩] ∧
      g.mergeQuorumSet ⟨3, [0, 1], [⟨1, [2, 3], []⟩]⟩ = .ok ⟨1, [0], [⟨1, [2, 3], []⟩]⟩ ∧
      Slice {0} ⟨1, [0], [⟨1, [2, 3], []⟩]⟩ ∧ ¬ Slice {0, 1} ⟨3, [0, 1], [⟨1, [2, 3], []⟩]⟩ := by
  refine ⟨⟨[⟨"A", [0, 1]⟩], [0, 0, 2, 3], [(1, 0), (0, 0)]⟩, Ref.ok_of (by decide +kernel), ?_,
    Ref.ok_of (by decide +kernel), by decide +kernel, by decide +kernel⟩
  unfold DisjointGroups; decide

/-- Concrete case: organizations with two nodes each, as inner quorum sets. -/
example : GroupShaped [⟨"A", [0, 1]⟩, ⟨"B", [2, 3]⟩] ⟨2, [], [⟨1, [0, 1], []⟩, ⟨2, [2, 3], []⟩]⟩ ∧
    (match Groupings.new [⟨"A", [0, 1]⟩, ⟨"B", [2, 3]⟩] fbasFour with
      | Except.error e => Except.error e
      | Except.ok g => g.mergeQuorumSet ⟨2, [], [⟨1, [0, 1], []⟩, ⟨2, [2, 3], []⟩]⟩ :
        Except Panic QuorumSet) = .ok ⟨2, [0, 2], []⟩ := by
  have hone : ∀ q' ∈ [(⟨1, [0, 1], []⟩ : QuorumSet), ⟨2, [2, 3], []⟩],
      OneGroup [⟨"A", [0, 1]⟩, ⟨"B", [2, 3]⟩] q' := by
    intro q' hq' x y hx hy
    simp only [List.mem_cons, List.not_mem_nil, or_false] at hq'
    right
    rcases hq' with rfl | rfl
    · refine ⟨⟨"A", [0, 1]⟩, by simp, ?_⟩
      cases hx with
      | inner h => simp at h
      | validator hx =>
        cases hy with
        | inner h => simp at h
        | validator hy => exact ⟨hx, hy⟩
    · refine ⟨⟨"B", [2, 3]⟩, by simp, ?_⟩
      cases hx with
      | inner h => simp at h
      | validator hx =>
        cases hy with
        | inner h => simp at h
        | validator hy => exact ⟨hx, hy⟩
  refine ⟨.intro _ (by decide) (by decide) (fun q' hq' hno => absurd (hone q' hq') hno) ?_,
    Ref.ok_of (by decide +kernel)⟩
  intro q' hq'
  simp only [List.mem_cons, List.not_mem_nil, or_false] at hq'
  rcases hq' with rfl | rfl <;> exact .intro _ (by decide) (by decide) (by simp) (by simp)

#print axioms C58_merged_meaning_partial
#print axioms C58_counterexample

/-! ## C59 -/

theorem shrinkMap_of_table {K : NodeSet} {i x : ℕ}
    (h : (ShrinkManager.new K).unshrinkTable[i]? = some x) :
    (ShrinkManager.new K).shrinkMap.get? x = some i := by
  have h' : (elems K)[i]? = some x := h
  have hi : i < K.card := by
    rw [← length_elems]; exact (List.getElem?_eq_some_iff.1 h').1
  rw [getElem?_elems hi] at h'
  exact (shrinkMap_get? K x i).2 ⟨hi, Option.some.inj h'⟩

/-- C59: shrinking groupings keeps group membership: kept nodes are in the same shrunken group iff they
are in the same original group, for all groupings. -/
theorem C59_same_group (gs : List Grouping) (K : NodeSet) (i j x y : NodeId)
    (hi : (ShrinkManager.new K).unshrinkTable[i]? = some x)
    (hj : (ShrinkManager.new K).unshrinkTable[j]? = some y) :
    SameGroup (gs.map (Grouping.shrunken (ShrinkManager.new K).shrinkMap)) i j ↔
      SameGroup gs x y := by
  have hi' := shrinkMap_of_table hi
  have hj' := shrinkMap_of_table hj
  have hmem : ∀ (z k : ℕ), (ShrinkManager.new K).shrinkMap.get? z = some k → ∀ org : Grouping,
      (k ∈ (Grouping.shrunken (ShrinkManager.new K).shrinkMap org).validators ↔
        z ∈ org.validators) := by
    intro z k hz org
    show k ∈ sortIds _ ↔ _
    rw [(sortIds_perm _).mem_iff, List.mem_filterMap]
    constructor
    · rintro ⟨w, hw, hk⟩
      rw [shrinkMap_get?] at hz hk
      rw [← hz.2, hk.2]; exact hw
    · intro h; exact ⟨z, h, hz⟩
  unfold SameGroup
  refine or_congr ⟨?_, ?_⟩ ?_
  · rintro rfl; rw [hi] at hj; exact Option.some.inj hj
  · rintro rfl; rw [hi'] at hj'; exact Option.some.inj hj'
  · simp only [List.mem_map, exists_exists_and_eq_and, hmem x i hi', hmem y j hj']

/-- C59: shrunken groupings (of disjoint groups) identify the same nodes as the original ones. -/
theorem C59_merge (gs : List Grouping) (f f' : Fbas) (g : Groupings)
    (hg : Groupings.new gs f = .ok g) (hd : DisjointGroups gs) (he : MembersExist gs f) (K : NodeSet)
    (hK : ∀ x ∈ K, x < f.nodes.length) (hf' : f'.nodes.length = K.card) :
    ∃ g', g.shrunken (ShrinkManager.new K) f' = .ok g' ∧
      ∀ i j x y, (ShrinkManager.new K).unshrinkTable[i]? = some x →
        (ShrinkManager.new K).unshrinkTable[j]? = some y →
        (g'.mergeNode i = g'.mergeNode j ↔ g.mergeNode x = g.mergeNode y) := by
  have hgs : g.groupings = gs := by
    obtain ⟨g', hg', h, _⟩ := new_ok ((C33_new gs f).1 ⟨g, hg⟩)
    rw [hg'] at hg
    rw [← Except.ok.inj hg, h]
  have hmem' : ∀ org ∈ gs.map (Grouping.shrunken (ShrinkManager.new K).shrinkMap),
      ∀ v ∈ org.validators, v < f'.nodes.length := by
    intro org ho v hv
    obtain ⟨o, -, rfl⟩ := List.mem_map.1 ho
    have hv' : v ∈ sortIds _ := hv
    rw [(sortIds_perm _).mem_iff, List.mem_filterMap] at hv'
    obtain ⟨w, -, hk⟩ := hv'
    rw [hf']
    exact ((shrinkMap_get? K w v).1 hk).1
  have hd' : DisjointGroups (gs.map (Grouping.shrunken (ShrinkManager.new K).shrinkMap)) := by
    intro a ha b hb x hxa hxb
    obtain ⟨a, ha', rfl⟩ := List.mem_map.1 ha
    obtain ⟨b, hb', rfl⟩ := List.mem_map.1 hb
    have hxa : x ∈ sortIds _ := hxa
    have hxb : x ∈ sortIds _ := hxb
    rw [(sortIds_perm _).mem_iff, List.mem_filterMap] at hxa hxb
    obtain ⟨u, hu, hku⟩ := hxa
    obtain ⟨w, hw, hkw⟩ := hxb
    rw [shrinkMap_get?] at hku hkw
    have huw : u = w := by rw [← hku.2, hkw.2]
    subst huw
    show sortIds _ = sortIds _
    rw [hd a ha' b hb' u hu hw]
  obtain ⟨g', hg'⟩ := (C33_new _ f').2 (fun org ho v hv => hmem' org ho v (List.mem_of_mem_tail hv))
  refine ⟨g', by unfold Groupings.shrunken; rw [hgs]; exact hg', fun i j x y hi hj => ?_⟩
  have hlt : ∀ k z, (ShrinkManager.new K).unshrinkTable[k]? = some z →
      k < f'.nodes.length ∧ z < f.nodes.length := by
    intro k z hk
    have := shrinkMap_of_table hk
    rw [shrinkMap_get?] at this
    exact ⟨hf' ▸ this.1, hK z (this.2 ▸ un_mem this.1)⟩
  obtain ⟨m, m', h1, h2, h3, -⟩ := C33_merge_node_partial gs f g hg hd he x y (hlt i x hi).2
    (hlt j y hj).2
  obtain ⟨n, n', k1, k2, k3, -⟩ := C33_merge_node_partial _ f' g' hg' hd' hmem' i j (hlt i x hi).1
    (hlt j y hj).1
  rw [h1, h2, k1, k2]
  have e1 : (Except.ok m : Except Panic ℕ) = .ok m' ↔ m = m' := ⟨Except.ok.inj, congrArg _⟩
  have e2 : (Except.ok n : Except Panic ℕ) = .ok n' ↔ n = n' := ⟨Except.ok.inj, congrArg _⟩
  rw [e1, e2, h3, k3]
  exact C59_same_group gs K i j x y hi hj

/-- Concrete case. -/
example : DisjointGroups [⟨"A", [3, 1]⟩] ∧ MembersExist [⟨"A", [3, 1]⟩] fbasFour ∧
    (match Groupings.new [⟨"A", [3, 1]⟩] fbasFour with
      | Except.error e => Except.error e
      | Except.ok g => (g.shrunken (ShrinkManager.new {1, 2, 3}) fbasThree).map Groupings.mergedIds :
        Except Panic (List ℕ)) = .ok [0, 1, 0] := by
  refine ⟨?_, ?_, Ref.ok_of (by decide +kernel)⟩ 
  · unfold DisjointGroups; decide
  · unfold MembersExist; decide

#print axioms C59_same_group
#print axioms C59_merge

end FA.Props
