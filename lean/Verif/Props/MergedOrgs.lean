import Verif.Lemmas.MergedOrgs
import Verif.Props.Orgs
import Verif.Props.TidyTool

/-!
# C93: networks of organizations, merged by organization
-/

namespace FA.Props
open FA Spec Analysis Tool Bulk Groupings QuorumSet

section
variable {f : Fbas} {orgs : Finset NodeSet} {need : NodeSet → ℕ} {q : QuorumSet} {gs : List Grouping}
  {R : NodeSet}

/-- The minimal sets of organizations. -/
theorem orgs_group_sets (h : OrgCore f orgs need q) (hd : DisjointGroups gs) (hg : AreOrgs gs orgs)
    (hR : FirstMembers gs orgs R) (G : NodeSet) :
    (Minimal (fun G => (∀ x ∈ G, Representative gs f x) ∧ ContainsQuorum f (expand gs f G)) G ↔
      G ⊆ R ∧ G.card = q.threshold) ∧
    (Minimal (fun G => (∀ x ∈ G, Representative gs f x) ∧ Blocking f (expand gs f G)) G ↔
      G ⊆ R ∧ G.card = orgs.card - q.threshold + 1) ∧
    ((∀ o ∈ orgs, o.card < 2 * need o ∧ need o < o.card) → orgs.card < 2 * q.threshold →
      (Minimal (fun G => (∀ x ∈ G, Representative gs f x) ∧ Splitting f (expand gs f G)) G ↔
        G ⊆ R ∧ G.card = 2 * q.threshold - orgs.card)) := by
  have hlt : ∀ o ∈ orgs, ∀ x ∈ o, x < f.nodes.length := fun o ho x hx =>
    (hasQSet_iff.1 (h.members o ho x hx)).1
  refine ⟨?_, ?_, fun hm ht => ?_⟩
  · refine minimalGroupSets_orgs hd hg hR h.disjoint hlt h.sizes (fun S => ?_) G
    constructor
    · rintro ⟨Q, h1, h2⟩
      exact (h.agreeing_of_quorum h1).trans (Finset.card_le_card (agreeing_mono h2))
    · intro hS
      refine ⟨S ∩ orgs.biUnion id, h.quorum_of_agreeing (fun x hx => ?_) (hS.trans ?_),
        Finset.inter_subset_left⟩
      · obtain ⟨o, h1, h2⟩ := Finset.mem_biUnion.1 (Finset.mem_inter.1 hx).2
        exact ⟨o, h1, h2⟩
      · refine Finset.card_le_card fun o ho => ?_
        obtain ⟨h1, h2⟩ := mem_agreeing.1 ho
        refine mem_agreeing.2 ⟨h1, h2.trans (Finset.card_le_card fun x hx => ?_)⟩
        obtain ⟨h3, h4⟩ := Finset.mem_inter.1 hx
        exact Finset.mem_inter.2 ⟨Finset.mem_inter.2 ⟨h3, Finset.mem_biUnion.2 ⟨o, h1, h4⟩⟩, h4⟩
  · exact minimalGroupSets_orgs hd hg hR h.disjoint hlt
      (fun o ho => by have := h.sizes o ho; exact ⟨by omega, by omega⟩) h.blocking_iff G
  · exact minimalGroupSets_orgs hd hg hR h.disjoint hlt
      (fun o ho => by have := h.sizes o ho; have := hm o ho; exact ⟨by omega, by omega⟩)
      (h.splitting_iff hm ht) G

theorem orgs_top_tier (h : OrgCore f orgs need q) (hd : DisjointGroups gs) (hg : AreOrgs gs orgs)
    (hR : FirstMembers gs orgs R) {T : NodeSet} (hT : GroupsOf gs f (InTopTier f) T) : T = R := by
  ext y
  rw [hT, firstMembers_iff (f := f) hd hg hR
    (fun o ho x hx => (hasQSet_iff.1 (h.members o ho x hx)).1)]
  refine and_congr_right fun _ => ?_
  constructor
  · rintro ⟨x, h1, h2⟩
    obtain ⟨o, ho, hx⟩ := (h.inTopTier_iff x).1 h1
    exact ⟨o, ho, (mem_org_iff hd hg ho hx).1 h2⟩
  · rintro ⟨o, ho, hy⟩
    exact ⟨y, (h.inTopTier_iff y).2 ⟨o, ho, hy⟩, .inl rfl⟩

theorem orgs_card (h : OrgCore f orgs need q) (hd : DisjointGroups gs) (hg : AreOrgs gs orgs)
    (hR : FirstMembers gs orgs R) : R.card = orgs.card :=
  card_firstMembers hd hg hR h.disjoint (fun o ho x hx => (hasQSet_iff.1 (h.members o ho x hx)).1)
    fun o ho => (h.sizes o ho).1.trans (h.sizes o ho).2

end

section
variable {env : Env} {order : List String → List String} {opts : Options} {f : Fbas}
  {g : Option Groupings} {gs : List Grouping} {lines : List Line} {orgs : Finset NodeSet}
  {need : NodeSet → ℕ} {q : QuorumSet}

/-- C93: What the tool prints for a network of organizations if nodes are merged by organization is what it
would print for a network with one node per organization: all sets of `t` organizations as minimal quorums,
where `t` is the threshold, all sets of `|orgs| - t + 1` organizations as minimal blocking sets, and all
organizations as top tier. An organization is represented by its first member. -/
theorem C93_sets (hr : Run env order opts f g gs lines) (hd : DisjointGroups gs)
    (h : OrgCore f orgs need q) (hg : AreOrgs gs orgs) :
    ∃ R, FirstMembers gs orgs R ∧ R.card = orgs.card ∧ ∀ j,
      (("minimal_quorums", j) ∈ results lines → ∃ L, AllOfSize R q.threshold L ∧ L.Pairwise Before ∧
        ShowsSets opts.describe opts.pretty gs f L j) ∧
      (("minimal_blocking_sets", j) ∈ results lines → ∃ L, AllOfSize R (orgs.card - q.threshold + 1) L ∧
        L.Pairwise Before ∧ ShowsSets opts.describe opts.pretty gs f L j) ∧
      (("top_tier", j) ∈ results lines → ShowsSet opts.pretty gs f R j) := by
  obtain ⟨R, hR⟩ := exists_firstMembers gs orgs
  refine ⟨R, hR, orgs_card h hd hg hR, fun j => ?_⟩
  obtain ⟨h1, h2, -, h4⟩ := C91_tool hr hd h.exists_quorum h.tidy j
  refine ⟨fun hj => ?_, fun hj => ?_, fun hj => ?_⟩
  · obtain ⟨L, a1, a2, a3⟩ := h1 hj
    exact ⟨L, ⟨nodup_of_listed a2, fun S => by rw [a1, (orgs_group_sets h hd hg hR S).1]⟩, a2, a3⟩
  · obtain ⟨L, a1, a2, a3⟩ := h2 hj
    exact ⟨L, ⟨nodup_of_listed a2, fun S => by rw [a1, (orgs_group_sets h hd hg hR S).2.1]⟩, a2, a3⟩
  · obtain ⟨T, a1, a2⟩ := h4 hj
    rw [orgs_top_tier h hd hg hR a1] at a2
    exact a2

/-- C93: Suppose that in every organization more than half but not all of the nodes are needed. Then all sets
of `2 * t - |orgs|` organizations are printed as minimal splitting sets, or just the empty set if not more than
half of the organizations are needed. -/
theorem C93_splitting_sets (hr : Run env order opts f g gs lines) (hd : DisjointGroups gs)
    (h : OrgCore f orgs need q) (hg : AreOrgs gs orgs)
    (hm : ∀ o ∈ orgs, o.card < 2 * need o ∧ need o < o.card) (j : Json)
    (hj : ("minimal_splitting_sets", j) ∈ results lines) :
    (2 * q.threshold ≤ orgs.card → ShowsSets opts.describe opts.pretty gs f [∅] j) ∧
    (orgs.card < 2 * q.threshold → ∃ R L, FirstMembers gs orgs R ∧
      AllOfSize R (2 * q.threshold - orgs.card) L ∧ L.Pairwise Before ∧
      ShowsSets opts.describe opts.pretty gs f L j) := by
  constructor
  · intro hle
    have hqi : ¬ QuorumIntersection f := by
      rw [h.quorumIntersection_iff]
      omega
    exact (C65_splitting_without_intersection hr hd j
      (.inl (C91_well_shaped env hr.spec.1 h.tidy)) hj).1 hqi
  · intro hlt
    obtain ⟨R, hR⟩ := exists_firstMembers gs orgs
    obtain ⟨L, a1, a2, a3⟩ := (C91_tool hr hd h.exists_quorum h.tidy j).2.2.1 hj (.inl (h.majorities hm))
    exact ⟨R, L, hR, ⟨nodup_of_listed a2, fun S => by
      rw [a1, (orgs_group_sets h hd hg hR S).2.2 hm hlt]⟩, a2, a3⟩

/-- C93: The symmetric cluster is printed as a flat quorum set with the same threshold that lists every
organization once. -/
theorem C93_cluster (hr : Run env order opts f g gs lines) (hd : DisjointGroups gs)
    (h : OrgCore f orgs need q) (hg : AreOrgs gs orgs) (j : Json)
    (hj : ("symmetric_clusters", j) ∈ results lines) :
    ∃ R q', FirstMembers gs orgs R ∧ q'.threshold = q.threshold ∧ q'.inner = [] ∧ q'.validators.Nodup ∧
      (∀ x, x ∈ q'.validators ↔ x ∈ R) ∧ ShowsQSets opts.pretty gs f [q'] j := by
  obtain ⟨R, hR⟩ := exists_firstMembers gs orgs
  obtain ⟨g', rfl, hg'⟩ : ∃ g', g = some g' ∧ Groupings.new gs f = .ok g' := by
    rcases hr.made with ⟨-, rfl⟩ | h'
    · obtain ⟨o, ho, -⟩ := h.orgs_nonempty
      obtain ⟨org, h1, -⟩ := hg o ho
      cases h1
    · exact h'
  obtain ⟨q', a1, a2, a3, a4, a5⟩ := h.merged hd hg hR hg'
  obtain ⟨L, M, b1, b2, b3, -, b5⟩ := C65_clusters hr hd j hj
  have hL : L = [q] := by
    have hm : ∀ p, p ∈ L ↔ p = q := fun p => by rw [b1, h.symCluster_iff]
    match L, hm, b2 with
    | [], hm, _ => exact absurd ((hm q).2 rfl) (by simp)
    | [a], hm, _ => rw [(hm a).1 (by simp)]
    | a :: b :: l, hm, b2 =>
      rw [(hm a).1 (by simp), (hm b).1 (by simp)] at b2
      simp at b2
  have hM := b5 g' rfl
  rw [hL] at hM
  obtain ⟨p, l, hp, hl, rfl⟩ := List.forall₂_cons_left_iff.1 hM
  rw [List.forall₂_nil_left_iff] at hl
  subst hl
  rw [a1] at hp
  obtain rfl := Except.ok.inj hp
  exact ⟨R, q', hR, a2, a3, a4, a5, b3⟩

end

section
variable {env : Env} {order : List String → List String} {hash : Json → String} {label : Text}
  {nodes : Json} {organizations : Option Json} {r : RawFbas} {k : Kind} {g : Option Groupings}
  {gs : List Grouping} {d : DataPoint} {orgs : Finset NodeSet} {need : NodeSet → ℕ} {q : QuorumSet}

theorem sizes_allOfSize {R : NodeSet} {n : ℕ} {L : List NodeSet} (hL : AllOfSize R n L) (hn : n ≤ R.card)
    {c : Option ℕ × Option ℕ × Option ℚ} (h : ShowsSizes L c) : c = (some n, some n, some (n : ℚ)) := by
  obtain ⟨lo, hi, mean, rfl, hs⟩ := h
  obtain ⟨S, h1, h2⟩ := Finset.exists_subset_card_eq hn
  have hS : S ∈ L := (hL.2 S).2 ⟨h1, h2⟩
  have hne : L ≠ [] := List.ne_nil_of_mem hS
  have hsize : ∀ S ∈ L, S.card = n := fun S hS => ((hL.2 S).1 hS).2
  obtain ⟨⟨S₁, b1, b2⟩, S₂, c1, c2⟩ := hs.attained hne
  have hsum : (L.map Finset.card).sum = n * L.length := by
    clear hL hs hS hne b1 c1
    induction L with
    | nil => rfl
    | cons a L ih =>
      rw [List.map_cons, List.sum_cons, ih fun S hS => hsize S (List.mem_cons_of_mem a hS),
        hsize a List.mem_cons_self, List.length_cons]
      ring
  have hm := hs.mean
  rw [hsum, Nat.cast_mul] at hm
  have hpos : (L.length : ℚ) ≠ 0 := by
    rw [Nat.cast_ne_zero]
    exact fun h0 => hne (List.length_eq_zero_iff.1 h0)
  rw [← b2, ← c2, hsize S₁ b1, hsize S₂ c1, mul_right_cancel₀ hpos hm]

/-- C93: In the data point that the bulk analyzer writes for a network of organizations, the columns for
organizations (or for other groups that correspond to the organizations) contain the number of organizations,
and the numbers of organizations that are needed for a quorum, to block, and to split. -/
theorem C93_bulk (ho : ∀ l, (order l).Perm l)
    (hr : BulkRun env order hash label nodes organizations r k g gs d) (hd : DisjointGroups gs)
    (hi : HasInformation r organizations k) (h : OrgCore (Fbas.fromRaw r) orgs need q)
    (hg : AreOrgs gs orgs) :
    (columns d k).topTierSize = some orgs.card ∧
    (columns d k).mq = (some q.threshold, some q.threshold, some (q.threshold : ℚ)) ∧
    (columns d k).mbs = (some (orgs.card - q.threshold + 1), some (orgs.card - q.threshold + 1),
      some ((orgs.card - q.threshold + 1 : ℕ) : ℚ)) ∧
    ((∀ o ∈ orgs, o.card < 2 * need o ∧ need o < o.card) →
      (columns d k).mss = (some (2 * q.threshold - orgs.card), some (2 * q.threshold - orgs.card),
        some ((2 * q.threshold - orgs.card : ℕ) : ℚ))) := by
  obtain ⟨R, hR⟩ := exists_firstMembers gs orgs
  have hc := orgs_card h hd hg hR
  have hle := h.le
  have hpos := h.pos
  obtain ⟨⟨T, a1, a2⟩, ⟨Q, b1, b2, b3⟩, ⟨B, c1, c2, c3⟩, hs⟩ := C91_bulk ho hr hd hi h.exists_quorum h.tidy
  refine ⟨?_, ?_, ?_, fun hm => ?_⟩
  · rw [a2, orgs_top_tier h hd hg hR a1, hc]
  · exact sizes_allOfSize (R := R) ⟨b2, fun S => by rw [b1, (orgs_group_sets h hd hg hR S).1]⟩ (by omega) b3
  · exact sizes_allOfSize (R := R) ⟨c2, fun S => by rw [c1, (orgs_group_sets h hd hg hR S).2.1]⟩ (by omega) c3
  · by_cases hlt : orgs.card < 2 * q.threshold
    · obtain ⟨S, e1, e2, e3⟩ := hs (h.majorities hm) (h.quorumIntersection_iff.2 (by
        rw [Finset.filter_false_of_mem fun o ho => by have := hm o ho; omega, Finset.card_empty]
        omega))
      exact sizes_allOfSize (R := R) ⟨e2, fun G => by rw [e1, (orgs_group_sets h hd hg hR G).2.2 hm hlt]⟩
        (by omega) e3
    · have hqi : ¬ QuorumIntersection (Fbas.fromRaw r) := by
        rw [h.quorumIntersection_iff]
        omega
      rw [C69_splitting_without_intersection ho hr hd hi hqi, Nat.sub_eq_zero_of_le (by omega)]
      rfl

end

/-! ## Concrete case

The three organizations of C92 as input files. -/

def nodesThreeOrgs : Json := threeOrgsFbas.toJson

def orgsThree : Json := .arr [
  .obj [("name", .str "A"), ("validators", .arr [.str "n0", .str "n1", .str "n2"])],
  .obj [("name", .str "B"), ("validators", .arr [.str "n3", .str "n4", .str "n5"])],
  .obj [("name", .str "C"), ("validators", .arr [.str "n6", .str "n7", .str "n8"])]]

def groupsThree : List Grouping := [⟨"A", [0, 1, 2]⟩, ⟨"B", [3, 4, 5]⟩, ⟨"C", [6, 7, 8]⟩]

theorem nodesThreeOrgs_isSome : (RawFbas.fromJson nodesThreeOrgs).isSome = true := by decide +kernel

theorem nodesThreeOrgs_raw {r : RawFbas} (hr : DescribesFbas nodesThreeOrgs r) :
    r = (RawFbas.fromJson nodesThreeOrgs).get nodesThreeOrgs_isSome :=
  Option.some.inj ((fbas_fromJson_iff.2 hr).symm.trans (Option.some_get _).symm)

theorem nodesThreeOrgs_nodes : (Fbas.fromRaw ((RawFbas.fromJson nodesThreeOrgs).get nodesThreeOrgs_isSome)).nodes =
    threeOrgsFbas.nodes := by decide +kernel

theorem orgsThree_groups : (maybeLoadOrganizations (some orgsThree)
    (Fbas.fromRaw ((RawFbas.fromJson nodesThreeOrgs).get nodesThreeOrgs_isSome))).map
      (fun g => g.map Groupings.groupings) = .ok (some groupsThree) := Ref.ok_of (by decide +kernel)

theorem threeOrgs_core_of {f : Fbas} (h : f.nodes = threeOrgsFbas.nodes) :
    OrgCore f threeOrgsSets (fun _ => 2) threeOrgs := by
  have hq : ∀ x q, HasQSet f x q ↔ HasQSet threeOrgsFbas x q := fun x q => by
    unfold HasQSet
    rw [h]
  have hc := threeOrgs_core
  refine ⟨fun o ho x hx => (hq x _).2 (hc.members o ho x hx), hc.noValidators, hc.flat, hc.once, hc.lists,
    hc.agree, hc.disjoint, hc.sizes, hc.pos, hc.le, fun Q hQ => hc.needed Q ⟨hQ.1, fun x hx => ?_⟩⟩
  obtain ⟨q, h1, h2⟩ := hQ.2 x hx
  exact ⟨q, (hq x q).1 h1, h2⟩

theorem groupsThree_disjoint : DisjointGroups groupsThree := by unfold DisjointGroups; decide +kernel

theorem groupsThree_orgs : AreOrgs groupsThree threeOrgsSets := by unfold AreOrgs; decide +kernel

theorem made_groups {g : Option Groupings} {gs gs' : List Grouping} {f : Fbas} (h : MadeFrom g gs f)
    (hg : g.map Groupings.groupings = some gs') : gs = gs' := by
  rcases h with ⟨rfl, -⟩ | ⟨g', rfl, h⟩
  · cases hg
  · obtain ⟨g'', h1, h2, -⟩ := new_ok ((C33_new gs f).1 ⟨g', h⟩)
    rw [h] at h1
    obtain rfl := Except.ok.inj h1
    rw [← h2]
    exact Option.some.inj hg

theorem load_three {r : RawFbas} (hr : DescribesFbas nodesThreeOrgs r) {g : Option Groupings}
    (h : maybeLoadOrganizations (some orgsThree) (Fbas.fromRaw r) = .ok g) :
    g.map Groupings.groupings = some groupsThree := by
  have := orgsThree_groups
  rw [← nodesThreeOrgs_raw hr, h] at this
  exact Except.ok.inj this

theorem nodesThreeOrgs_described : ∃ r, DescribesFbas nodesThreeOrgs r :=
  ⟨_, fbas_fromJson_iff.1 (Option.some_get nodesThreeOrgs_isSome).symm⟩

theorem orgsThree_described : ∃ gs, DescribesGroupings orgsThree gs := by
  have h : (orgsThree.vec? RawGrouping.fromJson).isSome = true := by decide +kernel
  exact ⟨_, groupings_fromJson_iff.1 (Option.some_get h).symm⟩

/-- The bulk analyzer counts three organizations; two of them are needed for a quorum, two of them block, and
one of them splits. -/
example (env : Env) (order : List String → List String) (ho : ∀ l, (order l).Perm l) (hash : Json → String)
    (label : Text) :
    ∃ d, Bulk.analyze env order hash label nodesThreeOrgs (some orgsThree) = .ok d ∧ columns d .orgs =
      ⟨some 3, (some 2, some 2, some 2), (some 1, some 1, some 1), (some 2, some 2, some 2)⟩ := by
  obtain ⟨r, hr⟩ := nodesThreeOrgs_described
  have hnone : ∀ n ∈ r, n.isp = none ∧ n.geoData = none := by
    rw [nodesThreeOrgs_raw hr]
    decide +kernel
  obtain ⟨d, hd⟩ := (C69_panics_iff env order hash label nodesThreeOrgs (some orgsThree)).2
    ⟨r, hr, fun n hn s hs => absurd ((hnone n hn).1.symm.trans hs) (by simp),
      fun n hn s hs => absurd ((hnone n hn).2.symm.trans hs) (by simp), fun j hj => by
      obtain rfl := Option.some.inj hj
      exact orgsThree_described⟩
  refine ⟨d, hd, ?_⟩
  obtain ⟨r', g, gs, hb⟩ := exists_bulkRun hd .orgs
  obtain rfl := C62_unambiguous _ _ _ hr hb.described
  obtain rfl := made_groups hb.made (load_three hr hb.groups)
  obtain ⟨h1, h2, h3, h4⟩ := C93_bulk ho hb groupsThree_disjoint (by simp [HasInformation])
    (threeOrgs_core_of (by rw [nodesThreeOrgs_raw hr]; exact nodesThreeOrgs_nodes)) groupsThree_orgs
  have h5 := h4 (by decide +kernel)
  rw [show columns d .orgs = ⟨(columns d .orgs).topTierSize, (columns d .orgs).mbs, (columns d .orgs).mss,
    (columns d .orgs).mq⟩ from rfl, h1, h2, h3, h5]
  rfl

/-- The command line tool, with organizations and everything else. -/
def optsThreeOrgs : Options := { plain nodesThreeOrgs with all := true, organizations := some orgsThree }

theorem firstMembers_three {R : NodeSet} (hR : FirstMembers groupsThree threeOrgsSets R) :
    R = {0, 3, 6} := by
  ext x
  rw [hR]
  constructor
  · rintro ⟨org, h1, -, h3⟩
    have h : ∀ org ∈ groupsThree, org.validators.head? = some 0 ∨ org.validators.head? = some 3 ∨
      org.validators.head? = some 6 := by decide +kernel
    rcases h org h1 with h | h | h <;> rw [h] at h3 <;> rw [← Option.some.inj h3] <;> simp
  · intro hx
    have h : ∀ x ∈ ({0, 3, 6} : NodeSet), ∃ org ∈ groupsThree, org.validators.toFinset ∈ threeOrgsSets ∧
      org.validators.head? = some x := by decide +kernel
    exact h x hx

example (env : Env) (order : List String → List String) :
    ∃ f lines, Tool.main env order optsThreeOrgs = .ok lines ∧ ∀ j,
      (("minimal_quorums", j) ∈ results lines → ∃ L, AllOfSize {0, 3, 6} 2 L ∧
        ShowsSets false false groupsThree f L j) ∧
      (("minimal_blocking_sets", j) ∈ results lines → ∃ L, AllOfSize {0, 3, 6} 2 L ∧
        ShowsSets false false groupsThree f L j) ∧
      (("minimal_splitting_sets", j) ∈ results lines → ∃ L, AllOfSize {0, 3, 6} 1 L ∧
        ShowsSets false false groupsThree f L j) ∧
      (("symmetric_clusters", j) ∈ results lines → ∃ q, q.threshold = 2 ∧ q.inner = [] ∧
        (∀ x, x ∈ q.validators ↔ x ∈ ({0, 3, 6} : NodeSet)) ∧ ShowsQSets false groupsThree f [q] j) ∧
      (("top_tier", j) ∈ results lines → ShowsSet false groupsThree f {0, 3, 6} j) := by
  obtain ⟨r, hr⟩ := nodesThreeOrgs_described
  obtain ⟨lines, hl⟩ := (C65_panics_iff env order optsThreeOrgs).2 ⟨r, hr,
    fun h => by simp [ByCountry, optsThreeOrgs, plain] at h, fun h => by
      simp [ByIsp, optsThreeOrgs, plain] at h, fun j hj => by
      obtain rfl := Option.some.inj hj.2.2
      exact orgsThree_described, fun h => by
      simp [UsesAlternative, optsThreeOrgs, plain] at h⟩
  obtain ⟨f, g, gs, hrun⟩ := exists_run hl
  obtain ⟨r', hr', rfl⟩ := ((C62_nodes _).1 f).1 hrun.nodes
  obtain rfl := C62_unambiguous _ _ _ hr hr'
  obtain rfl := made_groups hrun.made (load_three hr hrun.groups)
  have hcore := threeOrgs_core_of (f := Fbas.fromRaw r) (by rw [nodesThreeOrgs_raw hr]; exact nodesThreeOrgs_nodes)
  obtain ⟨R, h1, -, h2⟩ := C93_sets hrun groupsThree_disjoint hcore groupsThree_orgs
  obtain rfl := firstMembers_three h1
  refine ⟨_, lines, hl, fun j => ⟨fun hj => ?_, fun hj => ?_, fun hj => ?_, fun hj => ?_, (h2 j).2.2⟩⟩
  · obtain ⟨L, a1, -, a2⟩ := (h2 j).1 hj
    exact ⟨L, a1, a2⟩
  · obtain ⟨L, a1, -, a2⟩ := (h2 j).2.1 hj
    exact ⟨L, a1, a2⟩
  · obtain ⟨R, L, a0, a1, -, a2⟩ := (C93_splitting_sets hrun groupsThree_disjoint hcore groupsThree_orgs
      (by decide +kernel) j hj).2 (by decide +kernel)
    obtain rfl := firstMembers_three a0
    exact ⟨L, a1, a2⟩
  · obtain ⟨R, q, a0, a1, a2, -, a3, a4⟩ := C93_cluster hrun groupsThree_disjoint hcore groupsThree_orgs j hj
    obtain rfl := firstMembers_three a0
    exact ⟨q, a1, a2, a3, a4⟩

/-- Concrete case of `C91_tool` and `C91_tool_independent`: two runs for this network, with all results and with
minimal blocking sets only. -/
example (env : Env) (order : List String → List String) : ∃ f lines lines',
    TidyTopTier f ∧ Tool.main env order optsThreeOrgs = .ok lines ∧
    Tool.main env order { plain nodesThreeOrgs with
      minimalBlockingSets := true, organizations := some orgsThree } = .ok lines' ∧
    ∀ j j', ("minimal_blocking_sets", j) ∈ results lines → ("minimal_blocking_sets", j') ∈ results lines' →
      j = j' ∧ ∃ L, MinimalGroupSets groupsThree f (Blocking f) L ∧
        ShowsSets false false groupsThree f L j := by
  obtain ⟨r, hr⟩ := nodesThreeOrgs_described
  have hok : ∀ opts : Options, opts.nodes = nodesThreeOrgs → opts.ctryMerge = false → opts.ispMerge = false →
      opts.organizations = some orgsThree → opts.alternativeCheck = false →
      ∃ lines, Tool.main env order opts = .ok lines := fun opts h1 h2 h3 h4 h5 =>
    (C65_panics_iff env order opts).2 ⟨r, h1 ▸ hr, fun h => by simp [ByCountry, h2] at h,
      fun h => by simp [ByIsp, h3] at h, fun j hj => by
        obtain rfl := Option.some.inj (h4.symm.trans hj.2.2)
        exact orgsThree_described, fun h => by simp [UsesAlternative, h5] at h⟩
  obtain ⟨lines, hl⟩ := hok optsThreeOrgs rfl rfl rfl rfl rfl
  obtain ⟨lines', hl'⟩ := hok { plain nodesThreeOrgs with
    minimalBlockingSets := true, organizations := some orgsThree } rfl rfl rfl rfl rfl
  obtain ⟨f, g, gs, hrun⟩ := exists_run hl
  obtain ⟨r', hr', rfl⟩ := ((C62_nodes _).1 f).1 hrun.nodes
  obtain rfl := C62_unambiguous _ _ _ hr hr'
  obtain rfl := made_groups hrun.made (load_three hr hrun.groups)
  have hcore := threeOrgs_core_of (f := Fbas.fromRaw r)
    (by rw [nodesThreeOrgs_raw hr]; exact nodesThreeOrgs_nodes)
  refine ⟨_, lines, lines', hcore.tidy, hl, hl', fun j j' hj hj' => ⟨?_, ?_⟩⟩
  · exact C91_tool_independent (opts' := { plain nodesThreeOrgs with
        minimalBlockingSets := true, organizations := some orgsThree }) hrun
      ⟨hrun.nodes, hrun.groups, hrun.made, hl'⟩ rfl rfl groupsThree_disjoint hcore.tidy _ (by decide) j j' hj hj'
  · obtain ⟨L, h1, -, h2⟩ := (C91_tool hrun groupsThree_disjoint hcore.exists_quorum hcore.tidy j).2.1 hj
    exact ⟨L, h1, h2⟩

#print axioms C93_sets
#print axioms C93_splitting_sets
#print axioms C93_cluster
#print axioms C93_bulk

end FA.Props
