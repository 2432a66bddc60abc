import Verif.Lemmas.Bounds
import Verif.Props.Execution
import Verif.Props.TidyTool

/-!
# C96: what is printed about groups, for a running network
-/

namespace FA.Props
open FA Spec Analysis Tool Groupings

section
variable {f : Fbas} {gs : List Grouping}

/-- All existing nodes of a set belong to the groups of its members. -/
theorem blocking_expand (hd : DisjointGroups gs) (he : MembersExist gs f) {B T : NodeSet}
    (hT : GroupsOf gs f (fun x => x ∈ B) T) (hB : Blocking f B) : Blocking f (expand gs f T) := by
  intro Q hQ
  obtain ⟨y, hy, hyB⟩ := hB Q hQ
  have hlt : y < f.nodes.length := by
    obtain ⟨q, ⟨node, hn, -⟩, -⟩ := hQ.2 y hy
    exact (List.getElem?_eq_some_iff.1 hn).1
  obtain ⟨x, hx, hxy⟩ := exists_representative hd he hlt
  exact ⟨y, hy, mem_expand.2 ⟨hlt, x, (hT x).2 ⟨hx, y, hyB, sameGroup_symm hxy⟩, hxy⟩⟩

/-- A set of groups includes one of the minimal sets iff it has the property. -/
theorem includes_minimal {P : NodeSet → Prop} (hP : ∀ S T, S ⊆ T → P S → P T) {L : List NodeSet}
    (hL : MinimalGroupSets gs f P L) {H : NodeSet} (hH : ∀ x ∈ H, Representative gs f x) :
    P (expand gs f H) ↔ ∃ G ∈ L, G ⊆ H := by
  constructor
  · intro h
    obtain ⟨G, hG, hm⟩ := exists_minimal_le_of_wellFoundedLT
      (fun G => (∀ x ∈ G, Representative gs f x) ∧ P (expand gs f G)) H ⟨hH, h⟩
    exact ⟨G, (hL G).2 hm, hG⟩
  · rintro ⟨G, hG, hGH⟩
    exact hP _ _ (expand_mono hGH) ((hL G).1 hG).prop.2

theorem some_run {B : NodeSet} (h : ¬ StopsAll f B) : ∃ R, MayLeave f B R ∧ AtRest f R ∧ R.Nonempty := by
  unfold StopsAll at h
  push Not at h
  obtain ⟨R, h1, h2, h3⟩ := h
  exact ⟨R, h1, h2, h3⟩

end

section
variable {env : Env} {order : List String → List String} {opts : Options} {f : Fbas}
  {g : Option Groupings} {gs : List Grouping} {lines : List Line}

/-- C96: If all members of the groups in one of the printed minimal blocking sets fail, then all nodes stop in
every execution, for all networks and options. -/
theorem C96_printed_stop (hr : Run env order opts f g gs lines) (hd : DisjointGroups gs) (j : Json)
    (h : ("minimal_blocking_sets", j) ∈ results lines) :
    ∃ L, ShowsSets opts.describe opts.pretty gs f L j ∧
      ∀ G ∈ L, ∀ B, expand gs f G ⊆ B → StopsAll f B := by
  obtain ⟨L, h1, h2⟩ := C65_blocking_sound hr hd j h
  exact ⟨L, h2, fun G hG B hB => stopsAll_iff.2 (Blocking.mono _ _ hB (h1 G hG))⟩

/-- C96: For networks with a tidy top tier, the printed minimal blocking sets of groups are exactly the minimal
sets of groups whose failure stops all nodes. Hence the failure of a set of groups stops all nodes iff it
includes a printed one. Whatever nodes fail: if their groups (`T`) do not include a printed set, in particular
if there are fewer of them than in the smallest printed set, then some nodes keep running. -/
theorem C96_stop (hr : Run env order opts f g gs lines) (hd : DisjointGroups gs) (hq : ∃ Q, IsQuorum f Q)
    (ht : TidyTopTier f) (j : Json) (h : ("minimal_blocking_sets", j) ∈ results lines) :
    ∃ L, ShowsSets opts.describe opts.pretty gs f L j ∧ MinimalGroupSets gs f (StopsAll f) L ∧
      (∀ H, (∀ x ∈ H, Representative gs f x) → (StopsAll f (expand gs f H) ↔ ∃ G ∈ L, G ⊆ H)) ∧
      ∀ B T : NodeSet, GroupsOf gs f (fun x => x ∈ B) T →
        (∀ G ∈ L, ¬ G ⊆ T) ∨ (∀ G ∈ L, T.card < G.card) →
        ∃ R, MayLeave f B R ∧ AtRest f R ∧ R.Nonempty := by
  obtain ⟨-, he, -⟩ := hr.spec
  obtain ⟨L, h1, -, h3⟩ := (C91_tool hr hd hq ht j).2.1 h
  have e : StopsAll f = Blocking f := funext fun B => propext stopsAll_iff
  have hi := fun H (hH : ∀ x ∈ H, Representative gs f x) =>
    includes_minimal (fun S T => Blocking.mono S T) h1 hH
  refine ⟨L, h3, by rw [e]; exact h1, fun H hH => by rw [e]; exact hi H hH, fun B T hT hL => ?_⟩
  refine some_run (fun hs => ?_)
  rw [e] at hs
  obtain ⟨G, hG, hGT⟩ := (hi T (fun x hx => ((hT x).1 hx).1)).1 (blocking_expand hd he hT hs)
  rcases hL with hL | hL
  · exact hL G hG hGT
  · exact Nat.not_le.2 (hL G hG) (Finset.card_le_card hGT)

/-- C96: For networks with a tidy top tier, quorum intersection and majorities inside, decisions agree in all
executions without misbehaving nodes. For each printed minimal splitting set of groups, there is an execution
with different decisions in which only members of these groups misbehave. No members of other sets of groups
can lead others to different decisions by taking part in both of them (if there are different minimal
quorums). -/
theorem C96_disagree (hr : Run env order opts f g gs lines) (hd : DisjointGroups gs)
    (hqi : QuorumIntersection f) (ht : TidyTopTier f) (hm : MajoritiesInside f) (j : Json)
    (h : ("minimal_splitting_sets", j) ∈ results lines) :
    AlwaysAgrees f ∅ ∧ ∃ L, ShowsSets opts.describe opts.pretty gs f L j ∧
      (∀ G ∈ L, ∃ S ⊆ expand gs f G, ∃ s, Relation.ReflTransGen (VoteStep f S) Voting.start s ∧
        ∃ x y, s.decided x 0 ∧ s.decided y 1) ∧
      ∀ H, (∀ x ∈ H, Representative gs f x) → (∀ G ∈ L, ¬ G ⊆ H) →
        (∃ P Q, IsMinQuorum f P ∧ IsMinQuorum f Q ∧ P ≠ Q) → ∀ S ⊆ expand gs f H, ¬ CanFork f S := by
  refine ⟨alwaysAgrees_iff.2 ((C82_intersection f hqi.1).1 hqi), ?_⟩
  obtain ⟨L, h1, -, h3⟩ := (C91_tool hr hd hqi.1 ht j).2.2.1 h (.inl hm)
  refine ⟨L, h3, fun G hG => ?_, fun H hH hL h2 S hS hc => ?_⟩
  · obtain ⟨S, hS, hmin⟩ := exists_minimal_le_of_wellFoundedLT (Splitting f) _ ((h1 G).1 hG).prop.2
    exact ⟨S, hS, disagreement (C82_endangers f S hmin)⟩
  · obtain ⟨S', hS', hmin⟩ := exists_minimal_le_of_wellFoundedLT (CanFork f) S hc
    have hsp := ((C82_fork f h2 S').2 hmin).prop
    obtain ⟨G, hG, hGH⟩ := (includes_minimal (fun S T => Splitting.mono S T) h1 hH).1
      (Splitting.mono _ _ (Finset.Subset.trans hS' hS) hsp)
    exact hL G hG hGH

end

/-- The network of four nodes of `optsFour` has a tidy top tier. -/
theorem four_tidy {f : Fbas} (hn : f.nodes.map Node.quorumSet = List.replicate 4 ⟨3, [0, 1, 2, 3], []⟩)
    (hQ : ∀ x < 4, ∃ Q ∈ (Finset.range 4).powerset, IsMinQuorum f Q ∧ x ∈ Q) :
    TidyTopTier f ∧ MajoritiesInside f := by
  have key : ∀ x q, HasQSet f x q → q = ⟨3, [0, 1, 2, 3], []⟩ := by
    rintro x q ⟨n, h, rfl⟩
    have : n.quorumSet ∈ f.nodes.map Node.quorumSet := List.mem_map_of_mem (List.mem_of_getElem? h)
    rw [hn] at this
    exact List.eq_of_mem_replicate this
  refine ⟨fun x q _ hq => ?_, fun x q _ hq q' hq' => ?_⟩
  · obtain rfl := key x q hq
    refine ⟨Ref.dupFree_of (by decide +kernel), .intro _ (by decide) (by decide) (by simp), fun y hy => ?_⟩
    rw [← QuorumSet.mem_containedNodes] at hy
    have : ∀ y ∈ (⟨3, [0, 1, 2, 3], []⟩ : QuorumSet).containedNodes, y < 4 := by decide +kernel
    obtain ⟨Q, -, h1, h2⟩ := hQ y (this y hy)
    exact ⟨Q, h1, h2⟩
  · obtain rfl := key x q hq
    cases hq'

/-- The hypotheses are met by a network of four nodes of which two are one organization: the organization `A`,
or the other two nodes, can stop all nodes, and can lead to different decisions. -/
example : ∃ f g gs, Run (Ref.refEnv 4) id optsFour f g gs linesFour ∧ DisjointGroups gs ∧
    QuorumIntersection f ∧ TidyTopTier f ∧ MajoritiesInside f ∧
    (∃ L, ShowsSets false true gs f L (nameSets [["A"], ["n2", "n3"]]) ∧
      MinimalGroupSets gs f (StopsAll f) L) ∧
    ∃ L, ShowsSets false true gs f L (nameSets [["A"], ["n2", "n3"]]) ∧
      ∀ G ∈ L, ∃ S ⊆ expand gs f G, ∃ s, Relation.ReflTransGen (VoteStep f S) Voting.start s ∧
        ∃ x y, s.decided x 0 ∧ s.decided y 1 := by
  obtain ⟨f, g, gs, hr⟩ := exists_run main_four
  obtain ⟨r, hr0, rfl⟩ := ((C62_nodes _).1 f).1 hr.nodes
  have er : r = (RawFbas.fromJson nodesFour).get nodesFour_isSome :=
    Option.some.inj ((fbas_fromJson_iff.2 hr0).symm.trans (Option.some_get _).symm)
  have hk : DistinctKeys r := by rw [er]; unfold DistinctKeys; decide +kernel
  have hqi : QuorumIntersection (Fbas.fromRaw r) := by rw [er]; decide +kernel
  have ht := four_tidy (f := Fbas.fromRaw r) (by rw [er]; decide +kernel) (by rw [er]; decide +kernel)
  have hd : DisjointGroups gs := by
    obtain ⟨raws, h1, h2⟩ := (C65_groups (fun l => .refl l) hr r hr0 hk).2.2.1 orgsFour ⟨rfl, rfl, rfl⟩
    have hl : raws.length = 1 := by
      have e : (orgsFour.vec? RawGrouping.fromJson).map List.length = some 1 := by decide +kernel
      rw [groupings_fromJson_iff.2 h1] at e
      exact Option.some.inj e
    rw [h2.length_eq] at hl
    obtain ⟨a, rfl⟩ := List.length_eq_one_iff.1 hl
    intro b hb c hc x _ _
    rw [List.mem_singleton.1 hb, List.mem_singleton.1 hc]
  obtain ⟨B, b1, b2, -⟩ := C96_stop hr hd hqi.1 ht.1 _ (List.mem_of_getElem? (i := 5) rfl)
  obtain ⟨-, S, s1, s2, -⟩ := C96_disagree hr hd hqi ht.1 ht.2 _ (List.mem_of_getElem? (i := 6) rfl)
  exact ⟨_, g, gs, hr, hd, hqi, ht.1, ht.2, ⟨B, b1, b2⟩, S, s1, s2⟩

#print axioms C96_printed_stop
#print axioms C96_stop
#print axioms C96_disagree

end FA.Props
