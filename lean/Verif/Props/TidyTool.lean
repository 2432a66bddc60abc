import Verif.Props.BulkAnalyze
import Verif.Props.Tidy
import Verif.Props.Tool

/-!
# C91 for the command line tool and the bulk analyzer
-/

namespace FA.Props
open FA Spec Analysis Tool Bulk Groupings

section
variable {f : Fbas} {gs : List Grouping}

/-- Symmetric clusters of the top tier of a tidy network are as required in C19. -/
theorem tidy_clusters (h : TidyTopTier f) (hm : MajoritiesInside f) :
    ∀ T : NodeSet, (∀ x, x ∈ T ↔ InTopTier f x) → ∀ f' sm, f.shrunken T = .ok (f', sm) →
      ∀ q, SymCluster f' q → DupFree q ∧ q.threshold ≤ q.validators.length + q.inner.length ∧
        ∀ q' ∈ q.inner, Majority q' := by
  intro T hT f' sm hs q hq
  obtain ⟨h1, h2⟩ := ((shapedOn_iff _ _).1 (h.shaped fun x hx => (hT x).2 hx)) f' sm hs q hq
  cases h2 with
  | intro _ h3 h4 _ => exact ⟨h1, h4, C91_majorities h hm T hT f' sm hs q hq⟩

theorem splitting_empty (hq : ∃ Q, IsQuorum f Q) (hqi : ¬ QuorumIntersection f) (S : NodeSet) :
    Splitting f S :=
  Splitting.mono ∅ S (Finset.empty_subset S) ((isMinSplitting_of_not_intersection hq hqi ∅).2 rfl).prop

theorem minimalGroupSets_empty {P : NodeSet → Prop} (hP : ∀ S, P S) : MinimalGroupSets gs f P [∅] := by
  intro G
  rw [List.mem_singleton]
  constructor
  · rintro rfl
    exact ⟨⟨fun x hx => absurd hx (Finset.notMem_empty x), hP _⟩, fun T _ _ => Finset.empty_subset T⟩
  · intro h
    exact Finset.subset_empty.1 (h.le_of_le
      ⟨fun x hx => absurd hx (Finset.notMem_empty x), hP _⟩ (Finset.empty_subset G))

end

section
variable {env : Env} {order : List String → List String} {opts : Options} {f : Fbas}
  {g : Option Groupings} {gs : List Grouping} {lines : List Line}

/-- C91 for the command line tool: Everything that is printed about a network with a tidy top tier is right,
for all options and whatever is computed first: minimal quorums, minimal blocking sets and the top tier, of
nodes or of disjoint groups. The same holds for minimal splitting sets if inner quorum sets require a
majority, or if quorums do not intersect. -/
theorem C91_tool (hr : Run env order opts f g gs lines) (hd : DisjointGroups gs) (hq : ∃ Q, IsQuorum f Q)
    (h : TidyTopTier f) (j : Json) :
    (("minimal_quorums", j) ∈ results lines → ∃ L, MinimalGroupSets gs f (ContainsQuorum f) L ∧
      L.Pairwise Before ∧ ShowsSets opts.describe opts.pretty gs f L j) ∧
    (("minimal_blocking_sets", j) ∈ results lines → ∃ L, MinimalGroupSets gs f (Blocking f) L ∧
      L.Pairwise Before ∧ ShowsSets opts.describe opts.pretty gs f L j) ∧
    (("minimal_splitting_sets", j) ∈ results lines → MajoritiesInside f ∨ ¬ QuorumIntersection f →
      ∃ L, MinimalGroupSets gs f (Splitting f) L ∧
        L.Pairwise Before ∧ ShowsSets opts.describe opts.pretty gs f L j) ∧
    (("top_tier", j) ∈ results lines → ∃ T, GroupsOf gs f (InTopTier f) T ∧
      ShowsSet opts.pretty gs f T j) := by
  have hw := C91_well_shaped env hr.spec.1 h
  have hdup : ∀ f' sm, f.shrunken (f.relevantNodes env) = .ok (f', sm) → ∀ q, SymCluster f' q → DupFree q :=
    fun f' sm hs q hq => (hw.relevant f' sm hs q hq).1
  refine ⟨fun hj => ?_, fun hj => ?_, fun hj hm => ?_, fun hj => ?_⟩
  · obtain ⟨L, h1, -, -, h2, h3⟩ := C65_minimal_quorums hr hd j hj
    exact ⟨L, h1, h2 (.inr hdup), h3⟩
  · obtain ⟨L, h1, -, h2, h3⟩ := C65_blocking_partial hr hd j hq (.inl hw.relevant) hw.topTier hj
    exact ⟨L, h1, h2, h3⟩
  · by_cases hqi : QuorumIntersection f
    · obtain ⟨L, h1, -, h2, h3⟩ := C65_splitting_partial hr hd j hqi (.inl hw)
        (tidy_clusters h (hm.resolve_right (not_not.2 hqi))) hdup hj
      exact ⟨L, h1, h2, h3⟩
    · exact ⟨[∅], minimalGroupSets_empty (splitting_empty hq hqi), List.pairwise_singleton _ _,
        (C65_splitting_without_intersection hr hd j (.inl hw) hj).1 hqi⟩
  · obtain ⟨T, h1, -, h2⟩ := C65_top_tier_partial hr hd j (.inl hw) hj
    exact ⟨T, h1, h2⟩

/-- C91 for the command line tool: What is printed for a result does not depend on which other analyses are
requested. -/
theorem C91_tool_independent {opts' : Options} {lines' : List Line} (hr : Run env order opts f g gs lines)
    (hr' : Run env order opts' f g gs lines') (hp : opts.pretty = opts'.pretty)
    (hdesc : opts.describe = opts'.describe) (hd : DisjointGroups gs) (h : TidyTopTier f) (name : String)
    (hname : name ≠ "nonintersecting_quorums") (j j' : Json) (hj : (name, j) ∈ results lines)
    (hj' : (name, j') ∈ results lines') : j = j' :=
  C65_independent_partial hr hr' hp hdesc hd (.inl (C91_well_shaped env hr.spec.1 h)) name hname j j' hj hj'

end

section
variable {env : Env} {order : List String → List String} {hash : Json → String} {label : Text}
  {nodes : Json} {organizations : Option Json} {r : RawFbas} {k : Kind} {g : Option Groupings}
  {gs : List Grouping} {d : DataPoint}

/-- C91 for the bulk analyzer: All columns of the data point of a network with a tidy top tier are right. -/
theorem C91_bulk (ho : ∀ l, (order l).Perm l)
    (hr : BulkRun env order hash label nodes organizations r k g gs d) (hd : DisjointGroups gs)
    (hi : HasInformation r organizations k) (hq : ∃ Q, IsQuorum (Fbas.fromRaw r) Q)
    (h : TidyTopTier (Fbas.fromRaw r)) :
    (∃ T, GroupsOf gs (Fbas.fromRaw r) (InTopTier (Fbas.fromRaw r)) T ∧
      (columns d k).topTierSize = some T.card) ∧
    (∃ L, MinimalGroupSets gs (Fbas.fromRaw r) (ContainsQuorum (Fbas.fromRaw r)) L ∧ L.Nodup ∧
      ShowsSizes L (columns d k).mq) ∧
    (∃ L, MinimalGroupSets gs (Fbas.fromRaw r) (Blocking (Fbas.fromRaw r)) L ∧ L.Nodup ∧
      ShowsSizes L (columns d k).mbs) ∧
    (MajoritiesInside (Fbas.fromRaw r) → QuorumIntersection (Fbas.fromRaw r) →
      ∃ L, MinimalGroupSets gs (Fbas.fromRaw r) (Splitting (Fbas.fromRaw r)) L ∧ L.Nodup ∧
        ShowsSizes L (columns d k).mss) := by
  have hw := C91_well_shaped env (wf_fromRaw r) h
  have hdup : ∀ f' sm, (Fbas.fromRaw r).shrunken ((Fbas.fromRaw r).relevantNodes env) = .ok (f', sm) →
      ∀ q, SymCluster f' q → DupFree q := fun f' sm hs q hq => (hw.relevant f' sm hs q hq).1
  refine ⟨?_, ?_, ?_, fun hm hqi => ?_⟩
  · obtain ⟨T, h1, -, h2⟩ := C69_top_tier ho hr hd hi
    exact ⟨T, h1, h2⟩
  · obtain ⟨L, h1, -, h2, h3⟩ := C69_quorums ho hr hd hi
    exact ⟨L, h1, h2 (.inr hdup), h3⟩
  · obtain ⟨L, h1, -, h2, h3⟩ := C69_blocking_partial ho hr hd hi hq hw.topTier
    exact ⟨L, h1, h2, h3⟩
  · obtain ⟨L, h1, -, h2, h3⟩ := C69_splitting_partial ho hr hd hi hqi (tidy_clusters h hm) hdup
    exact ⟨L, h1, h2, h3⟩

end

/-! Concrete cases: see `Verif.Props.MergedOrgs`. -/

#print axioms C91_tool
#print axioms C91_tool_independent
#print axioms C91_bulk

end FA.Props
