import Verif.Lemmas.ToolRun
import Verif.Props.FrontEndSound
import Verif.Ref.Json

/-!
# Property theorems about the command line tool (C65)
-/

namespace FA.Props
open FA Spec Analysis Tool Groupings

/-! ## Panics -/

/-- C65: the tool panics exactly if the input is not accepted (see C62 for the described JSON, and C53
for the names), or if the alternative check is used although there is no quorum. -/
theorem C65_panics_iff (env : Env) (order : List String → List String) (opts : Options) :
    (∃ lines, Tool.main env order opts = .ok lines) ↔
      ∃ r, DescribesFbas opts.nodes r ∧
        (ByCountry opts → ∀ n ∈ r, ∀ s, n.geoData = some (some s) → AsciiEnd s) ∧
        (ByIsp opts → ∀ n ∈ r, ∀ s, n.isp = some s → AsciiEnd s) ∧
        (∀ j, ByOrg opts j → ∃ gs, DescribesGroupings j gs) ∧
        (UsesAlternative opts → ∃ Q, IsQuorum (Fbas.fromRaw r) Q) :=
  main_ok_iff env order opts

/-! ## Results -/

section
variable {env : Env} {order : List String → List String} {opts : Options} {f : Fbas}
  {g : Option Groupings} {gs : List Grouping} {lines : List Line}

/-- Everything that is printed is printed this way. -/
theorem exists_run (h : Tool.main env order opts = .ok lines) :
    ∃ f g gs, Run env order opts f g gs lines := by
  obtain ⟨r, hr, h1, h2, h3, -⟩ := (main_ok_iff env order opts).1 ⟨lines, h⟩
  obtain ⟨a, b⟩ := loadGroupings_spec order opts r hr
  obtain ⟨g, hg⟩ := a.2 ⟨h1, h2, h3⟩
  obtain ⟨gs, hm, -⟩ := b g hg
  exact ⟨Fbas.fromRaw r, g, gs, ((C62_nodes opts.nodes).1 _).2 ⟨r, hr, rfl⟩, hg, hm, h⟩

/-- C65: the number of nodes and the number of nodes after merging. -/
theorem C65_overview (hr : Run env order opts f g gs lines) (hd : DisjointGroups gs) (j : Json) :
    (("nodes_total", j) ∈ results lines → j = .nat f.nodes.length) ∧
      (("nodes_total_merged", j) ∈ results lines →
        ∃ T, GroupsOf gs f (fun x => x < f.nodes.length) T ∧ j = .nat T.card) := by
  constructor
  · intro h
    have hres := hr.result h
    generalize hn : "nodes_total" = n at hres
    cases hres <;> first | rfl | simp at hn
  · intro h
    have hres := hr.result h
    generalize hn : "nodes_total_merged" = n at hres
    cases hres with
    | merged hg hM =>
      refine ⟨_, mergedSet_spec hr.made hd hr.spec.2.1 (T := Finset.range f.nodes.length) (fun x => by simp)
        (fun x hx => Finset.mem_range.1 hx) ?_, rfl⟩
      rw [hg]
      exact hM
    | _ => simp at hn

/-- C65: without merging, exactly the symmetric clusters are shown; with merging, these clusters merged by
group. -/
theorem C65_clusters (hr : Run env order opts f g gs lines) (hd : DisjointGroups gs) (j : Json)
    (h : ("symmetric_clusters", j) ∈ results lines) :
    ∃ L M, (∀ q, q ∈ L ↔ SymCluster f q) ∧ L.Nodup ∧ ShowsQSets opts.pretty gs f M j ∧
      (g = none → M = L) ∧
      ∀ g', g = some g' → List.Forall₂ (fun q q' => g'.mergeQuorumSet q = .ok q') L M := by
  have hres := hr.result h
  generalize hn : "symmetric_clusters" = n at hres
  cases hres with
  | @clusters L M _ hL hM hj =>
    obtain ⟨L', h1, h2, h3, -⟩ := C22_symmetric_clusters env f hr.spec.1
    rw [hL] at h1
    obtain rfl := Except.ok.inj h1
    refine ⟨L, M, h2, h3, hj hd, ?_, ?_⟩
    · rintro rfl; exact hM
    · rintro g' rfl
      have hM : g'.mergeQuorumSets L = .ok M := hM
      rw [mergeQuorumSets_eq, mapE_eq_ok] at hM
      exact hM
  | _ => simp at hn

/-- C65: exactly the minimal quorums, or the minimal sets of groups that contain a quorum. This does not
depend on any other option. They are in the reporting order, and there are no repetitions if nodes are
merged or if no symmetric cluster of the relevant nodes lists a node twice (otherwise, see C27). -/
theorem C65_minimal_quorums (hr : Run env order opts f g gs lines) (hd : DisjointGroups gs) (j : Json)
    (h : ("minimal_quorums", j) ∈ results lines) :
    ∃ L, MinimalGroupSets gs f (ContainsQuorum f) L ∧ (g = none → ∀ S, S ∈ L ↔ IsMinQuorum f S) ∧
      L.Pairwise (fun S T => S = T ∨ Before S T) ∧
      (g ≠ none ∨ (∀ f' sm, f.shrunken (f.relevantNodes env) = .ok (f', sm) →
        ∀ q, SymCluster f' q → DupFree q) → L.Pairwise Before) ∧
      ShowsSets opts.describe opts.pretty gs f L j := by
  obtain ⟨hwf, he, -⟩ := hr.spec
  have hres := hr.result h
  generalize hn : "minimal_quorums" = n at hres
  cases hres with
  | @quorums L M _ hb hL hM hlt hj =>
    obtain ⟨L', -, h1, -, -, h2⟩ := C27_minimal_quorums_as_sets_partial env f hwf [] (.inl (by simp))
      (not_starts_of_not_mem (by simp))
    rw [hL] at h1
    obtain rfl : L = L' := by cases h1; rfl
    have h3 : ∀ S, S ∈ L ↔ Minimal (ContainsQuorum f) S := fun S => by
      rw [h2, isMinQuorum_iff_contains]; rfl
    obtain ⟨m1, m2, m3⟩ := mergedSets_spec (fun S T hST ⟨Q, g1, g2⟩ => ⟨Q, g1, g2.trans hST⟩) hr.made hd he
      h3 hlt hM
    obtain ⟨s1, s2⟩ := quorums_sorted env f hwf hL
    refine ⟨M, m1, fun hg S => by rw [m2 hg]; exact h2 S, ?_, ?_, hj⟩
    · by_cases hg : g = none
      · rw [m2 hg]; exact s1
      · exact (m3 hg).imp .inr
    · intro hcond
      by_cases hg : g = none
      · rw [m2 hg]; exact s2 (hcond.resolve_left (fun h => h hg))
      · exact m3 hg
  | _ => simp at hn

/-- C65: the verdict is right, with both checks, for every FBAS and all options. (The verdict is about
nodes, even if nodes are merged.) -/
theorem C65_intersection (hr : Run env order opts f g gs lines) (j : Json)
    (h : ("has_quorum_intersection", j) ∈ results lines) :
    ∃ b, j = .bool b ∧ (b = true ↔ QuorumIntersection f) := by
  obtain ⟨hwf, he, -, halt, -⟩ := hr.spec
  have hns := not_starts_of_not_mem (not_mem_callsQ opts)
  have hres := hr.result h
  generalize hn : "has_quorum_intersection" = n at hres
  cases hres with
  | @intersection v hd ha hv =>
    obtain ⟨b, h1, h2⟩ := C12_has_quorum_intersection env f hwf (callsQ opts) (safe_calls halt).1 hns
    rw [hv] at h1
    cases h1
    exact ⟨v, rfl, h2⟩
  | @alternative v w hd ha hv =>
    refine ⟨v, rfl, ?_⟩
    rcases C14_alternative_check env f hwf (halt ⟨hd, ha⟩) (callsQ opts) hns with ⟨h1, h2⟩ | ⟨h1, l, h2, -⟩
    · rw [hv] at h2
      cases h2
      simpa using h1
    · rw [hv] at h2
      cases h2
      simpa using h1
  | _ => simp at hn

/-- C65: `nonintersecting_quorums` are disjoint quorums. -/
theorem C65_nonintersecting (hr : Run env order opts f g gs lines) (j : Json)
    (h : ("nonintersecting_quorums", j) ∈ results lines) :
    ¬ QuorumIntersection f ∧ ∃ L, 2 ≤ L.length ∧ (∀ S ∈ L, IsQuorum f S) ∧
      L.Pairwise (fun P Q => ∀ x ∈ P, x ∉ Q) ∧ ShowsSets opts.describe opts.pretty gs f L j := by
  obtain ⟨hwf, he, -, halt, -⟩ := hr.spec
  have hns := not_starts_of_not_mem (not_mem_callsQ opts)
  have hres := hr.result h
  generalize hn : "nonintersecting_quorums" = n at hres
  cases hres with
  | @witness v L _ hd ha hv hj =>
    rcases C14_alternative_check env f hwf (halt ⟨hd, ha⟩) (callsQ opts) hns with
      ⟨h1, h2⟩ | ⟨h1, l, h2, h3, h4, h5⟩
    · rw [hv] at h2
      cases h2
    · rw [hv] at h2
      cases h2
      exact ⟨h1, L, h3, h4, h5, hj⟩
  | _ => simp at hn

/-- C65: exactly the minimal blocking sets (of nodes or of groups), each once, in the reporting order.

Missing for the full statement: FBASs without quorums (nothing is shown, although the empty set is
blocking), and FBASs that are not well-shaped; there the claim is false, see C29. -/
theorem C65_blocking_partial (hr : Run env order opts f g gs lines) (hd : DisjointGroups gs) (j : Json)
    (hq : ∃ Q, IsQuorum f Q) (hs : Shaped f (f.relevantNodes env) ∨ QuorumsFirst opts)
    (hw : ∀ T : NodeSet, (∀ x, x ∈ T ↔ InTopTier f x) → Shaped f T)
    (h : ("minimal_blocking_sets", j) ∈ results lines) :
    ∃ L, MinimalGroupSets gs f (Blocking f) L ∧ (g = none → ∀ S, S ∈ L ↔ IsMinBlocking f S) ∧
      L.Pairwise Before ∧ ShowsSets opts.describe opts.pretty gs f L j := by
  obtain ⟨hwf, he, -⟩ := hr.spec
  have hres := hr.result h
  generalize hn : "minimal_blocking_sets" = n at hres
  cases hres with
  | @blocking L M _ hb hL hM hlt hj =>
    obtain ⟨h1, h2⟩ : (∀ S, S ∈ L ↔ IsMinBlocking f S) ∧ L.Pairwise Before := by
      rcases hs with hs | hs
      · obtain ⟨L', h1, h2, h3⟩ := C29_minimal_blocking_sets_partial env f hwf ⟨hs, hw⟩ hq (callsC opts)
        rw [hL] at h1
        cases h1
        exact ⟨h2, h3⟩
      · obtain ⟨L', h1, h2, h3⟩ := C29_quorums_first_partial env f hwf hw hq (callsC opts)
          (not_starts_callsC hs _)
        rw [hL] at h1
        cases h1
        exact ⟨h2, h3⟩
    obtain ⟨m1, m2, m3⟩ := mergedSets_spec (P := Blocking f) (fun S T => Blocking.mono S T) hr.made hd he
      h1 hlt hM
    refine ⟨M, m1, fun hg S => by rw [m2 hg]; exact h1 S, ?_, hj⟩
    by_cases hg : g = none
    · rw [m2 hg]; exact h2
    · exact m3 hg
  | _ => simp at hn

/-- C65: whatever the FBAS looks like, every shown set (of nodes or of groups) is blocking. -/
theorem C65_blocking_sound (hr : Run env order opts f g gs lines) (hd : DisjointGroups gs) (j : Json)
    (h : ("minimal_blocking_sets", j) ∈ results lines) :
    ∃ L, (∀ S ∈ L, Blocking f (expand gs f S)) ∧ ShowsSets opts.describe opts.pretty gs f L j := by
  obtain ⟨hwf, -⟩ := hr.spec
  have hres := hr.result h
  generalize hn : "minimal_blocking_sets" = n at hres
  cases hres with
  | @blocking L M _ hb hL hM hlt hj =>
    exact ⟨M, mergedSets_sound (fun S T => Blocking.mono S T) hr.made hd
      (C29_sound env f hwf (callsC opts) L hL) hlt hM, hj⟩
  | _ => simp at hn

theorem not_starts_callsB {opts : Options} (h : ¬ BlockingSetsFirst opts) :
    ¬ StartsWithBlockingSets (callsB opts) ∧ ¬ StartsWithBlockingSets (callsS opts) := by
  by_cases hq : QuorumsFirst opts
  · refine ⟨?_, ?_⟩
    · unfold callsB; exact not_starts_callsC hq _
    · obtain ⟨rest, e⟩ := callsS_eq opts
      rw [e]; exact not_starts_callsC hq _
  · have hb : ¬ opts.todos.2.1 = true := fun hb => h ⟨(wants_iff opts).2.1.1 hb, hq⟩
    have hB : .minimalBlockingSets ∉ callsB opts := by
      unfold callsB
      rw [if_neg hb, List.append_nil]
      exact not_mem_callsC opts
    refine ⟨not_starts_of_not_mem hB, not_starts_of_not_mem ?_⟩
    unfold callsS
    rw [List.mem_append]
    rintro (h | h)
    · exact hB h
    · split at h <;> simp at h

/-- C65: exactly the minimal splitting sets (of nodes or of groups), each once, in the reporting order, if
quorums intersect.

Missing for the full statement: FBASs that are not well-shaped; there the claim is false, see C19 and
C28. -/
theorem C65_splitting_partial (hr : Run env order opts f g gs lines) (hd : DisjointGroups gs) (j : Json)
    (hqi : QuorumIntersection f) (hs : WellShaped env f ∨ ¬ BlockingSetsFirst opts)
    (hsym : ∀ T : NodeSet, (∀ x, x ∈ T ↔ InTopTier f x) → ∀ f' sm, f.shrunken T = .ok (f', sm) →
      ∀ q, SymCluster f' q → DupFree q ∧ q.threshold ≤ q.validators.length + q.inner.length ∧
        ∀ q' ∈ q.inner, Majority q')
    (hdup : ∀ f' sm, f.shrunken (f.relevantNodes env) = .ok (f', sm) → ∀ q, SymCluster f' q → DupFree q)
    (h : ("minimal_splitting_sets", j) ∈ results lines) :
    ∃ L, MinimalGroupSets gs f (Splitting f) L ∧ (g = none → ∀ S, S ∈ L ↔ IsMinSplitting f S) ∧
      L.Pairwise Before ∧ ShowsSets opts.describe opts.pretty gs f L j := by
  obtain ⟨hwf, he, -, halt, -⟩ := hr.spec
  have hres := hr.result h
  generalize hn : "minimal_splitting_sets" = n at hres
  cases hres with
  | @splitting L M _ hb hL hM hlt hj =>
    obtain ⟨h1, h2⟩ : (∀ S, S ∈ L ↔ IsMinSplitting f S) ∧ L.Pairwise Before := by
      rcases hs with hs | hs
      · obtain ⟨L', h1, h2, h3⟩ := C19_analysis_partial env f hwf hqi hsym hdup []
          (not_starts_of_not_mem (by simp))
        rw [C28_history_independent_partial env f hwf hs [] (callsB opts) (.inl (by simp))
          (safe_calls halt).2.2.1 .minimalSplittingSets (by simp), hL] at h1
        cases h1
        exact ⟨h2, h3⟩
      · obtain ⟨L', h1, h2, h3⟩ := C19_analysis_partial env f hwf hqi hsym hdup (callsB opts)
          (not_starts_callsB hs).1
        rw [hL] at h1
        cases h1
        exact ⟨h2, h3⟩
    obtain ⟨m1, m2, m3⟩ := mergedSets_spec (P := Splitting f) (fun S T => Splitting.mono S T) hr.made hd he
      h1 hlt hM
    refine ⟨M, m1, fun hg S => by rw [m2 hg]; exact h1 S, ?_, hj⟩
    by_cases hg : g = none
    · rw [m2 hg]; exact h2
    · exact m3 hg
  | _ => simp at hn

theorem mergeSets_empty {g : Option Groupings} {gs : List Grouping} (hg : MadeFrom g gs f)
    (hd : DisjointGroups gs) (he : MembersExist gs f) {M : List NodeSet} (hM : MergedSets g [∅] M) :
    M = [∅] := by
  obtain ⟨h1, h2, -⟩ := mergedSets_spec (P := fun _ => True) (fun _ _ _ _ => trivial) hg hd he (L := [∅])
    (fun S => by
      rw [List.mem_singleton]
      constructor
      · rintro rfl; exact ⟨trivial, fun _ _ _ => Finset.empty_subset _⟩
      · intro h; exact Finset.subset_empty.1 (h.le_of_le trivial (Finset.empty_subset _)))
    (by simp) hM
  by_cases hn : g = none
  · exact h2 hn
  · have hm : ∀ G, G ∈ M ↔ G = ∅ := by
      intro G
      rw [h1 G]
      constructor
      · rintro ⟨-, h3⟩
        exact Finset.subset_empty.1 (h3 (y := ∅) ⟨by simp, trivial⟩ (Finset.empty_subset _))
      · rintro rfl
        exact ⟨⟨by simp, trivial⟩, fun _ _ _ => Finset.empty_subset _⟩
    have hp := (mergedSets_spec (P := fun _ => True) (fun _ _ _ _ => trivial) hg hd he (L := [∅])
      (fun S => by
      rw [List.mem_singleton]
      constructor
      · rintro rfl; exact ⟨trivial, fun _ _ _ => Finset.empty_subset _⟩
      · intro h; exact Finset.subset_empty.1 (h.le_of_le trivial (Finset.empty_subset _)))
      (by simp) hM).2.2 hn
    match M, hm, hp with
    | [], hm, _ => exact absurd ((hm ∅).2 rfl) (by simp)
    | [a], hm, _ => rw [(hm a).1 (by simp)]
    | a :: b :: rest, hm, hp =>
      have ha := (hm a).1 (by simp)
      have hb := (hm b).1 (by simp)
      subst ha; subst hb
      have := (List.pairwise_cons.1 hp).1 ∅ (by simp)
      exact absurd this (by unfold Before; simp)

theorem mergedSets_nonempty {g : Option Groupings} {gs : List Grouping} (hg : MadeFrom g gs f)
    {L M : List NodeSet} (hlt : ∀ S ∈ L, ∀ x ∈ S, x < f.nodes.length) (hM : MergedSets g L M)
    (hL : ∅ ∉ L) : ∅ ∉ M := by
  rcases hg with ⟨rfl, rfl⟩ | ⟨g, rfl, hg⟩
  · obtain rfl : M = L := hM
    exact hL
  · have hM : g.mergeMinimalNodeSets L = .ok M := hM
    unfold Groupings.mergeMinimalNodeSets at hM
    rw [mergeNodeSets_ok (fun S hS x hx => merge_spec hg x (hlt S hS x hx))] at hM
    obtain rfl := Except.ok.inj hM
    intro h
    rw [(removeNonMinimal_spec _).1] at h
    obtain ⟨S, h1, h2⟩ := List.mem_map.1 h.prop
    rw [Finset.image_eq_empty] at h2
    exact hL (h2 ▸ h1)

/-- C65: without quorum intersection, `[[]]` is shown as the minimal splitting sets; with quorum
intersection, the empty set is never among them. -/
theorem C65_splitting_without_intersection (hr : Run env order opts f g gs lines) (hd : DisjointGroups gs)
    (j : Json) (hs : WellShaped env f ∨ ¬ BlockingSetsFirst opts)
    (h : ("minimal_splitting_sets", j) ∈ results lines) :
    (¬ QuorumIntersection f → ShowsSets opts.describe opts.pretty gs f [∅] j) ∧
      (QuorumIntersection f → ∃ L, ∅ ∉ L ∧ ShowsSets opts.describe opts.pretty gs f L j) := by
  obtain ⟨hwf, he, -, halt, -⟩ := hr.spec
  have hres := hr.result h
  generalize hn : "minimal_splitting_sets" = n at hres
  cases hres with
  | @splitting L M _ hb hL hM hlt hj =>
    obtain ⟨h1, h2⟩ : (L = [∅] ↔ ¬ QuorumIntersection f) ∧ (QuorumIntersection f → ∅ ∉ L) := by
      rcases hs with hs | hs
      · obtain ⟨L', h1, h2⟩ := C21_all_histories_partial env f hwf hs (callsB opts) (safe_calls halt).2.2.1
        rw [hL] at h1
        cases h1
        exact h2
      · obtain ⟨L', h1, h2⟩ := C21_empty_splitting_set env f hwf (callsB opts) (safe_calls halt).2.2.1
          (not_starts_callsB hs).1
        rw [hL] at h1
        cases h1
        exact h2
    constructor
    · intro hqi
      obtain rfl := h1.2 hqi
      rw [mergeSets_empty hr.made hd he hM] at hj
      exact hj
    · intro hqi
      exact ⟨M, mergedSets_nonempty hr.made hlt hM (h2 hqi), hj⟩
  | _ => simp at hn

/-- C65: the nodes (or groups) of the top tier.

Missing for the full statement: FBASs that are not well-shaped if minimal blocking sets are computed first;
there the claim is false, see C28. -/
theorem C65_top_tier_partial (hr : Run env order opts f g gs lines) (hd : DisjointGroups gs) (j : Json)
    (hs : WellShaped env f ∨ ¬ BlockingSetsFirst opts) (h : ("top_tier", j) ∈ results lines) :
    ∃ T, GroupsOf gs f (InTopTier f) T ∧ (g = none → ∀ x, x ∈ T ↔ InTopTier f x) ∧
      ShowsSet opts.pretty gs f T j := by
  obtain ⟨hwf, he, -, halt, -⟩ := hr.spec
  have hres := hr.result h
  generalize hn : "top_tier" = n at hres
  cases hres with
  | @topTier T M _ hb hT hM hlt hj =>
    have h1 : ∀ x, x ∈ T ↔ InTopTier f x := by
      rcases hs with hs | hs
      · obtain ⟨L', h1, h2⟩ := C18_top_tier_all_histories_partial env f hwf hs (callsS opts)
          (safe_calls halt).2.2.2
        rw [hT] at h1
        cases h1
        exact h2
      · obtain ⟨L', h1, h2⟩ := C18_top_tier env f hwf (callsS opts) (safe_calls halt).2.2.2
          (not_starts_callsB hs).2
        rw [hT] at h1
        cases h1
        exact h2
    refine ⟨M, mergedSet_spec hr.made hd he h1 hlt hM, ?_, hj⟩
    rintro rfl
    obtain rfl : M = T := hM
    exact h1
  | _ => simp at hn

open Classical in
/-- C65: exactly these results are printed, in this order. -/
theorem C65_names (hr : Run env order opts f g gs lines) :
    (results lines).map Prod.fst =
      ["nodes_total"] ++
      (if ByCountry opts ∨ ByIsp opts ∨ ∃ j, ByOrg opts j then ["nodes_total_merged"] else []) ++
      ["symmetric_clusters"] ++
      (if WantsQuorums opts then ["minimal_quorums"] else []) ++
      (if opts.dontCheck = true then [] else ["has_quorum_intersection"]) ++
      (if UsesAlternative opts ∧ ¬ QuorumIntersection f then ["nonintersecting_quorums"] else []) ++
      (if WantsBlocking opts then ["minimal_blocking_sets"] else []) ++
      (if WantsSplitting opts then ["minimal_splitting_sets"] else []) ++
      (if WantsQuorums opts ∨ WantsBlocking opts ∨ WantsSplitting opts then ["top_tier"] else []) := by
  obtain ⟨hwf, he, hg, halt, -⟩ := hr.spec
  obtain ⟨w1, w2, w3⟩ := wants_iff opts
  rw [hr.names]
  have e1 : g.isSome = true ↔ ByCountry opts ∨ ByIsp opts ∨ ∃ j, ByOrg opts j := by
    rw [← hg, Option.isSome_iff_ne_none]
  have e2 : (∃ v L, UsesAlternative opts ∧
      answerAfter env f (callsQ opts) .alternativeCheck = .ok (.verdict v (some L))) ↔
      UsesAlternative opts ∧ ¬ QuorumIntersection f := by
    by_cases hu : UsesAlternative opts
    · rcases C14_alternative_check env f hwf (halt hu) (callsQ opts)
        (not_starts_of_not_mem (not_mem_callsQ opts)) with ⟨h1, h2⟩ | ⟨h1, l, h2, -⟩
      · rw [h2]
        constructor
        · rintro ⟨v, L, -, h⟩; cases h
        · rintro ⟨-, h⟩; exact absurd h1 h
      · rw [h2]
        exact ⟨fun _ => ⟨hu, h1⟩, fun _ => ⟨_, _, hu, rfl⟩⟩
    · constructor
      · rintro ⟨v, L, h, -⟩; exact absurd h hu
      · rintro ⟨h, -⟩; exact absurd h hu
  have e3 : (opts.todos.1 || opts.todos.2.1 || opts.todos.2.2) = true ↔
      WantsQuorums opts ∨ WantsBlocking opts ∨ WantsSplitting opts := by
    rw [Bool.or_eq_true, Bool.or_eq_true, w1, w2, w3, or_assoc]
  simp only [e1, w1, w2, w3, e2, e3]

/-- C65: what the comments say is right; there are none with `--results-only`. (The numbers of sets are
those before merging.) -/
theorem C65_comments (hr : Run env order opts f g gs lines) (hd : DisjointGroups gs) (c : Comment)
    (h : .comment c ∈ lines) :
    opts.resultsOnly = false ∧
      (c = .allIntersect → QuorumIntersection f) ∧ (c = .notAllIntersect → ¬ QuorumIntersection f) ∧
      (c = .countedAsOne → ByCountry opts ∨ ByIsp opts ∨ ∃ j, ByOrg opts j) ∧
      (∀ n, c = .foundQuorums n →
        (∀ f' sm, f.shrunken (f.relevantNodes env) = .ok (f', sm) → ∀ q, SymCluster f' q → DupFree q) →
        ∃ L : List NodeSet, L.Nodup ∧ (∀ S, S ∈ L ↔ IsMinQuorum f S) ∧ n = L.length) ∧
      (∀ n, c = .foundBlockingSets n → WellShaped env f → (∃ Q, IsQuorum f Q) →
        ∃ L : List NodeSet, L.Nodup ∧ (∀ S, S ∈ L ↔ IsMinBlocking f S) ∧ n = L.length) ∧
      ∀ n, c = .distinctNodes n → WellShaped env f ∨ ¬ BlockingSetsFirst opts →
        ∃ T, GroupsOf gs f (InTopTier f) T ∧ n = T.card := by
  obtain ⟨hwf, he, hg, halt, -⟩ := hr.spec
  obtain ⟨h1, h2⟩ := hr.comment h
  have hns := not_starts_of_not_mem (not_mem_callsQ opts)
  refine ⟨h1, ?_⟩
  cases h2 with
  | verdict hd hv =>
    rename_i v
    have hv : v = true ↔ QuorumIntersection f := by
      rcases hv with ⟨-, hv⟩ | ⟨ha, w, hv⟩
      · obtain ⟨b, h1, h2⟩ := C12_has_quorum_intersection env f hwf (callsQ opts) (safe_calls halt).1 hns
        rw [hv] at h1
        cases h1
        exact h2
      · rcases C14_alternative_check env f hwf (halt ⟨hd, ha⟩) (callsQ opts) hns with
          ⟨h1, h2⟩ | ⟨h1, l, h2, -⟩
        · rw [hv] at h2
          cases h2
          simpa using h1
        · rw [hv] at h2
          cases h2
          simpa using h1
    cases v with
    | true => simpa using hv
    | false => simpa using hv
  | countedAsOne hgn => simpa using hg.1 hgn
  | @quorums L hb hL =>
    simp only [reduceCtorEq, IsEmpty.forall_iff, implies_true, and_true, true_and,
      Comment.foundQuorums.injEq, forall_eq']
    intro hdup
    obtain ⟨L', -, h1, -, -, h2⟩ := C27_minimal_quorums_as_sets_partial env f hwf [] (.inl (by simp))
      (not_starts_of_not_mem (by simp))
    rw [hL] at h1
    cases h1
    exact ⟨L, ((quorums_sorted env f hwf hL).2 hdup).imp (fun h => (lenLexLt_iff.2 h).2), h2, rfl⟩
  | @blocking L hb hL =>
    simp only [reduceCtorEq, IsEmpty.forall_iff, implies_true, and_true, true_and,
      Comment.foundBlockingSets.injEq, forall_eq']
    intro hw hq
    obtain ⟨L', h1, h2, h3⟩ := C29_minimal_blocking_sets_partial env f hwf hw hq (callsC opts)
    rw [hL] at h1
    cases h1
    exact ⟨L, h3.imp (fun h => (lenLexLt_iff.2 h).2), h2, rfl⟩
  | @topTier T M j hT hM hlt hj =>
    simp only [reduceCtorEq, IsEmpty.forall_iff, implies_true, true_and,
      Comment.distinctNodes.injEq, forall_eq']
    intro hs
    have h1 : ∀ x, x ∈ T ↔ InTopTier f x := by
      rcases hs with hs | hs
      · obtain ⟨L', h1, h2⟩ := C18_top_tier_all_histories_partial env f hwf hs (callsS opts)
          (safe_calls halt).2.2.2
        rw [hT] at h1
        cases h1
        exact h2
      · obtain ⟨L', h1, h2⟩ := C18_top_tier env f hwf (callsS opts) (safe_calls halt).2.2.2
          (not_starts_callsB hs).2
        rw [hT] at h1
        cases h1
        exact h2
    exact ⟨M, mergedSet_spec hr.made hd he h1 hlt hM, rfl⟩
  | _ => simp

/-- C65: what is printed for a result does not depend on which other analyses are done, on
`--results-only` or (for `has_quorum_intersection`) on the kind of check: two runs on the same input with
the same format print the same, except for the non-intersecting quorums that are found.

Missing for the full statement: FBASs that are not well-shaped if minimal blocking sets are computed first;
there the claim is false, see `C65_counterexample`. -/
theorem C65_independent_partial {opts' : Options} {lines' : List Line}
    (hr : Run env order opts f g gs lines) (hr' : Run env order opts' f g gs lines')
    (hp : opts.pretty = opts'.pretty) (hdesc : opts.describe = opts'.describe) (hd : DisjointGroups gs)
    (hs : WellShaped env f ∨ (¬ BlockingSetsFirst opts ∧ ¬ BlockingSetsFirst opts'))
    (name : String) (hname : name ≠ "nonintersecting_quorums") (j j' : Json)
    (h : (name, j) ∈ results lines) (h' : (name, j') ∈ results lines') : j = j' := by
  obtain ⟨hwf, he, hg, halt, -⟩ := hr.spec
  obtain ⟨-, -, -, halt', -⟩ := hr'.spec
  have s := safe_calls halt
  have s' := safe_calls halt'
  have indep : ∀ c h₁ h₂, SafeHistory f h₁ → SafeHistory f h₂ → c ≠ .alternativeCheck →
      (¬ BlockingSetsFirst opts → ¬ BlockingSetsFirst opts' →
        ¬ StartsWithBlockingSets (h₁ ++ [c]) ∧ ¬ StartsWithBlockingSets (h₂ ++ [c])) →
      answerAfter env f h₁ c = answerAfter env f h₂ c := by
    intro c h₁ h₂ hs₁ hs₂ hc hb
    rcases hs with hs | ⟨hs, hs'⟩
    · exact C28_history_independent_partial env f hwf hs h₁ h₂ hs₁ hs₂ c hc
    · exact C28_quorums_first_partial env f hwf h₁ h₂ hs₁ hs₂ c hc (hb hs hs').1 (hb hs hs').2
  have happ : ∀ {l : List Call} {c : Call}, c ≠ .minimalBlockingSets → ¬ StartsWithBlockingSets l →
      ¬ StartsWithBlockingSets (l ++ [c]) := by
    intro l c hc h
    rw [startsWithBlockingSets_iff] at h ⊢
    exact not_blockingFirst_append hc h
  cases hr.result h with
  | nodes => exact ((C65_overview hr' hd j').1 h').symm
  | merged hgm hM =>
    have hres := hr'.result h'
    generalize hn : "nodes_total_merged" = n at hres
    cases hres with
    | merged hgm' hM' =>
      rw [hgm] at hgm'
      cases hgm'
      rw [hM] at hM'
      cases hM'
      rfl
    | _ => simp at hn
  | clusters hL hM hj =>
    have hres := hr'.result h'
    generalize hn : "symmetric_clusters" = n at hres
    cases hres with
    | clusters hL' hM' hj' =>
      rw [hL] at hL'
      cases hL'
      cases mergedQSets_unique hM hM'
      rw [← hp] at hj'
      exact showsQSets_unique (hj hd) (hj' hd)
    | _ => simp at hn
  | quorums hb hL hM hlt hj =>
    have hres := hr'.result h'
    generalize hn : "minimal_quorums" = n at hres
    cases hres with
    | quorums hb' hL' hM' hlt' hj' =>
      rw [hL] at hL'
      cases hL'
      cases mergedSets_unique hM hM'
      rw [← hp, ← hdesc] at hj'
      exact showsSets_unique hj hj'
    | _ => simp at hn
  | intersection hd' ha hv =>
    obtain ⟨b, e, hb⟩ := C65_intersection hr _ h
    obtain ⟨b', rfl, hb'⟩ := C65_intersection hr' j' h'
    rw [e, Bool.eq_iff_iff.2 (hb.trans hb'.symm)]
  | alternative hd' ha hv =>
    obtain ⟨b, e, hb⟩ := C65_intersection hr _ h
    obtain ⟨b', rfl, hb'⟩ := C65_intersection hr' j' h'
    rw [e, Bool.eq_iff_iff.2 (hb.trans hb'.symm)]
  | witness => exact absurd rfl hname
  | blocking hb hL hM hlt hj =>
    have hres := hr'.result h'
    generalize hn : "minimal_blocking_sets" = n at hres
    cases hres with
    | blocking hb' hL' hM' hlt' hj' =>
      rw [indep .minimalBlockingSets (callsC opts) (callsC opts') s.2.1 s'.2.1 (by simp) (fun h1 h2 =>
        ⟨not_starts_callsC (by_contra fun hq => h1 ⟨(wants_iff opts).2.1.1 hb, hq⟩) _,
          not_starts_callsC (by_contra fun hq => h2 ⟨(wants_iff opts').2.1.1 hb', hq⟩) _⟩), hL'] at hL
      cases hL
      cases mergedSets_unique hM hM'
      rw [← hp, ← hdesc] at hj'
      exact showsSets_unique hj hj'
    | _ => simp at hn
  | splitting hb hL hM hlt hj =>
    have hres := hr'.result h'
    generalize hn : "minimal_splitting_sets" = n at hres
    cases hres with
    | splitting hb' hL' hM' hlt' hj' =>
      rw [indep .minimalSplittingSets (callsB opts) (callsB opts') s.2.2.1 s'.2.2.1 (by simp) (fun h1 h2 =>
        ⟨happ (by simp) (not_starts_callsB h1).1, happ (by simp) (not_starts_callsB h2).1⟩), hL'] at hL
      cases hL
      cases mergedSets_unique hM hM'
      rw [← hp, ← hdesc] at hj'
      exact showsSets_unique hj hj'
    | _ => simp at hn
  | topTier hb hL hM hlt hj =>
    have hres := hr'.result h'
    generalize hn : "top_tier" = n at hres
    cases hres with
    | topTier hb' hL' hM' hlt' hj' =>
      rw [indep .topTier (callsS opts) (callsS opts') s.2.2.2 s'.2.2.2 (by simp) (fun h1 h2 =>
        ⟨happ (by simp) (not_starts_callsB h1).2, happ (by simp) (not_starts_callsB h2).2⟩), hL'] at hL
      cases hL
      cases mergedSet_unique hM hM'
      rw [← hp] at hj'
      exact showsSet_unique hj hj'
    | _ => simp at hn

theorem registryOk_fromRaw {r : RawFbas} (hk : DistinctKeys r) : RegistryOk (Fbas.fromRaw r) := by
  intro p i
  refine (show (Fbas.fromRaw r).pkToId.get? p = some i ↔ ∃ n, r[i]? = some n ∧ n.publicKey = p from ?_).trans ?_
  · show (Fbas.rawIds r).get? p = some i ↔ _
    rw [rawIds_get?, lastIndex_of_distinct hk]
  · show (∃ n, r[i]? = some n ∧ n.publicKey = p) ↔
      ∃ n, (r.map (Node.fromRaw (Fbas.rawIds r)))[i]? = some n ∧ n.publicKey = p
    rw [List.getElem?_map]
    constructor
    · rintro ⟨n, hn, rfl⟩
      exact ⟨_, by rw [hn]; rfl, rfl⟩
    · rintro ⟨n, hn, rfl⟩
      rw [Option.map_eq_some_iff] at hn
      obtain ⟨n', hn', rfl⟩ := hn
      exact ⟨n', hn', rfl⟩

/-- C65: the groups by which nodes are merged. Without one of the options for merging, there are none. The
groups of organizations are those of the "organizations" file (with the known nodes). For ISPs and
countries, groups are disjoint and consist of the nodes with that name. -/
theorem C65_groups (ho : ∀ l, (order l).Perm l) (hr : Run env order opts f g gs lines) (r : RawFbas)
    (hraw : DescribesFbas opts.nodes r) (hk : DistinctKeys r) :
    f = Fbas.fromRaw r ∧
      (¬ ByCountry opts → ¬ ByIsp opts → (∀ j, ¬ ByOrg opts j) → gs = []) ∧
      (∀ j, ByOrg opts j → ∃ raws, DescribesGroupings j raws ∧
        List.Forall₂ (fun (raw : RawGrouping) (org : Grouping) => org.name = raw.name ∧
          ∀ v, v ∈ org.validators ↔ ∃ n, f.nodes[v]? = some n ∧ n.publicKey ∈ raw.validators) raws gs) ∧
      ∀ key : RawNode → Option String,
        (ByCountry opts ∧ key = (fun n => n.geoData.join)) ∨ (ByIsp opts ∧ key = (fun n => n.isp)) →
        DisjointGroups gs ∧ (∀ org ∈ gs, org.validators ≠ []) ∧
          ∀ x n, r[x]? = some n → (key n = none → ∀ org ∈ gs, x ∉ org.validators) ∧
            ∀ s, key n = some s → ∃ org ∈ gs, org.name.toList = plainName s ∧ x ∈ org.validators ∧
              ∀ org' ∈ gs, x ∈ org'.validators → org' = org := by
  obtain ⟨hf, hg, hm, -⟩ := hr
  obtain ⟨r', hr', rfl⟩ := ((C62_nodes opts.nodes).1 f).1 hf
  obtain rfl := C62_unambiguous _ _ _ hraw hr'
  refine ⟨rfl, ?_, ?_, ?_⟩
  · intro h1 h2 h3
    have : g = none := by
      by_contra hn
      obtain ⟨gs', -, -, h⟩ := (loadGroupings_spec order opts r hraw).2 g hg
      rcases h.1 hn with h | h | ⟨j, h⟩
      · exact h1 h
      · exact h2 h
      · exact h3 j h
    subst this
    rcases hm with ⟨-, h⟩ | ⟨_, h, -⟩
    · exact h
    · cases h
  · rintro j ⟨h1, h2, h3⟩
    unfold loadGroupings Options.groupingsTodos at hg
    simp only [h1, h2, h3, Bool.false_eq_true, ↓reduceIte, Option.isSome_some] at hg
    obtain ⟨c1, c2⟩ := C62_organizations j (Fbas.fromRaw r)
    by_cases hj : ∃ raws, DescribesGroupings j raws
    · obtain ⟨raws, hraws⟩ := hj
      refine ⟨raws, hraws, ?_⟩
      rw [c1 raws hraws] at hg
      obtain ⟨g', e1, -, e3⟩ := C54_load (Fbas.fromRaw r) (registryOk_fromRaw hk) raws
      obtain ⟨g'', e4, e5, -⟩ := fromRaw_groupings r raws
      rw [e1] at e4
      cases e4
      rw [e1] at hg
      cases hg
      rw [madeFrom_unique hm (.inr ⟨g', rfl, e5⟩)]
      exact e3
    · rw [c2 (fun raws h => hj ⟨raws, h⟩)] at hg
      cases hg
  · intro key hkey
    have hw := ((loadGroupings_spec order opts r hraw).1.1 ⟨g, hg⟩)
    have part : ∀ (key : RawNode → Option String) (raws : List RawGrouping) (g' : Groupings),
        groupsFromRawNodes order key r = .ok raws → Groupings.fromRaw raws (Fbas.fromRaw r) = .ok g' →
        g = some g' → DisjointGroups gs ∧ (∀ org ∈ gs, org.validators ≠ []) ∧
          ∀ x n, r[x]? = some n → (key n = none → ∀ org ∈ gs, x ∉ org.validators) ∧
            ∀ s, key n = some s → ∃ org ∈ gs, org.name.toList = plainName s ∧ x ∈ org.validators ∧
              ∀ org' ∈ gs, x ∈ org'.validators → org' = org := by
      rintro key raws g' h1 h2 rfl
      obtain ⟨g'', e1, e2, -, e4, e5⟩ := partition_spec order ho key r hk raws h1
      rw [h2] at e1
      cases e1
      obtain ⟨g'', e6, e7, -⟩ := fromRaw_groupings r raws
      rw [h2] at e6
      cases e6
      obtain rfl := madeFrom_unique hm (.inr ⟨g', rfl, e7⟩)
      refine ⟨e2, e4, fun x n hx => ⟨fun hn => ?_, fun s hs => ?_⟩⟩
      · have := (e5 x n hx).1 hn
        rcases C33_get_by_member _ _ _ e7 x with ⟨-, h⟩ | ⟨i, org, h, -⟩
        · exact h
        · rw [this] at h
          cases h
      · obtain ⟨org, -, h3, h4, h5, h6⟩ := (e5 x n hx).2 s hs
        exact ⟨org, h4, h3, h5, h6⟩
    have some_ok : ∀ (x : Except Panic Groupings) g, someE x = .ok g ↔ ∃ g', x = .ok g' ∧ g = some g' := by
      intro x g
      cases x with
      | error e => simp [someE]
      | ok g' => simp [someE, eq_comm]
    have hj := fbas_fromJson_iff.2 hraw
    unfold loadGroupings Options.groupingsTodos at hg
    rcases hkey with ⟨⟨h1, h2⟩, rfl⟩ | ⟨⟨h1, h2, h3⟩, rfl⟩
    · simp only [h1, h2, ↓reduceIte, some_ok] at hg
      obtain ⟨g', hg, rfl⟩ := hg
      unfold Groupings.countriesFromJson Groupings.countriesFromRaw at hg
      rw [hj] at hg
      dsimp only at hg
      split at hg
      · cases hg
      next raws hraws =>
        have hc : (fun n : RawNode => n.geoData.join) = RawNode.country := by
          funext n
          unfold RawNode.country
          cases n.geoData with
          | none => rfl
          | some o => rfl
        rw [hc]
        exact part _ raws g' hraws hg rfl
    · simp only [h1, h2, h3, Bool.false_eq_true, ↓reduceIte, some_ok] at hg
      obtain ⟨g', hg, rfl⟩ := hg
      unfold Groupings.ispsFromJson Groupings.ispsFromRaw at hg
      rw [hj] at hg
      dsimp only at hg
      split at hg
      · cases hg
      next raws hraws => exact part _ raws g' hraws hg rfl

end

/-! ## Concrete cases -/

/-- A file with the given nodes; no options. -/
def plain (nodes : Json) : Options :=
  ⟨nodes, true, false, false, false, false, false, false, false, false, false, none, false, false⟩

/-- Four nodes that trust 3 of them. -/
def nodesFour : Json := (Ref.mkFbas (List.replicate 4 ⟨3, [0, 1, 2, 3], []⟩)).toJson

/-- Nodes 0 and 1 are one organization. -/
def orgsFour : Json := .arr [.obj [("name", .str "A"), ("validators", .arr [.str "n0", .str "n1"])]]

/-- Sets as printed. -/
def idSets (l : List (List ℕ)) : Json := .arr (l.map (fun s => .arr (s.map .nat)))
def nameSets (l : List (List String)) : Json := .arr (l.map (fun s => .arr (s.map .str)))

/-- `fbas_analyzer -a nodes.json` -/
example : Tool.main (Ref.refEnv 4) id { plain nodesFour with all := true } = .ok [
    .comment .nodeIds,
    .result "nodes_total" (.nat 4), .comment .newline,
    .result "symmetric_clusters" (.arr [.obj [("threshold", .nat 3),
      ("validators", .arr [.nat 0, .nat 1, .nat 2, .nat 3])]]),
    .duration "symmetric_clusters", .comment .newline,
    .result "minimal_quorums" (idSets [[0, 1, 2], [0, 1, 3], [0, 2, 3], [1, 2, 3]]),
    .duration "minimal_quorums", .comment (.foundQuorums 4),
    .result "has_quorum_intersection" (.bool true),
    .duration "has_quorum_intersection", .comment .allIntersect,
    .result "minimal_blocking_sets" (idSets [[0, 1], [0, 2], [0, 3], [1, 2], [1, 3], [2, 3]]),
    .duration "minimal_blocking_sets", .comment (.foundBlockingSets 6),
    .result "minimal_splitting_sets" (idSets [[0, 1], [0, 2], [0, 3], [1, 2], [1, 3], [2, 3]]),
    .duration "minimal_splitting_sets", .comment (.foundSplittingSets 6),
    .result "top_tier" (.arr [.nat 0, .nat 1, .nat 2, .nat 3]), .comment (.distinctNodes 4)] :=
  Ref.prints_of (by decide +kernel)

/-- `fbas_analyzer -b -s -p --merge-by-org organizations.json nodes.json`: the comments count the sets
before merging, although fewer sets are printed. -/
example : Tool.main (Ref.refEnv 4) id { plain nodesFour with
      minimalBlockingSets := true, minimalSplittingSets := true, pretty := true,
      organizations := some orgsFour } = .ok [
    .result "nodes_total" (.nat 4), .result "nodes_total_merged" (.nat 3), .comment .countedAsOne,
    .comment .newline,
    .result "symmetric_clusters" (.arr [.obj [("threshold", .nat 3),
      ("validators", .arr [.str "A", .str "A", .str "n2", .str "n3"])]]),
    .duration "symmetric_clusters", .comment .newline,
    .result "has_quorum_intersection" (.bool true),
    .duration "has_quorum_intersection", .comment .allIntersect,
    .result "minimal_blocking_sets" (nameSets [["A"], ["n2", "n3"]]),
    .duration "minimal_blocking_sets", .comment (.foundBlockingSets 6),
    .result "minimal_splitting_sets" (nameSets [["A"], ["n2", "n3"]]),
    .duration "minimal_splitting_sets", .comment (.foundSplittingSets 6),
    .result "top_tier" (.arr [.str "A", .str "n2", .str "n3"]), .comment (.distinctNodes 3)] :=
  Ref.prints_of (by decide +kernel)

/-- With `-d`, sets are summarized. -/
example : Tool.main (Ref.refEnv 4) id { plain nodesFour with
      minimalBlockingSets := true, describe := true, resultsOnly := true, dontCheck := true } = .ok [
    .result "nodes_total" (.nat 4),
    .result "symmetric_clusters" (.arr [.obj [("threshold", .nat 3),
      ("validators", .arr [.nat 0, .nat 1, .nat 2, .nat 3])]]),
    .duration "symmetric_clusters",
    .result "minimal_blocking_sets" (.arr [.nat 6, .nat 4, .arr [.nat 2, .nat 2, .rat 2],
      .arr [.nat 0, .nat 0, .nat 6]]),
    .duration "minimal_blocking_sets",
    .result "top_tier" (.arr [.nat 0, .nat 1, .nat 2, .nat 3])] :=
  Ref.prints_of (by decide +kernel)

/-- Four nodes with quorum sets that list node 3 twice. -/
def nodesDup : Json := fbasBlockDup'.toJson

/-- C65 is false for FBASs that are not well-shaped. `fbas_analyzer -b -s --dont-check-quorum-intersection`
prints no blocking sets, an empty top tier, and `[[]]` as splitting sets; without
`--dont-check-quorum-intersection`, the top tier is right and the splitting sets are others (but there are
still no blocking sets, although {3} is one, and {0, 1, 2} is not splitting). -/
theorem C65_counterexample :
    (∃ f, Fbas.fromJson nodesDup = .ok f ∧ f.nodes = fbasBlockDup'.nodes) ∧
      QuorumIntersection fbasBlockDup' ∧ IsMinBlocking fbasBlockDup' {3} ∧
      ¬ IsMinSplitting fbasBlockDup' {0, 1, 2} ∧
      (Tool.main (Ref.refEnv 4) id { plain nodesDup with
        minimalBlockingSets := true, minimalSplittingSets := true, dontCheck := true }).map results = .ok [
          ("nodes_total", .nat 4),
          ("symmetric_clusters", .arr [.obj [("threshold", .nat 4),
            ("validators", .arr [.nat 0, .nat 1, .nat 2, .nat 3, .nat 3])]]),
          ("minimal_blocking_sets", idSets []),
          ("minimal_splitting_sets", idSets [[]]),
          ("top_tier", .arr [])] ∧
      (Tool.main (Ref.refEnv 4) id { plain nodesDup with
        minimalBlockingSets := true, minimalSplittingSets := true }).map results = .ok [
          ("nodes_total", .nat 4),
          ("symmetric_clusters", .arr [.obj [("threshold", .nat 4),
            ("validators", .arr [.nat 0, .nat 1, .nat 2, .nat 3, .nat 3])]]),
          ("has_quorum_intersection", .bool true),
          ("minimal_blocking_sets", idSets []),
          ("minimal_splitting_sets", idSets [[0, 3], [1, 3], [2, 3], [0, 1, 2]]),
          ("top_tier", .arr [.nat 0, .nat 1, .nat 2, .nat 3])] := by
  refine ⟨?_, by decide +kernel, by decide +kernel, by decide +kernel, ?_, ?_⟩
  · have h : (Fbas.fromJson nodesDup).map (fun f => f.nodes) = .ok fbasBlockDup'.nodes :=
      Ref.ok_of (by decide +kernel)
    cases hf : Fbas.fromJson nodesDup with
    | error e => rw [hf] at h; cases h
    | ok f =>
      rw [hf] at h
      exact ⟨f, rfl, Except.ok.inj h⟩
  · exact Ref.results_of (by decide +kernel)
  · exact Ref.results_of (by decide +kernel)

/-- Two nodes that trust only themselves, and belong to one organization. -/
def nodesTwo : Json := (Ref.mkFbas [⟨1, [0], []⟩, ⟨1, [1], []⟩]).toJson

/-- The non-intersecting quorums are not merged. With `-p` and organizations, they can look the same. -/
theorem C65_nonintersecting_same_names :
    (Tool.main (Ref.refEnv 2) id { plain nodesTwo with
      alternativeCheck := true, pretty := true, organizations := some orgsFour }).map results = .ok [
        ("nodes_total", .nat 2), ("nodes_total_merged", .nat 1),
        ("symmetric_clusters", .arr [
          .obj [("threshold", .nat 1), ("validators", .arr [.str "A"])],
          .obj [("threshold", .nat 1), ("validators", .arr [.str "A"])]]),
        ("has_quorum_intersection", .bool false),
        ("nonintersecting_quorums", nameSets [["A"], ["A"]])] :=
  Ref.results_of (by decide +kernel)

/-- Options: all results, merged by organizations, with names. -/
def optsFour : Options := { plain nodesFour with all := true, pretty := true, organizations := some orgsFour }

def linesFour : List Line := [
    .result "nodes_total" (.nat 4), .result "nodes_total_merged" (.nat 3), .comment .countedAsOne,
    .comment .newline,
    .result "symmetric_clusters" (.arr [.obj [("threshold", .nat 3),
      ("validators", .arr [.str "A", .str "A", .str "n2", .str "n3"])]]),
    .duration "symmetric_clusters", .comment .newline,
    .result "minimal_quorums" (nameSets [["A", "n2"], ["A", "n3"]]),
    .duration "minimal_quorums", .comment (.foundQuorums 4),
    .result "has_quorum_intersection" (.bool true),
    .duration "has_quorum_intersection", .comment .allIntersect,
    .result "minimal_blocking_sets" (nameSets [["A"], ["n2", "n3"]]),
    .duration "minimal_blocking_sets", .comment (.foundBlockingSets 6),
    .result "minimal_splitting_sets" (nameSets [["A"], ["n2", "n3"]]),
    .duration "minimal_splitting_sets", .comment (.foundSplittingSets 6),
    .result "top_tier" (.arr [.str "A", .str "n2", .str "n3"]), .comment (.distinctNodes 3)]

theorem main_four : Tool.main (Ref.refEnv 4) id optsFour = .ok linesFour := Ref.prints_of (by decide +kernel)

theorem nodesFour_isSome : (RawFbas.fromJson nodesFour).isSome = true := by decide +kernel

/-- The hypotheses of the theorems about results are met by this run, and what the theorems say about it. -/
example : ∃ f g gs, Run (Ref.refEnv 4) id optsFour f g gs linesFour ∧ DisjointGroups gs ∧
    (∃ T, GroupsOf gs f (fun x => x < f.nodes.length) T ∧ T.card = 3) ∧
    (∃ L, MinimalGroupSets gs f (ContainsQuorum f) L ∧
      ShowsSets false true gs f L (nameSets [["A", "n2"], ["A", "n3"]])) ∧
    (∃ L, MinimalGroupSets gs f (Blocking f) L ∧
      ShowsSets false true gs f L (nameSets [["A"], ["n2", "n3"]])) ∧
    (∃ L, (∀ S ∈ L, Blocking f (expand gs f S)) ∧
      ShowsSets false true gs f L (nameSets [["A"], ["n2", "n3"]])) ∧
    (∃ L, MinimalGroupSets gs f (Splitting f) L ∧
      ShowsSets false true gs f L (nameSets [["A"], ["n2", "n3"]])) ∧
    ∃ T, GroupsOf gs f (InTopTier f) T ∧ ShowsSet true gs f T (.arr [.str "A", .str "n2", .str "n3"]) := by
  obtain ⟨f, g, gs, hr⟩ := exists_run main_four
  obtain ⟨r, hr0, rfl⟩ := ((C62_nodes _).1 f).1 hr.nodes
  have er : r = (RawFbas.fromJson nodesFour).get nodesFour_isSome :=
    Option.some.inj ((fbas_fromJson_iff.2 hr0).symm.trans (Option.some_get _).symm)
  have hk : DistinctKeys r := by rw [er]; unfold DistinctKeys; decide +kernel
  have hqi : QuorumIntersection (Fbas.fromRaw r) := by rw [er]; decide +kernel
  have hflat := flat_of_list (f := Fbas.fromRaw r) (by rw [er]; decide +kernel)
  have hw := wellShaped_of_flat (Ref.refEnv 4) _ hflat
  have hq : ∃ Q, IsQuorum (Fbas.fromRaw r) Q := by rw [er]; exact ⟨{0, 1, 2}, by decide +kernel⟩
  have hfirst : QuorumsFirst optsFour := .inl (.inl rfl)
  have hd : DisjointGroups gs := by
    obtain ⟨raws, h1, h2⟩ := (C65_groups (fun l => .refl l) hr r hr0 hk).2.2.1 orgsFour ⟨rfl, rfl, rfl⟩
    have hl : raws.length = 1 := by
      have e : (orgsFour.vec? RawGrouping.fromJson).map List.length = some 1 := by decide +kernel
      rw [groupings_fromJson_iff.2 h1] at e
      exact Option.some.inj e
    rw [h2.length_eq] at hl
    obtain ⟨a, rfl⟩ := List.length_eq_one_iff.1 hl
    intro b hb c hc x _ _
    rw [List.mem_singleton.1 hb, List.mem_singleton.1 hc]
  obtain ⟨T, a1, a2⟩ := (C65_overview hr hd (.nat 3)).2 (List.mem_of_getElem? (i := 1) rfl)
  obtain ⟨Q, b1, -, -, -, b2⟩ := C65_minimal_quorums hr hd _ (List.mem_of_getElem? (i := 3) rfl)
  obtain ⟨B, c1, -, -, c2⟩ := C65_blocking_partial hr hd _ hq (.inr hfirst) hw.topTier
    (List.mem_of_getElem? (i := 5) rfl)
  obtain ⟨S, d1, -, -, d2⟩ := C65_splitting_partial hr hd _ hqi (.inl hw) (fun T hT f' sm hs q hsc => by
      obtain ⟨g1, g2⟩ := hw.topTier T hT f' sm hs q hsc
      refine ⟨g1, ?_, majority_of_flat _ hflat T hT f' sm hs q hsc⟩
      cases g2 with
      | intro _ _ h _ => exact h)
    (fun f' sm hs q hsc => (hw.relevant f' sm hs q hsc).1) (List.mem_of_getElem? (i := 6) rfl)
  obtain ⟨T', e1, -, e2⟩ := C65_top_tier_partial hr hd _ (.inl hw) (List.mem_of_getElem? (i := 7) rfl)
  exact ⟨_, g, gs, hr, hd, ⟨T, a1, (Json.nat.inj a2).symm⟩, ⟨Q, b1, b2⟩, ⟨B, c1, c2⟩,
    C65_blocking_sound hr hd _ (List.mem_of_getElem? (i := 5) rfl), ⟨S, d1, d2⟩, ⟨T', e1, e2⟩⟩

#print axioms C65_panics_iff
#print axioms C65_overview
#print axioms C65_clusters
#print axioms C65_minimal_quorums
#print axioms C65_intersection
#print axioms C65_nonintersecting
#print axioms C65_blocking_partial
#print axioms C65_blocking_sound
#print axioms C65_splitting_partial
#print axioms C65_splitting_without_intersection
#print axioms C65_top_tier_partial
#print axioms C65_names
#print axioms C65_comments
#print axioms C65_independent_partial
#print axioms C65_groups
#print axioms C65_counterexample
#print axioms C65_nonintersecting_same_names

end FA.Props
