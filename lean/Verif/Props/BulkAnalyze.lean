import Verif.Lemmas.BulkAnalyze
import Verif.Props.Tool
import Verif.Props.Bulk
import Verif.Props.StandardForm

/-!
# The data points written by the bulk analyzer (C69)

`Kind` says which columns of a data point are meant: those about nodes, organizations, ISPs or countries.
-/

namespace FA.Props
open FA Spec Analysis Groupings Bulk

/-! ## Panics -/

/-- C69: An analysis does not panic exactly if the "nodes" file describes an FBAS in which the names of all
ISPs and countries can be processed, and the "organizations" file, if there is one, describes
organizations. -/
theorem C69_panics_iff (env : Env) (order : List String → List String) (hash : Json → String)
    (label : Text) (nodes : Json) (organizations : Option Json) :
    (∃ d, Bulk.analyze env order hash label nodes organizations = .ok d) ↔
      ∃ r, DescribesFbas nodes r ∧ (∀ n ∈ r, ∀ s, n.isp = some s → AsciiEnd s) ∧
        (∀ n ∈ r, ∀ s, n.geoData = some (some s) → AsciiEnd s) ∧
        ∀ j, organizations = some j → ∃ gs, DescribesGroupings j gs := by
  constructor
  · rintro ⟨d, h⟩
    unfold Bulk.analyze at h
    cases hf : Fbas.fromJson nodes with
    | error e => rw [hf] at h; cases h
    | ok f =>
      obtain ⟨r, hr, rfl⟩ := ((C62_nodes nodes).1 f).1 hf
      simp only [hf, bind, Except.bind] at h
      cases h1 : maybeLoadOrganizations organizations (Fbas.fromRaw r) with
      | error e => rw [h1] at h; cases h
      | ok g1 =>
        simp only [h1] at h
        cases h2 : maybeLoadIsps order nodes (Fbas.fromRaw r) with
        | error e => rw [h2] at h; cases h
        | ok g2 =>
          simp only [h2] at h
          cases h3 : maybeLoadCountries order nodes (Fbas.fromRaw r) with
          | error e => rw [h3] at h; cases h
          | ok g3 =>
            exact ⟨r, hr, ((loadKind_ok_iff order organizations hr .isps).1 ⟨g2, h2⟩).2.1 rfl,
              ((loadKind_ok_iff order organizations hr .ctries).1 ⟨g3, h3⟩).1 rfl,
              fun j hj => ((loadKind_ok_iff order organizations hr .orgs).1 ⟨g1, h1⟩).2.2 j ⟨rfl, hj⟩⟩
  · rintro ⟨r, hr, h1, h2, h3⟩
    have hl : ∀ k, ∃ g, loadKind order nodes organizations (Fbas.fromRaw r) k = .ok g := fun k =>
      (loadKind_ok_iff order organizations hr k).2 ⟨fun _ => h2, fun _ => h1, fun j hj => h3 j hj.2⟩
    choose g hg using hl
    have hm := fun k => loadKind_made order organizations hr k (hg k)
    choose gs m1 m2 _ using hm
    obtain ⟨d, v, T, Q, B, S, h, -⟩ := analyze_ok' (env := env) (hash := hash) (label := label)
      (wf_fromRaw r) (((C62_nodes nodes).1 _).2 ⟨r, hr, rfl⟩) hg m1 m2
    exact ⟨d, h⟩

/-! ## Columns -/

/-- The data point `d` was computed for the FBAS described by `r`; for the columns of kind `k`, the groups
`gs` were loaded. -/
structure BulkRun (env : Env) (order : List String → List String) (hash : Json → String) (label : Text)
    (nodes : Json) (organizations : Option Json) (r : RawFbas) (k : Kind) (g : Option Groupings)
    (gs : List Grouping) (d : DataPoint) : Prop where
  described : DescribesFbas nodes r
  groups : loadKind order nodes organizations (Fbas.fromRaw r) k = .ok g
  made : MadeFrom g gs (Fbas.fromRaw r)
  ok : Bulk.analyze env order hash label nodes organizations = .ok d

section
variable {env : Env} {order : List String → List String} {hash : Json → String} {label : Text}
  {nodes : Json} {organizations : Option Json} {r : RawFbas} {k : Kind} {g : Option Groupings}
  {gs : List Grouping} {d : DataPoint}

/-- Every data point is computed this way. -/
theorem exists_bulkRun (h : Bulk.analyze env order hash label nodes organizations = .ok d) (k : Kind) :
    ∃ r g gs, BulkRun env order hash label nodes organizations r k g gs d := by
  obtain ⟨r, hr, h1, h2, h3⟩ := (C69_panics_iff env order hash label nodes organizations).1 ⟨d, h⟩
  obtain ⟨g, hg⟩ := (loadKind_ok_iff order organizations hr k).2
    ⟨fun _ => h2, fun _ => h1, fun j hj => h3 j hj.2⟩
  obtain ⟨gs, hm, -⟩ := loadKind_made order organizations hr k hg
  exact ⟨r, g, gs, hr, hg, hm, h⟩

theorem BulkRun.spec (hr : BulkRun env order hash label nodes organizations r k g gs d) :
    MembersExist gs (Fbas.fromRaw r) ∧
    ∃ v T Q B S, Values env (Fbas.fromRaw r) v T Q B S ∧ d.label = label ∧ d.hasQuorumIntersection = v ∧
      (k ≠ .nodes → g = none → columns d k = .absent) ∧
      (k = .nodes ∨ g ≠ none → Filled g T Q B S (columns d k)) ∧
      ∃ sf, (Fbas.fromRaw r).toStandardForm env = .ok sf ∧ d.standardFormHash = hash sf.toJson := by
  obtain ⟨hn, hg, hm, hok⟩ := hr
  obtain ⟨r', hr', h1, h2, h3⟩ := (C69_panics_iff env order hash label nodes organizations).1 ⟨d, hok⟩
  obtain rfl := C62_unambiguous _ _ _ hn hr'
  obtain ⟨gs₀, a1, a2, -⟩ := loadKind_made order organizations hn k hg
  obtain rfl := madeFrom_unique hm a1
  refine ⟨a2, ?_⟩
  have hl : ∀ k, ∃ g, loadKind order nodes organizations (Fbas.fromRaw r) k = .ok g := fun k =>
    (loadKind_ok_iff order organizations hn k).2 ⟨fun _ => h2, fun _ => h1, fun j hj => h3 j hj.2⟩
  choose G hG using hl
  have hm' := fun k => loadKind_made order organizations hn k (hG k)
  choose GS m1 m2 _ using hm'
  obtain ⟨d', v, T, Q, B, S, b1, b2, b3, b4, b5, b6, b7⟩ := analyze_ok' (env := env) (hash := hash)
    (label := label) (wf_fromRaw r) (((C62_nodes nodes).1 _).2 ⟨r, hn, rfl⟩) hG m1 m2
  rw [hok] at b1
  obtain rfl := Except.ok.inj b1
  have e : G k = g := by
    have := hG k
    rw [hg] at this
    exact (Except.ok.inj this).symm
  exact ⟨v, T, Q, B, S, b2, b3, b4, fun hk h => b5 k hk (by rw [e]; exact h),
    fun h => by rw [← e]; exact b6 k (by rw [e]; exact h), b7⟩

/-- C69: The label is kept, and the verdict is right, for every FBAS. -/
theorem C69_has_quorum_intersection (hr : BulkRun env order hash label nodes organizations r k g gs d) :
    d.label = label ∧ (d.hasQuorumIntersection = true ↔ QuorumIntersection (Fbas.fromRaw r)) := by
  obtain ⟨-, v, T, Q, B, S, hv, h1, h2, -⟩ := hr.spec
  obtain ⟨b, h3, h4⟩ := C12_has_quorum_intersection env _ (wf_fromRaw r) [.minimalQuorums]
    (.inl (by simp)) (not_starts_of_not_mem (by simp))
  rw [hv.hqi] at h3
  cases h3
  exact ⟨h1, by rw [h2]; exact h4⟩

/-- C69: The columns are filled exactly if there is information about groups of this kind; otherwise, all
of them are empty. -/
theorem C69_columns (ho : ∀ l, (order l).Perm l)
    (hr : BulkRun env order hash label nodes organizations r k g gs d) :
    (HasInformation r organizations k → ∃ t b₁ b₂ b₃ s₁ s₂ s₃ q₁ q₂ q₃,
      columns d k = ⟨some t, (some b₁, some b₂, some b₃), (some s₁, some s₂, some s₃),
        (some q₁, some q₂, some q₃)⟩) ∧
      (¬ HasInformation r organizations k → columns d k = .absent) := by
  obtain ⟨-, v, T, Q, B, S, -, -, -, h1, h2, -⟩ := hr.spec
  rw [← loadKind_some_iff order ho organizations hr.described k hr.groups]
  constructor
  · intro h
    obtain ⟨T', Q', B', S', -, -, -, -, e1, ⟨q₁, q₂, q₃, e2, -⟩, ⟨b₁, b₂, b₃, e3, -⟩,
      ⟨s₁, s₂, s₃, e4, -⟩⟩ := h2 h
    refine ⟨T'.card, b₁, b₂, b₃, s₁, s₂, s₃, q₁, q₂, q₃, ?_⟩
    rw [← e1, ← e2, ← e3, ← e4]
  · intro h
    rw [not_or, not_not] at h
    exact h1 h.1 h.2

/-- C69: the groups. -/
theorem C69_groups (ho : ∀ l, (order l).Perm l)
    (hr : BulkRun env order hash label nodes organizations r k g gs d) (hk : DistinctKeys r)
    (hi : HasInformation r organizations k) :
    AreGroups r (Fbas.fromRaw r) organizations gs k ∧ (k ≠ .orgs → DisjointGroups gs) := by
  have hsome := (loadKind_some_iff order ho organizations hr.described k hr.groups).2 hi
  obtain ⟨b1, b2, b3, b4⟩ := kindOptions_by nodes organizations k
  by_cases hn : k = .nodes
  · subst hn
    have : g = none := (Except.ok.inj hr.groups).symm
    rcases hr.made with ⟨-, rfl⟩ | ⟨g', rfl, -⟩
    · exact ⟨rfl, fun _ => by simp [DisjointGroups]⟩
    · cases this
  · obtain ⟨gs', a1, a2, a3⟩ := loadKind_made order organizations hr.described k hr.groups
    obtain rfl := madeFrom_unique hr.made a1
    have hload := a3 (hsome.resolve_left hn)
    obtain ⟨r', hr', h1, h2, h3⟩ :=
      (C69_panics_iff env order hash label nodes organizations).1 ⟨d, hr.ok⟩
    obtain rfl := C62_unambiguous _ _ _ hr.described hr'
    obtain ⟨lines, hlines⟩ := (C65_panics_iff env order (kindOptions nodes organizations k)).2
      ⟨r, hr.described, fun _ => h2, fun _ => h1, fun j hj => h3 j ((b3 j).1 hj).2, fun h => absurd h b4⟩
    have hrun : Run env order (kindOptions nodes organizations k) (Fbas.fromRaw r) g gs lines :=
      ⟨((C62_nodes nodes).1 _).2 ⟨r, hr.described, rfl⟩, hload, hr.made, hlines⟩
    obtain ⟨-, -, c3, c4⟩ := C65_groups ho hrun r hr.described hk
    cases k with
    | nodes => exact absurd rfl hn
    | orgs =>
      obtain ⟨j, hj⟩ := Option.ne_none_iff_exists'.1 hi
      obtain ⟨raws, c5, c6⟩ := c3 j ((b3 j).2 ⟨rfl, hj⟩)
      exact ⟨⟨j, raws, hj, c5, c6⟩, by simp⟩
    | isps =>
      have := c4 (fun n => n.isp) (.inr ⟨b2.2 rfl, rfl⟩)
      exact ⟨this, fun _ => this.1⟩
    | ctries =>
      have := c4 (fun n => n.geoData.join) (.inl ⟨b1.2 rfl, rfl⟩)
      exact ⟨this, fun _ => this.1⟩

/-- C69: the number of nodes (or groups) in the top tier. -/
theorem C69_top_tier (ho : ∀ l, (order l).Perm l)
    (hr : BulkRun env order hash label nodes organizations r k g gs d) (hd : DisjointGroups gs)
    (hi : HasInformation r organizations k) :
    ∃ T, GroupsOf gs (Fbas.fromRaw r) (InTopTier (Fbas.fromRaw r)) T ∧
      (k = .nodes → ∀ x, x ∈ T ↔ InTopTier (Fbas.fromRaw r) x) ∧
      (columns d k).topTierSize = some T.card := by
  obtain ⟨he, v, T, Q, B, S, hv, -, -, -, h2, -⟩ := hr.spec
  obtain ⟨T', -, -, -, m1, -, -, -, e, -⟩ :=
    h2 ((loadKind_some_iff order ho organizations hr.described k hr.groups).2 hi)
  obtain ⟨T₀, t1, t2⟩ := C18_top_tier env _ (wf_fromRaw r) [.minimalQuorums] (.inl (by simp))
    (not_starts_of_not_mem (by simp))
  rw [hv.top] at t1
  cases t1
  refine ⟨T', mergedSet_spec hr.made hd he t2 hv.topLt m1, ?_, e⟩
  rintro rfl
  obtain rfl : g = none := (Except.ok.inj hr.groups).symm
  obtain rfl : T' = T := m1
  exact t2

theorem nodup_of_before {L : List NodeSet} (h : L.Pairwise Before) : L.Nodup :=
  h.imp fun {S T} hST => by
    rintro rfl
    unfold Before at hST
    simp at hST

/-- C69: sizes of the minimal quorums, or of the minimal sets of groups that contain a quorum. Each is
counted once if groups are considered, or if no symmetric cluster of the relevant nodes lists a node twice
(otherwise, see C27). -/
theorem C69_quorums (ho : ∀ l, (order l).Perm l)
    (hr : BulkRun env order hash label nodes organizations r k g gs d) (hd : DisjointGroups gs)
    (hi : HasInformation r organizations k) :
    ∃ L, MinimalGroupSets gs (Fbas.fromRaw r) (ContainsQuorum (Fbas.fromRaw r)) L ∧
      (k = .nodes → ∀ S, S ∈ L ↔ IsMinQuorum (Fbas.fromRaw r) S) ∧
      (k ≠ .nodes ∨ (∀ f' sm, (Fbas.fromRaw r).shrunken ((Fbas.fromRaw r).relevantNodes env) = .ok (f', sm) →
        ∀ q, SymCluster f' q → DupFree q) → L.Nodup) ∧
      ShowsSizes L (columns d k).mq := by
  obtain ⟨he, v, T, Q, B, S, hv, -, -, -, h2, -⟩ := hr.spec
  have hsome := (loadKind_some_iff order ho organizations hr.described k hr.groups).2 hi
  obtain ⟨-, M, -, -, -, m1, -, -, -, e, -⟩ := h2 hsome
  have hwf := wf_fromRaw r
  obtain ⟨L', -, h3, -, -, h4⟩ := C27_minimal_quorums_as_sets_partial env _ hwf [] (.inl (by simp))
    (not_starts_of_not_mem (by simp))
  rw [hv.quorums] at h3
  cases h3
  have h5 : ∀ S, S ∈ Q ↔ Minimal (ContainsQuorum (Fbas.fromRaw r)) S := fun S => by
    rw [h4, isMinQuorum_iff_contains]; rfl
  obtain ⟨n1, n2, n3⟩ := mergedSets_spec (fun S T hST ⟨Q, g1, g2⟩ => ⟨Q, g1, g2.trans hST⟩) hr.made hd he
    h5 hv.quorumsLt m1
  obtain ⟨-, s2⟩ := quorums_sorted env _ hwf hv.quorums
  have hnone : k = .nodes → g = none := by
    rintro rfl; exact (Except.ok.inj hr.groups).symm
  refine ⟨M, n1, fun hk S => by rw [n2 (hnone hk)]; exact h4 S, fun hcond => nodup_of_before ?_, e⟩
  by_cases hg : g = none
  · rw [n2 hg]
    rcases hcond with hk | h
    · exact absurd hg (hsome.resolve_left hk)
    · exact s2 h
  · exact n3 hg

/-- C69: sizes of the minimal blocking sets (of nodes or groups).

Missing for the full statement: FBASs without quorums, for which zeros are written (see
`C69_no_quorums`), and FBASs whose top tier is not well-shaped; there the claim is false, see C29. -/
theorem C69_blocking_partial (ho : ∀ l, (order l).Perm l)
    (hr : BulkRun env order hash label nodes organizations r k g gs d) (hd : DisjointGroups gs)
    (hi : HasInformation r organizations k) (hq : ∃ Q, IsQuorum (Fbas.fromRaw r) Q)
    (hw : ∀ T : NodeSet, (∀ x, x ∈ T ↔ InTopTier (Fbas.fromRaw r) x) → Shaped (Fbas.fromRaw r) T) :
    ∃ L, MinimalGroupSets gs (Fbas.fromRaw r) (Blocking (Fbas.fromRaw r)) L ∧
      (k = .nodes → ∀ S, S ∈ L ↔ IsMinBlocking (Fbas.fromRaw r) S) ∧ L.Nodup ∧
      ShowsSizes L (columns d k).mbs := by
  obtain ⟨he, v, T, Q, B, S, hv, -, -, -, h2, -⟩ := hr.spec
  have hsome := (loadKind_some_iff order ho organizations hr.described k hr.groups).2 hi
  obtain ⟨-, -, M, -, -, -, m1, -, -, -, e, -⟩ := h2 hsome
  obtain ⟨L', h3, h4, h5⟩ := C29_quorums_first_partial env _ (wf_fromRaw r) hw hq [.minimalQuorums]
    (not_starts_of_head (c := .minimalQuorums) (by simp) (by simp))
  rw [hv.blocking] at h3
  cases h3
  obtain ⟨n1, n2, n3⟩ := mergedSets_spec (P := Blocking (Fbas.fromRaw r)) (fun S T => Blocking.mono S T)
    hr.made hd he h4 hv.blockingLt m1
  have hnone : k = .nodes → g = none := by
    rintro rfl; exact (Except.ok.inj hr.groups).symm
  refine ⟨M, n1, fun hk S => by rw [n2 (hnone hk)]; exact h4 S, nodup_of_before ?_, e⟩
  by_cases hg : g = none
  · rw [n2 hg]; exact h5
  · exact n3 hg

/-- C69: whatever the FBAS looks like, the sizes written for minimal blocking sets are sizes of blocking sets
(of nodes or groups). -/
theorem C69_blocking_sound (ho : ∀ l, (order l).Perm l)
    (hr : BulkRun env order hash label nodes organizations r k g gs d) (hd : DisjointGroups gs)
    (hi : HasInformation r organizations k) :
    ∃ L, (∀ S ∈ L, Blocking (Fbas.fromRaw r) (expand gs (Fbas.fromRaw r) S)) ∧
      ShowsSizes L (columns d k).mbs := by
  obtain ⟨he, v, T, Q, B, S, hv, -, -, -, h2, -⟩ := hr.spec
  have hsome := (loadKind_some_iff order ho organizations hr.described k hr.groups).2 hi
  obtain ⟨-, -, M, -, -, -, m1, -, -, -, e, -⟩ := h2 hsome
  exact ⟨M, mergedSets_sound (fun S T => Blocking.mono S T) hr.made hd
    (C29_sound env _ (wf_fromRaw r) _ _ hv.blocking) hv.blockingLt m1, e⟩

/-- C69: sizes of the minimal splitting sets (of nodes or groups) if quorums intersect.

Missing for the full statement: FBASs that are not well-shaped; there the claim is false, see C19. -/
theorem C69_splitting_partial (ho : ∀ l, (order l).Perm l)
    (hr : BulkRun env order hash label nodes organizations r k g gs d) (hd : DisjointGroups gs)
    (hi : HasInformation r organizations k) (hqi : QuorumIntersection (Fbas.fromRaw r))
    (hsym : ∀ T : NodeSet, (∀ x, x ∈ T ↔ InTopTier (Fbas.fromRaw r) x) → ∀ f' sm,
      (Fbas.fromRaw r).shrunken T = .ok (f', sm) →
      ∀ q, SymCluster f' q → DupFree q ∧ q.threshold ≤ q.validators.length + q.inner.length ∧
        ∀ q' ∈ q.inner, Majority q')
    (hdup : ∀ f' sm, (Fbas.fromRaw r).shrunken ((Fbas.fromRaw r).relevantNodes env) = .ok (f', sm) →
      ∀ q, SymCluster f' q → DupFree q) :
    ∃ L, MinimalGroupSets gs (Fbas.fromRaw r) (Splitting (Fbas.fromRaw r)) L ∧
      (k = .nodes → ∀ S, S ∈ L ↔ IsMinSplitting (Fbas.fromRaw r) S) ∧ L.Nodup ∧
      ShowsSizes L (columns d k).mss := by
  obtain ⟨he, v, T, Q, B, S, hv, -, -, -, h2, -⟩ := hr.spec
  have hsome := (loadKind_some_iff order ho organizations hr.described k hr.groups).2 hi
  obtain ⟨-, -, -, M, -, -, -, m1, -, -, -, e⟩ := h2 hsome
  obtain ⟨L', h3, h4, h5⟩ := C19_analysis_partial env _ (wf_fromRaw r) hqi hsym hdup [.minimalQuorums]
    (not_starts_of_not_mem (by simp))
  rw [hv.splitting] at h3
  cases h3
  obtain ⟨n1, n2, n3⟩ := mergedSets_spec (P := Splitting (Fbas.fromRaw r)) (fun S T => Splitting.mono S T)
    hr.made hd he h4 hv.splittingLt m1
  have hnone : k = .nodes → g = none := by
    rintro rfl; exact (Except.ok.inj hr.groups).symm
  refine ⟨M, n1, fun hk S => by rw [n2 (hnone hk)]; exact h4 S, nodup_of_before ?_, e⟩
  by_cases hg : g = none
  · rw [n2 hg]; exact h5
  · exact n3 hg

/-- C69: Without quorum intersection, zeros are written for the minimal splitting sets. -/
theorem C69_splitting_without_intersection (ho : ∀ l, (order l).Perm l)
    (hr : BulkRun env order hash label nodes organizations r k g gs d) (hd : DisjointGroups gs)
    (hi : HasInformation r organizations k) (hqi : ¬ QuorumIntersection (Fbas.fromRaw r)) :
    (columns d k).mss = (some 0, some 0, some 0) := by
  obtain ⟨he, v, T, Q, B, S, hv, -, -, -, h2, -⟩ := hr.spec
  have hsome := (loadKind_some_iff order ho organizations hr.described k hr.groups).2 hi
  obtain ⟨-, -, -, M, -, -, -, m1, -, -, -, lo, hi', mean, e, hs⟩ := h2 hsome
  obtain ⟨L', h3, h4, -⟩ := C21_empty_splitting_set env _ (wf_fromRaw r) [.minimalQuorums] (.inl (by simp))
    (not_starts_of_not_mem (by simp))
  rw [hv.splitting] at h3
  cases h3
  obtain rfl := h4.2 hqi
  obtain rfl := mergeSets_empty hr.made hd he m1
  obtain ⟨⟨S₁, a1, a2⟩, S₂, b1, b2⟩ := hs.attained (by simp)
  have hm := hs.mean
  rw [List.mem_singleton] at a1 b1
  subst a1; subst b1
  rw [e, ← a2, ← b2]
  simp at hm
  simp [hm]

/-- C69: The hash is that of the standard form of the FBAS: it is the same for all FBASs with the same
content, independent of the order of nodes and of entries in quorum sets. -/
theorem C69_hash {env' : Env} {order' : List String → List String} {label' : Text} {nodes' : Json}
    {organizations' : Option Json} {r' : RawFbas} {k' : Kind} {g' : Option Groupings}
    {gs' : List Grouping} {d' : DataPoint}
    (hr : BulkRun env order hash label nodes organizations r k g gs d)
    (hr' : BulkRun env' order' hash label' nodes' organizations' r' k' g' gs' d') (hk : DistinctKeys r)
    (h : Reordered r r') : d.standardFormHash = d'.standardFormHash := by
  obtain ⟨-, v, T, Q, B, S, -, -, -, -, -, sf, h1, h2⟩ := hr.spec
  obtain ⟨-, v', T', Q', B', S', -, -, -, -, -, sf', h1', h2'⟩ := hr'.spec
  obtain ⟨g, h3, h4⟩ := C38_order_json env env' r r' hk h
  rw [h1] at h3
  rw [h1'] at h4
  cases h3
  cases h4
  rw [h2, h2']

end

/-! ## Output files -/

section
variable {I O : Type} {run : Task I O → Except Panic O}

theorem exists_right {α β : Type} {R : α → β → Prop} {l : List α} {l' : List β} (h : List.Forall₂ R l l')
    {x : α} (hx : x ∈ l) : ∃ y ∈ l', R x y := by
  induction h with
  | nil => cases hx
  | cons h _ ih =>
    rcases List.mem_cons.1 hx with rfl | hx
    · exact ⟨_, List.mem_cons_self, h⟩
    · obtain ⟨y, hy, hr⟩ := ih hx
      exact ⟨y, List.mem_cons_of_mem _ hy, hr⟩

theorem exists_left {α β : Type} {R : α → β → Prop} {l : List α} {l' : List β} (h : List.Forall₂ R l l')
    {y : β} (hy : y ∈ l') : ∃ x ∈ l, R x y := by
  obtain ⟨x, hx, hr⟩ := exists_right (List.Forall₂.flip h) hy
  exact ⟨x, hx, hr⟩

theorem writeAll_spec (run : Task I O → Except Panic O) (tasks : List (Task I O)) :
    List.Forall₂ (fun t o => run t = .ok o) (tasks.take (writeAll run tasks).1.length) (writeAll run tasks).1 ∧
      ((writeAll run tasks).2 = none → (writeAll run tasks).1.length = tasks.length) ∧
      ∀ p, (writeAll run tasks).2 = some p →
        ∃ t, tasks[(writeAll run tasks).1.length]? = some t ∧ run t = .error p := by
  induction tasks with
  | nil => simp [writeAll]
  | cons t ts ih =>
    obtain ⟨h1, h2, h3⟩ := ih
    cases ht : run t with
    | error e =>
      rw [writeAll, ht]
      simp [ht]
    | ok o =>
      rw [writeAll, ht]
      exact ⟨.cons ht h1, fun h => by simp [h2 h], fun p hp => by simpa using h3 p hp⟩

end

theorem output_tasks (env : Env) (order : List String → List String) (hash : Json → String)
    (files : Path → Option Json) (paths : List Path) (ignore : Text) (existing : List DataPoint)
    (out : List DataPoint) (e : Option Panic)
    (h : Bulk.main env order hash files paths ignore existing = some (out, e)) :
    ∃ inputs, extractInputs paths ignore = some inputs ∧
      let tasks := analyzerTasks DataPoint.label inputs existing
      List.Forall₂ (fun t d => analyzeOrReuse env order hash files t = .ok d) (tasks.take out.length) out ∧
        (e = none → out.length = tasks.length) ∧
        ∀ p, e = some p → ∃ t, tasks[out.length]? = some t ∧
          analyzeOrReuse env order hash files t = .error p := by
  unfold Bulk.main at h
  cases hi : extractInputs paths ignore with
  | none => rw [hi] at h; cases h
  | some inputs =>
    rw [hi] at h
    have h := Option.some.inj h
    refine ⟨inputs, rfl, ?_⟩
    have := writeAll_spec (analyzeOrReuse env order hash files)
      (analyzerTasks DataPoint.label inputs existing)
    rw [h] at this
    exact this

/-- C69: The result for a task is an existing one, or it is computed from the contents of the files. -/
theorem C69_task (env : Env) (order : List String → List String) (hash : Json → String)
    (files : Path → Option Json) (d : DataPoint) :
    (∀ o, analyzeOrReuse env order hash files (.reuse o) = .ok d ↔ d = o) ∧
    ∀ i, analyzeOrReuse env order hash files (.analyze i) = .ok d ↔
      ∃ nodes organizations, Contents files i nodes organizations ∧
        Bulk.analyze env order hash i.label nodes organizations = .ok d := by
  refine ⟨fun o => ⟨fun h => (Except.ok.inj h).symm, fun h => by rw [h]; rfl⟩, fun i => ?_⟩
  unfold Contents
  cases hn : files i.nodesPath with
  | none =>
    have key : analyzeOrReuse env order hash files (.analyze i) = .error .explicit := by
      simp only [analyzeOrReuse, readJson, hn, bind, Except.bind]
    rw [key]
    refine ⟨(fun h => by cases h), ?_⟩
    rintro ⟨nodes, organizations, ⟨h, -⟩, -⟩
    cases h
  | some nodes =>
    cases ho : i.organizationsPath with
    | none =>
      have key : analyzeOrReuse env order hash files (.analyze i) =
          Bulk.analyze env order hash i.label nodes none := by
        simp only [analyzeOrReuse, readJson, hn, ho, bind, Except.bind]
      rw [key]
      constructor
      · intro h
        exact ⟨nodes, none, ⟨rfl, fun _ => rfl, fun p h => by cases h⟩, h⟩
      · rintro ⟨nodes', organizations, ⟨h1, h2, -⟩, h3⟩
        obtain rfl := Option.some.inj h1
        obtain rfl := h2 rfl
        exact h3
    | some p =>
      cases hp : files p with
      | none =>
        have key : analyzeOrReuse env order hash files (.analyze i) = .error .explicit := by
          simp only [analyzeOrReuse, readJson, hn, ho, hp, bind, Except.bind]
        rw [key]
        constructor
        · intro h
          cases h
        · rintro ⟨nodes', organizations, ⟨-, -, h1⟩, -⟩
          obtain ⟨j, h2, -⟩ := h1 p rfl
          rw [hp] at h2
          cases h2
      | some j =>
        have key : analyzeOrReuse env order hash files (.analyze i) =
            Bulk.analyze env order hash i.label nodes (some j) := by
          simp only [analyzeOrReuse, readJson, hn, ho, hp, bind, Except.bind]
        rw [key]
        constructor
        · intro h
          refine ⟨nodes, some j, ⟨rfl, (fun h => by cases h), fun p' h' => ?_⟩, h⟩
          cases h'
          exact ⟨j, hp, rfl⟩
        · rintro ⟨nodes', organizations, ⟨h1, -, h2⟩, h3⟩
          obtain rfl := Option.some.inj h1
          obtain ⟨j', h4, rfl⟩ := h2 p rfl
          rw [hp] at h4
          obtain rfl := Option.some.inj h4
          exact h3

/-- C69: The output file contains the results of the tasks in their order: existing results, and results
that are computed from the contents of files (see `BulkRun`). It ends before the first task for which a
file cannot be read or the analysis panics. -/
theorem C69_output (env : Env) (order : List String → List String) (hash : Json → String)
    (files : Path → Option Json) (paths : List Path) (ignore : Text) (existing : List DataPoint)
    (out : List DataPoint) (e : Option Panic)
    (h : Bulk.main env order hash files paths ignore existing = some (out, e)) :
    ∃ inputs, extractInputs paths ignore = some inputs ∧
      let tasks := analyzerTasks DataPoint.label inputs existing
      List.Forall₂ (fun t d => (∀ o, t = .reuse o → d = o) ∧ ∀ i, t = .analyze i →
          ∃ nodes organizations, Contents files i nodes organizations ∧
            Bulk.analyze env order hash i.label nodes organizations = .ok d)
        (tasks.take out.length) out ∧
        (e = none → out.length = tasks.length) ∧
        (e ≠ none → ∃ i, tasks[out.length]? = some (.analyze i) ∧
          ¬ ∃ nodes organizations d, Contents files i nodes organizations ∧
            Bulk.analyze env order hash i.label nodes organizations = .ok d) := by
  obtain ⟨inputs, h1, h2, h3, h4⟩ := output_tasks env order hash files paths ignore existing out e h
  refine ⟨inputs, h1, h2.imp (fun t d htd => ?_), h3, fun he => ?_⟩
  · constructor
    · rintro o rfl
      exact ((C69_task env order hash files d).1 o).1 htd
    · rintro i rfl
      exact ((C69_task env order hash files d).2 i).1 htd
  · obtain ⟨p, hp⟩ := Option.ne_none_iff_exists'.1 he
    obtain ⟨t, h5, h6⟩ := h4 p hp
    cases t with
    | reuse o => cases h6
    | analyze i =>
      refine ⟨i, h5, ?_⟩
      rintro ⟨nodes, organizations, d, h7⟩
      rw [((C69_task env order hash files d).2 i).2 ⟨nodes, organizations, h7⟩] at h6
      cases h6

theorem analyzeOrReuse_label {env : Env} {order : List String → List String} {hash : Json → String}
    {files : Path → Option Json} {t : Task Input DataPoint} {d : DataPoint}
    (h : analyzeOrReuse env order hash files t = .ok d) :
    d.label = t.label Input.label DataPoint.label := by
  cases t with
  | reuse o => cases h; rfl
  | analyze i =>
    have key : ∀ nodes organizations, Bulk.analyze env order hash i.label nodes organizations = .ok d →
        d.label = i.label := by
      intro nodes organizations h
      obtain ⟨r, g, gs, hr⟩ := exists_bulkRun h .nodes
      exact (C69_has_quorum_intersection hr).1
    unfold analyzeOrReuse at h
    cases hn : readJson files i.nodesPath with
    | error e => simp only [hn, bind, Except.bind] at h; cases h
    | ok nodes =>
      simp only [hn, bind, Except.bind] at h
      split at h
      · exact key _ _ h
      · split at h
        · cases h
        · exact key _ _ h

/-- C69: If no analysis panics and labels are different, no existing result is lost, there is a result for
each new input, and nothing else. -/
theorem C69_complete (env : Env) (order : List String → List String) (hash : Json → String)
    (files : Path → Option Json) (paths : List Path) (ignore : Text) (existing : List DataPoint)
    (inputs : List Input) (hin : extractInputs paths ignore = some inputs)
    (hi : (inputs.map Input.label).Nodup) (hl : (existing.map DataPoint.label).Nodup)
    (out : List DataPoint) (h : Bulk.main env order hash files paths ignore existing = some (out, none)) :
    (out.map DataPoint.label).Pairwise (· < ·) ∧ (∀ o ∈ existing, o ∈ out) ∧
      (∀ i ∈ inputs, i.label ∉ existing.map DataPoint.label →
        ∃ d ∈ out, d.label = i.label ∧ analyzeOrReuse env order hash files (.analyze i) = .ok d) ∧
      ∀ d ∈ out, d ∈ existing ∨ ∃ i ∈ inputs, i.label ∉ existing.map DataPoint.label ∧
        d.label = i.label ∧ analyzeOrReuse env order hash files (.analyze i) = .ok d := by
  obtain ⟨inputs', e1, h1, h2, -⟩ := output_tasks env order hash files paths ignore existing out none h
  rw [hin] at e1
  obtain rfl := Option.some.inj e1
  rw [h2 rfl, List.take_length] at h1
  obtain ⟨c1, c2, c3, -⟩ := C57_analyzer DataPoint.label inputs existing hi hl
  have hlab : out.map DataPoint.label = (analyzerTasks DataPoint.label inputs existing).map
      (Task.label Input.label DataPoint.label) := by
    clear c1 c2 c3 h2 h
    generalize analyzerTasks DataPoint.label inputs existing = tasks at h1
    induction h1 with
    | nil => rfl
    | cons ht _ ih => rw [List.map_cons, List.map_cons, ih, analyzeOrReuse_label ht]
  refine ⟨by rw [hlab]; exact c1, fun o ho => ?_, fun i hi' hn => ?_, fun d hd => ?_⟩
  · obtain ⟨d, hd, hd'⟩ := exists_right h1 ((c3 o).2 ho)
    cases hd'
    exact hd
  · obtain ⟨d, hd, hd'⟩ := exists_right h1 ((c2 i).2 ⟨hi', hn⟩)
    exact ⟨d, hd, analyzeOrReuse_label hd', hd'⟩
  · obtain ⟨t, ht, hd'⟩ := exists_left h1 hd
    cases t with
    | reuse o => cases hd'; exact .inl ((c3 d).1 ht)
    | analyze i =>
      obtain ⟨a1, a2⟩ := (c2 i).1 ht
      exact .inr ⟨i, a1, a2, analyzeOrReuse_label hd', hd'⟩

/-- C69: If the analysis of a new input panics, no result with this or a later label is written. Existing
results with later labels are lost, as the file is overwritten. -/
theorem C69_lost (env : Env) (order : List String → List String) (hash : Json → String)
    (files : Path → Option Json) (paths : List Path) (ignore : Text) (existing : List DataPoint)
    (inputs : List Input) (hin : extractInputs paths ignore = some inputs)
    (hi : (inputs.map Input.label).Nodup) (hl : (existing.map DataPoint.label).Nodup)
    (out : List DataPoint) (e : Option Panic)
    (h : Bulk.main env order hash files paths ignore existing = some (out, e)) (i : Input) (hm : i ∈ inputs)
    (hn : i.label ∉ existing.map DataPoint.label) (p : Panic)
    (hp : analyzeOrReuse env order hash files (.analyze i) = .error p) :
    (∃ p, e = some p) ∧ (∀ d ∈ out, d.label < i.label) ∧ ∀ o ∈ existing, i.label ≤ o.label → o ∉ out := by
  obtain ⟨inputs', e1, h1, h2, -⟩ := output_tasks env order hash files paths ignore existing out e h
  rw [hin] at e1
  obtain rfl := Option.some.inj e1
  obtain ⟨c1, c2, c3, -⟩ := C57_analyzer DataPoint.label inputs existing hi hl
  have hmem := (c2 i).2 ⟨hm, hn⟩
  generalize analyzerTasks DataPoint.label inputs existing = tasks at *
  have hnot : Task.analyze i ∉ tasks.take out.length := by
    intro h
    obtain ⟨d, -, hd⟩ := exists_right h1 h
    rw [hp] at hd
    cases hd
  have hdrop : Task.analyze i ∈ tasks.drop out.length := by
    rw [← List.take_append_drop out.length tasks, List.mem_append] at hmem
    exact hmem.resolve_left hnot
  have hlt : ∀ d ∈ out, d.label < i.label := by
    intro d hd
    obtain ⟨t, ht, hd'⟩ := exists_left h1 hd
    rw [analyzeOrReuse_label hd']
    rw [← List.take_append_drop out.length tasks, List.map_append, List.pairwise_append] at c1
    exact c1.2.2 _ (List.mem_map_of_mem ht) _ (List.mem_map_of_mem hdrop)
  refine ⟨?_, hlt, fun o ho hle hout => absurd (hlt o hout) (not_lt.2 hle)⟩
  cases e with
  | some p => exact ⟨p, rfl⟩
  | none =>
    exfalso
    rw [h2 rfl, List.take_length] at hnot
    exact hnot hmem

/-! ## Concrete cases -/

/-- The symmetric FBAS of four nodes; nodes 0 and 1 are one organization, nodes 2 and 3 have the same ISP. -/
def nodesBulk : Json := .arr ((List.range 4).map fun i => .obj ([
  ("publicKey", .str s!"n{i}"),
  ("quorumSet", .obj [("threshold", .nat 3),
    ("validators", .arr [.str "n0", .str "n1", .str "n2", .str "n3"]), ("innerQuorumSets", .arr [])])] ++
  if 2 ≤ i then [("isp", .str "I")] else []))

/-- The FBAS has minimal quorums of 3 nodes, minimal blocking sets and minimal splitting sets of 2 nodes. With
organizations, 2 or 3 of the groups A, 2, 3 are needed for a quorum, A blocks and splits, as do 2 and 3.
There are no countries. -/
def pointBulk : DataPoint :=
  { label := "x".toList, hasQuorumIntersection := true, topTierSize := 4
    mbsMin := 2, mbsMax := 2, mbsMean := 2, mssMin := 2, mssMax := 2, mssMean := 2
    mqMin := 3, mqMax := 3, mqMean := 3
    orgsTopTierSize := some 3, orgsMbsMin := some 1, orgsMbsMax := some 2, orgsMbsMean := some (3 / 2)
    orgsMssMin := some 1, orgsMssMax := some 2, orgsMssMean := some (3 / 2)
    orgsMqMin := some 2, orgsMqMax := some 2, orgsMqMean := some 2
    ispsTopTierSize := some 3, ispsMbsMin := some 1, ispsMbsMax := some 2, ispsMbsMean := some (3 / 2)
    ispsMssMin := some 1, ispsMssMax := some 2, ispsMssMean := some (3 / 2)
    ispsMqMin := some 2, ispsMqMax := some 2, ispsMqMean := some 2
    standardFormHash := "h" }

theorem analyze_bulk : Bulk.analyze (Ref.refEnv 4) id (fun _ => "h") "x".toList nodesBulk (some orgsFour) =
    .ok pointBulk := Ref.ok_of (by decide +kernel)

/-- Two nodes that cannot be satisfied. -/
def nodesNoQuorum : Json := (Ref.mkFbas [⟨2, [0], []⟩, ⟨3, [0, 1], []⟩]).toJson

/-- What is written for it. -/
def emptyPoint : DataPoint :=
  { label := [], hasQuorumIntersection := false, topTierSize := 0
    mbsMin := 0, mbsMax := 0, mbsMean := 0, mssMin := 0, mssMax := 0, mssMean := 0
    mqMin := 0, mqMax := 0, mqMean := 0, standardFormHash := "h" }

/-- C69: For an FBAS without quorums, zeros are written for the minimal blocking sets, as for an FBAS for which
the empty set is blocking; but no blocking set was found. -/
theorem C69_no_quorums :
    (∃ d, Bulk.analyze (Ref.refEnv 2) id (fun _ => "h") [] nodesNoQuorum none = .ok d ∧
      d.hasQuorumIntersection = false ∧ columns d .nodes =
        ⟨some 0, (some 0, some 0, some 0), (some 0, some 0, some 0), (some 0, some 0, some 0)⟩) ∧
    answerAfter (Ref.refEnv 2) (Ref.mkFbas [⟨2, [0], []⟩, ⟨3, [0, 1], []⟩]) [.minimalQuorums]
      .minimalBlockingSets = .ok (.sets []) := by
  exact ⟨⟨emptyPoint, Ref.ok_of (by decide +kernel), rfl, rfl⟩, Ref.ok_of (by decide +kernel)⟩

/-- A node whose ISP has a name that ends with a letter that is not ASCII. -/
def nodesName : Json := .arr [.obj [("publicKey", .str "n0"),
  ("quorumSet", .obj [("threshold", .nat 1), ("validators", .arr [.str "n0"]), ("innerQuorumSets", .arr [])]),
  ("isp", .str "Télé")]]

/-- An existing data point. -/
def existingPoint : DataPoint :=
  { label := "b".toList, hasQuorumIntersection := true, topTierSize := 1
    mbsMin := 1, mbsMax := 1, mbsMean := 1, mssMin := 0, mssMax := 0, mssMean := 0
    mqMin := 1, mqMax := 1, mqMean := 1, standardFormHash := "h" }

/-- C69: An existing result is lost because another input has an ISP with a name that cannot be
processed. -/
theorem C69_lost_counterexample (env : Env) (order : List String → List String) (hash : Json → String) :
    ∃ p, Bulk.main env order hash (fun _ => some nodesName) [⟨[], "a_nodes.json".toList⟩] []
      [existingPoint] = some ([], some p) := by
  have hl : extractInputs [⟨[], "a_nodes.json".toList⟩] [] =
      some [⟨"a".toList, ⟨[], "a_nodes.json".toList⟩, none⟩] := by decide +kernel
  have ht : analyzerTasks DataPoint.label [⟨"a".toList, ⟨[], "a_nodes.json".toList⟩, none⟩] [existingPoint] =
      [.analyze ⟨"a".toList, ⟨[], "a_nodes.json".toList⟩, none⟩, .reuse existingPoint] := by
    decide +kernel
  have he : ∃ p, Bulk.analyze env order hash "a".toList nodesName none = .error p := by
    cases h : Bulk.analyze env order hash "a".toList nodesName none with
    | error p => exact ⟨p, rfl⟩
    | ok d =>
      obtain ⟨r, hr, h1, -⟩ := (C69_panics_iff env order hash _ _ _).1 ⟨d, h⟩
      have hr' := fbas_fromJson_iff.2 hr
      have e : (RawFbas.fromJson nodesName).map (fun r => r.map RawNode.isp) = some [some "Télé"] := by
        decide +kernel
      rw [hr', Option.map_some, Option.some.injEq] at e
      have hmem : some "Télé" ∈ r.map RawNode.isp := by rw [e]; simp
      obtain ⟨n, hn, hs⟩ := List.mem_map.1 hmem
      obtain ⟨c, hc, hlt⟩ := h1 n hn _ hs
      have hlast : ("Télé".toList.filter (fun c => c != ',')).getLast? = some 'é' := by decide +kernel
      rw [hlast] at hc
      cases hc
      exact absurd hlt (by decide)
  obtain ⟨p, hp⟩ := he
  refine ⟨p, ?_⟩
  unfold Bulk.main
  rw [hl]
  dsimp only
  rw [ht, writeAll]
  have : analyzeOrReuse env order hash (fun _ => some nodesName)
      (.analyze ⟨"a".toList, ⟨[], "a_nodes.json".toList⟩, none⟩) = .error p := hp
  rw [this]

theorem nodesBulk_isSome : (RawFbas.fromJson nodesBulk).isSome = true := by decide +kernel

/-- The hypotheses of the theorems about columns are met by `nodesBulk`, for example for the ISPs, and what
`C69_columns`, `C69_groups`, `C69_top_tier`, `C69_quorums`, `C69_blocking_partial`, `C69_blocking_sound` and
`C69_splitting_partial` say about it. -/
example : ∃ r g gs, BulkRun (Ref.refEnv 4) id (fun _ => "h") "x".toList nodesBulk (some orgsFour) r .isps g gs
      pointBulk ∧
    DistinctKeys r ∧ AreGroups r (Fbas.fromRaw r) (some orgsFour) gs .isps ∧ DisjointGroups gs ∧
    (∃ T, GroupsOf gs (Fbas.fromRaw r) (InTopTier (Fbas.fromRaw r)) T ∧ T.card = 3) ∧
    (∃ L, MinimalGroupSets gs (Fbas.fromRaw r) (ContainsQuorum (Fbas.fromRaw r)) L ∧
      ShowsSizes L (some 2, some 2, some 2)) ∧
    (∃ L, MinimalGroupSets gs (Fbas.fromRaw r) (Blocking (Fbas.fromRaw r)) L ∧
      ShowsSizes L (some 1, some 2, some (3 / 2))) ∧
    (∃ L, (∀ S ∈ L, Blocking (Fbas.fromRaw r) (expand gs (Fbas.fromRaw r) S)) ∧
      ShowsSizes L (some 1, some 2, some (3 / 2))) ∧
    ∃ L, MinimalGroupSets gs (Fbas.fromRaw r) (Splitting (Fbas.fromRaw r)) L ∧
      ShowsSizes L (some 1, some 2, some (3 / 2)) := by
  obtain ⟨r, g, gs, hr⟩ := exists_bulkRun analyze_bulk .isps
  have ho : ∀ l : List String, (id l).Perm l := fun l => .refl l
  have er : r = (RawFbas.fromJson nodesBulk).get nodesBulk_isSome :=
    Option.some.inj ((fbas_fromJson_iff.2 hr.described).symm.trans (Option.some_get _).symm)
  have hk : DistinctKeys r := by rw [er]; unfold DistinctKeys; decide +kernel
  have hi : HasInformation r (some orgsFour) .isps := by
    rw [er]; show ∃ n ∈ _, _; decide +kernel
  have hqi : QuorumIntersection (Fbas.fromRaw r) := by rw [er]; decide +kernel
  have hflat := flat_of_list (f := Fbas.fromRaw r) (by rw [er]; decide +kernel)
  have hw := wellShaped_of_flat (Ref.refEnv 4) _ hflat
  have hq : ∃ Q, IsQuorum (Fbas.fromRaw r) Q := by rw [er]; exact ⟨{0, 1, 2}, by decide +kernel⟩
  obtain ⟨a1, a2⟩ := C69_groups ho hr hk hi
  have hd := a2 (by simp)
  obtain ⟨T, b1, -, b2⟩ := C69_top_tier ho hr hd hi
  obtain ⟨Q, c1, -, -, c2⟩ := C69_quorums ho hr hd hi
  obtain ⟨B, d1, -, -, d2⟩ := C69_blocking_partial ho hr hd hi hq hw.topTier
  obtain ⟨S, e1, -, -, e2⟩ := C69_splitting_partial ho hr hd hi hqi (fun T hT f' sm hs q hsc => by
      obtain ⟨g1, g2⟩ := hw.topTier T hT f' sm hs q hsc
      refine ⟨g1, ?_, majority_of_flat _ hflat T hT f' sm hs q hsc⟩
      cases g2 with
      | intro _ _ h _ => exact h)
    (fun f' sm hs q hsc => (hw.relevant f' sm hs q hsc).1)
  exact ⟨r, g, gs, hr, hk, a1, hd, ⟨T, b1, (Option.some.inj b2).symm⟩, ⟨Q, c1, c2⟩, ⟨B, d1, d2⟩,
    C69_blocking_sound ho hr hd hi, ⟨S, e1, e2⟩⟩

/-- Two nodes, each of which is a quorum. -/
def nodesSplit : Json := (Ref.mkFbas [⟨1, [0], []⟩, ⟨1, [1], []⟩]).toJson

theorem nodesSplit_isSome : (RawFbas.fromJson nodesSplit).isSome = true := by decide +kernel

/-- Concrete case of `C69_splitting_without_intersection`. -/
example : ∃ d, Bulk.analyze (Ref.refEnv 2) id (fun _ => "h") [] nodesSplit none = .ok d ∧
    d.hasQuorumIntersection = false ∧ (columns d .nodes).mss = (some 0, some 0, some 0) := by
  have h : Bulk.analyze (Ref.refEnv 2) id (fun _ => "h") [] nodesSplit none = .ok
    { label := [], hasQuorumIntersection := false, topTierSize := 2
      mbsMin := 2, mbsMax := 2, mbsMean := 2, mssMin := 0, mssMax := 0, mssMean := 0
      mqMin := 1, mqMax := 1, mqMean := 1, standardFormHash := "h" } := Ref.ok_of (by decide +kernel)
  obtain ⟨r, g, gs, hr⟩ := exists_bulkRun h .nodes
  have er : r = (RawFbas.fromJson nodesSplit).get nodesSplit_isSome :=
    Option.some.inj ((fbas_fromJson_iff.2 hr.described).symm.trans (Option.some_get _).symm)
  have hk : DistinctKeys r := by rw [er]; unfold DistinctKeys; decide +kernel
  refine ⟨_, h, rfl, C69_splitting_without_intersection (fun l => .refl l) hr
    ((C69_groups (fun l => .refl l) hr hk trivial).2 (by simp)) trivial ?_⟩
  · exact mt (C69_has_quorum_intersection hr).2.2 (by decide)

/-- The nodes of `nodesBulk` in another order, with validators in another order. -/
def nodesBulkRev : Json := .arr ((List.range 4).map fun i => .obj [
  ("publicKey", .str s!"n{3 - i}"),
  ("quorumSet", .obj [("threshold", .nat 3),
    ("validators", .arr [.str "n3", .str "n2", .str "n1", .str "n0"]), ("innerQuorumSets", .arr [])])])

theorem nodesBulkRev_isSome : (RawFbas.fromJson nodesBulkRev).isSome = true := by decide +kernel

/-- Concrete case of `C69_hash`: whatever the hash function, both have the same hash. -/
example (hash : Json → String) : ∃ d d',
    Bulk.analyze (Ref.refEnv 4) id hash "x".toList nodesBulk (some orgsFour) = .ok d ∧
    Bulk.analyze (Ref.refEnv 4) id hash "y".toList nodesBulkRev none = .ok d' ∧
    d.standardFormHash = d'.standardFormHash := by
  obtain ⟨d, hd⟩ := (C69_panics_iff (Ref.refEnv 4) id hash "x".toList nodesBulk (some orgsFour)).2
    ((C69_panics_iff _ _ _ _ _ _).1 ⟨_, analyze_bulk⟩)
  obtain ⟨d', hd'⟩ : ∃ d', Bulk.analyze (Ref.refEnv 4) id hash "y".toList nodesBulkRev none = .ok d' := by
    refine (C69_panics_iff _ _ _ _ _ _).2 ((C69_panics_iff (Ref.refEnv 4) id (fun _ => "h") "y".toList _ _).1
      ⟨{ label := "y".toList, hasQuorumIntersection := true, topTierSize := 4
         mbsMin := 2, mbsMax := 2, mbsMean := 2, mssMin := 2, mssMax := 2, mssMean := 2
         mqMin := 3, mqMax := 3, mqMean := 3, standardFormHash := "h" }, Ref.ok_of (by decide +kernel)⟩)
  obtain ⟨r, g, gs, hr⟩ := exists_bulkRun hd .nodes
  obtain ⟨r', g', gs', hr'⟩ := exists_bulkRun hd' .nodes
  have er : r = (RawFbas.fromJson nodesBulk).get nodesBulk_isSome :=
    Option.some.inj ((fbas_fromJson_iff.2 hr.described).symm.trans (Option.some_get _).symm)
  have er' : r' = (RawFbas.fromJson nodesBulkRev).get nodesBulkRev_isSome :=
    Option.some.inj ((fbas_fromJson_iff.2 hr'.described).symm.trans (Option.some_get _).symm)
  refine ⟨d, d', hd, hd', C69_hash hr hr' (by rw [er]; unfold DistinctKeys; decide +kernel)
    ⟨r.reverse, (List.reverse_perm r).symm, ?_⟩⟩
  rw [er, er']
  have hp : (["n0", "n1", "n2", "n3"] : List String).Perm ["n3", "n2", "n1", "n0"] := by decide +kernel
  exact .cons ⟨rfl, .validators 3 [] hp⟩ (.cons ⟨rfl, .validators 3 [] hp⟩
    (.cons ⟨rfl, .validators 3 [] hp⟩ (.cons ⟨rfl, .validators 3 [] hp⟩ .nil)))

/-- Three files: nodes and organizations with the label x, and nodes with a label of which there is already
a data point. -/
def pathsBulk : List Path :=
  [⟨[], "x_nodes.json".toList⟩, ⟨[], "b_nodes.json".toList⟩, ⟨[], "x_organizations.json".toList⟩]

/-- What is in the files. -/
def filesBulk (p : Path) : Option Json :=
  if p.fileName = "x_nodes.json".toList then some nodesBulk
  else if p.fileName = "x_organizations.json".toList then some orgsFour else none

def inputsBulk : List Input :=
  [⟨"x".toList, ⟨[], "x_nodes.json".toList⟩, some ⟨[], "x_organizations.json".toList⟩⟩,
    ⟨"b".toList, ⟨[], "b_nodes.json".toList⟩, none⟩]

theorem main_bulk : Bulk.main (Ref.refEnv 4) id (fun _ => "h") filesBulk pathsBulk [] [existingPoint] =
    some ([existingPoint, pointBulk], none) := by
  have hl : extractInputs pathsBulk [] = some inputsBulk := by decide +kernel
  have ht : analyzerTasks DataPoint.label inputsBulk [existingPoint] =
      [.reuse existingPoint, .analyze inputsBulk[0]] := by decide +kernel
  have hx : analyzeOrReuse (Ref.refEnv 4) id (fun _ => "h") filesBulk (.analyze inputsBulk[0]) =
      .ok pointBulk := by
    refine ((C69_task _ _ _ _ _).2 _).2 ⟨nodesBulk, some orgsFour, ⟨?_, ?_, ?_⟩, analyze_bulk⟩
    · unfold filesBulk; rw [if_pos (by decide +kernel)]
    · exact fun h => absurd h (by decide)
    · rintro p hp
      cases Option.some.inj hp
      refine ⟨_, ?_, rfl⟩
      unfold filesBulk; rw [if_neg (by decide +kernel), if_pos (by decide +kernel)]
  unfold Bulk.main
  rw [hl]
  dsimp only
  rw [ht, writeAll, writeAll, hx]
  rfl

/-- Concrete case of `C69_task`, `C69_output` and `C69_complete`: the existing data point is kept, and the
other one is computed. -/
example : ∀ i ∈ inputsBulk, i.label ∉ [existingPoint].map DataPoint.label →
    ∃ d ∈ [existingPoint, pointBulk], d.label = i.label ∧
      analyzeOrReuse (Ref.refEnv 4) id (fun _ => "h") filesBulk (.analyze i) = .ok d :=
  (C69_complete _ _ _ _ pathsBulk _ [existingPoint] inputsBulk (by decide +kernel) (by decide +kernel)
    (by decide +kernel) _ main_bulk).2.2.1

#print axioms C69_panics_iff
#print axioms C69_has_quorum_intersection
#print axioms C69_columns
#print axioms C69_groups
#print axioms C69_top_tier
#print axioms C69_quorums
#print axioms C69_blocking_partial
#print axioms C69_blocking_sound
#print axioms C69_splitting_partial
#print axioms C69_splitting_without_intersection
#print axioms C69_hash
#print axioms C69_task
#print axioms C69_output
#print axioms C69_complete
#print axioms C69_lost
#print axioms C69_no_quorums
#print axioms C69_lost_counterexample

end FA.Props
