import Verif.Lemmas.ReuseReport
import Verif.Ref.Json
import Verif.Ref.Decide

/-!
# C74: reusing results (examples/results_reuse.rs)
-/

namespace FA.Props
open FA Spec Analysis Reuse

/-- C74: `do_analysis` never panics, and returns what the methods of a new `Analysis` return when they
are called in this order. -/
theorem C74_do_analysis (env : Env) (f : Fbas) (hwf : WF f) :
    ∃ r B S, doAnalysis env f = .ok r ∧
      r.minimalBlockingSets.unwrap = .ok B ∧ r.minimalSplittingSets.unwrap = .ok S ∧
      answerAfter env f [] .minimalBlockingSets = .ok (.sets B) ∧
      answerAfter env f [.minimalBlockingSets] .minimalSplittingSets = .ok (.sets S) ∧
      answerAfter env f [.minimalBlockingSets, .minimalSplittingSets] .topTier =
        .ok (.set r.topTier.unwrap) ∧
      answerAfter env f [.minimalBlockingSets, .minimalSplittingSets, .topTier]
        .hasQuorumIntersection = .ok (.bool r.hasQuorumIntersection) := by
  obtain ⟨r, B, S, h1, h2, -⟩ := doAnalysis_spec env hwf
  exact ⟨r, B, S, h1, h2.unwrapB, h2.unwrapS, h2.blocking, h2.splitting, h2.top, h2.hqi⟩

/-- C74: the results are exact for well-shaped FBASs with a quorum.

Missing for the full statement: the remaining FBASs; see C29 and C19. -/
theorem C74_exact_partial (env : Env) (f : Fbas) (hwf : WF f) (hw : WellShaped env f)
    (hmaj : ∀ T : NodeSet, (∀ x, x ∈ T ↔ InTopTier f x) → ∀ f' sm, f.shrunken T = .ok (f', sm) →
      ∀ q, SymCluster f' q → ∀ q' ∈ q.inner, Majority q')
    (hq : ∃ Q, IsQuorum f Q) (r : Results) (hr : doAnalysis env f = .ok r) :
    ∃ B S, r.minimalBlockingSets.unwrap = .ok B ∧ (∀ X, X ∈ B ↔ IsMinBlocking f X) ∧
      B.Pairwise Before ∧
      r.minimalSplittingSets.unwrap = .ok S ∧ (∀ X, X ∈ S ↔ IsMinSplitting f X) ∧
      (∀ x, x ∈ r.topTier.unwrap ↔ InTopTier f x) ∧
      (r.hasQuorumIntersection = true ↔ QuorumIntersection f) := by
  obtain ⟨r', B, S, h1, h2, -⟩ := doAnalysis_spec env hwf
  rw [hr] at h1
  obtain rfl := Except.ok.inj h1
  refine ⟨B, S, h2.unwrapB, ?_, ?_, h2.unwrapS, ?_, ?_, ?_⟩
  · obtain ⟨L, e, h, -⟩ := C29_minimal_blocking_sets_partial env f hwf hw hq []
    rw [h2.blocking] at e
    cases e
    exact h
  · obtain ⟨L, e, -, h⟩ := C29_minimal_blocking_sets_partial env f hwf hw hq []
    rw [h2.blocking] at e
    cases e
    exact h
  · by_cases hqi : QuorumIntersection f
    · obtain ⟨L, e, h, -⟩ := C19_all_histories_partial env f hwf hqi hw hmaj [.minimalBlockingSets]
      rw [h2.splitting] at e
      cases e
      exact h
    · obtain ⟨L, e, h, -⟩ := C21_all_histories_partial env f hwf hw [.minimalBlockingSets] (.inr hq)
      rw [h2.splitting] at e
      cases e
      intro X
      rw [h.2 hqi, minSplitting_of_not_intersecting hq hqi]
      simp
  · obtain ⟨T, e, h⟩ := C18_top_tier_all_histories_partial env f hwf hw
      [.minimalBlockingSets, .minimalSplittingSets] (.inr hq)
    rw [h2.top] at e
    cases e
    exact h
  · obtain ⟨b, e, h⟩ := C12_all_histories_partial env f hwf hw
      [.minimalBlockingSets, .minimalSplittingSets, .topTier] (.inr hq)
    rw [h2.hqi] at e
    cases e
    exact h

/-- C74: reusing the results of earlier runs does not change what is printed. -/
theorem C74_runs (env : Env) (cache : Cache) (hc : FilledByRuns (· = env) cache) (hash : Json → String)
    (nodes organizations : Json) (failing : List String) (evil : List NodeId) :
    (Reuse.main env hash cache nodes organizations failing evil).map Prod.fst =
      (Reuse.main env hash [] nodes organizations failing evil).map Prod.fst := by
  rcases fromJson_cases nodes with ⟨r, -, hf⟩ | ⟨-, hf⟩
  · obtain ⟨r', hg⟩ := standardForm_ok env (Fbas.fromRaw r)
    obtain ⟨env₁, res, c1, he₁, h1, h2, -⟩ := cached_spec (E := (· = env)) rfl
      (consistent_of_filled hc) ⟨r', rfl⟩
    obtain ⟨env₂, res', c2, he₂, h3, h4, -⟩ := cached_spec (E := (· = env)) rfl
      (consistent_of_filled .empty) ⟨r', rfl⟩
    rw [he₁] at h1
    rw [he₂, h1] at h3
    obtain rfl := Except.ok.inj h3
    rw [main_eq hf hg h2, main_eq hf hg h4]
    cases postAnalysis (Fbas.fromRaw r') res organizations failing evil <;> rfl
  · unfold Reuse.main
    rw [hf]
    rfl

/-- C74: the FBAS is not analysed again when it, or the same FBAS with nodes and quorum sets listed in
another order, was in an earlier run: the output is the same and the cache is not changed, whatever an
analysis would compute (`env'`). -/
theorem C74_second_run (env env' : Env) (hash : Json → String) (cache cache' : Cache)
    (nodes nodes' organizations : Json) (r r' : RawFbas) (hr : DescribesFbas nodes r)
    (hr' : DescribesFbas nodes' r') (hd : DistinctKeys r) (ho : Reordered r r')
    (failing : List String) (evil : List NodeId) (lines : List Line)
    (h : Reuse.main env hash cache nodes organizations failing evil = .ok (lines, cache')) :
    Reuse.main env' hash cache' nodes' organizations failing evil = .ok (lines, cache') := by
  have e : ∀ {j r}, DescribesFbas j r → Fbas.fromJson j = .ok (Fbas.fromRaw r) := by
    intro j r h
    unfold Fbas.fromJson
    rw [fbas_fromJson_iff.2 h]
  obtain ⟨g, h1, h2⟩ := C38_order_json env env' r r' hd ho
  obtain ⟨x, hx⟩ := standardForm_ok env (Fbas.fromRaw r)
  rw [h1] at hx
  obtain rfl := Except.ok.inj hx
  obtain ⟨res, c, h3, h4⟩ := cached_ok (env := env) (cache := cache) (r := x)
  rw [main_eq (e hr) h1 h3] at h
  have key : c = cache' → cached env' c (Fbas.fromRaw x) = .ok (res, c) := by
    intro _
    unfold cached
    rw [h4]
  cases hp : postAnalysis (Fbas.fromRaw x) res organizations failing evil with
  | error p => rw [hp] at h; cases h
  | ok l =>
    rw [hp] at h
    obtain ⟨rfl, rfl⟩ := Prod.mk.inj (Except.ok.inj h)
    rw [main_eq (e hr') h2 (key rfl), hp]
    rfl

/-- C74: the JSON value of which the hash is printed determines the standard form of the FBAS, and so
the results. -/
theorem C74_hashed_json (env : Env) (r r' : RawFbas) (g g' : Fbas)
    (hg : (Fbas.fromRaw r).toStandardForm env = .ok g)
    (hg' : (Fbas.fromRaw r').toStandardForm env = .ok g') : g.toJson = g'.toJson ↔ g = g' := by
  obtain ⟨x, hx⟩ := standardForm_ok env (Fbas.fromRaw r)
  obtain ⟨y, hy⟩ := standardForm_ok env (Fbas.fromRaw r')
  rw [hg] at hx
  rw [hg'] at hy
  obtain rfl := Except.ok.inj hx
  obtain rfl := Except.ok.inj hy
  exact ⟨toJson_inj, fun h => by rw [h]⟩

/-- C74: what is printed, with an empty cache or one that was filled by any earlier runs: the hash of
the standard form and a report about the FBAS that was loaded, although the results are about its
standard form, in which nodes have other IDs. The failing nodes are given by public keys, the evil ones
by IDs in the standard form `g`.

Missing for the full statement: FBASs for which blocking or splitting sets are not exact, see C29 and
C19 (and overlapping organizations, see C33). -/
theorem C74_report_partial (env : Env) (hash : Json → String) (cache : Cache)
    (hc : FilledByRuns (fun _ => True) cache) (nodes organizations : Json) (r : RawFbas)
    (gs : List RawGrouping) (hr : DescribesFbas nodes r) (hd : DistinctKeys r)
    (ho : DescribesGroupings organizations gs) (hdo : DisjointOrganizations gs)
    (hq : ∃ Q, IsQuorum (Fbas.fromRaw r) Q) (g : Fbas)
    (hg : (Fbas.fromRaw r).toStandardForm env = .ok g) (hw : WellShaped env g)
    (hmaj : ∀ T : NodeSet, (∀ x, x ∈ T ↔ InTopTier g x) → ∀ f' sm, g.shrunken T = .ok (f', sm) →
      ∀ q, SymCluster f' q → ∀ q' ∈ q.inner, Majority q')
    (failing : List String) (evil : List NodeId) :
    ∃ first n m k last cache',
      Reuse.main env hash cache nodes organizations failing evil =
        .ok ([.hash (hash g.toJson), .smallestBlockingSet first, .worstCase n m, .moreFailures k, last],
          cache') ∧
      Report (Fbas.fromRaw r) gs (withKeys (Fbas.fromRaw r) failing)
        (withKeys (Fbas.fromRaw r) (keysOf g evil)) first n m k last := by
  have hf : Fbas.fromJson nodes = .ok (Fbas.fromRaw r) := by
    unfold Fbas.fromJson
    rw [fbas_fromJson_iff.2 hr]
  have hfd := distinct_fromRaw hd
  have hfw := wf_fromRaw r
  obtain ⟨a1, a2, a3, a4⟩ := C39_analysis env _ g hfd hfw hg
  have a5 := C39_min_quorums env _ g hfd hfw hg
  obtain ⟨x, hx, hxd⟩ : ∃ x, g = Fbas.fromRaw x ∧ DistinctKeys x := by
    rw [toStandardForm_eq env hfd hfw] at hg
    exact ⟨_, (Except.ok.inj hg).symm, distinct_perm (sortByKey_perm _).symm
      (restrictFbas_distinct (toRaw_keys_distinct hfd))⟩
  subst hx
  have hq' : ∃ Q, IsQuorum (Fbas.fromRaw x) Q := by
    obtain ⟨Q, hQ⟩ := hq
    obtain ⟨M, hM, -⟩ := exists_minimal_sub (P := IsQuorum (Fbas.fromRaw r)) hQ
    obtain ⟨N, hN, -⟩ := (a5 _).2 ⟨M, hM, rfl⟩
    exact ⟨N, hN.prop⟩
  obtain ⟨env', res, c, -, h1, h2, -⟩ := cached_spec (env := env) trivial (consistent_of_filled hc)
    ⟨x, rfl⟩
  have hw' : WellShaped env' (Fbas.fromRaw x) :=
    ⟨by rw [relevantNodes_env env' env (wf_fromRaw x)]; exact hw.relevant, hw.topTier⟩
  obtain ⟨B, S, b1, b2, b3, s1, s2, -⟩ := C74_exact_partial env' _ (wf_fromRaw x) hw' hmaj hq' res h1
  obtain ⟨res', B', S', h3, h4, h5, -⟩ := doAnalysis_spec env' (wf_fromRaw x)
  rw [h1] at h3
  obtain rfl := Except.ok.inj h3
  obtain ⟨first, n, m, k, last, h6, h7⟩ := postAnalysis_spec hxd b1 h5 b2 b3 s1 s2 ho hdo failing evil
  refine ⟨first, n, m, k, last, c, ?_, report_transfer (distinct_fromRaw hxd) hfd a2 a3 h7⟩
  rw [main_eq hf hg h2, h6]
  rfl

/-- C74: if there is no quorum the program panics: it accesses the first one of no blocking sets. -/
theorem C74_no_quorum (env : Env) (hash : Json → String) (cache : Cache)
    (hc : FilledByRuns (fun _ => True) cache) (nodes organizations : Json) (r : RawFbas)
    (hr : DescribesFbas nodes r) (hd : DistinctKeys r) (hq : ¬ ∃ Q, IsQuorum (Fbas.fromRaw r) Q)
    (failing : List String) (evil : List NodeId) :
    Reuse.main env hash cache nodes organizations failing evil = .error .outOfBounds := by
  have hf : Fbas.fromJson nodes = .ok (Fbas.fromRaw r) := by
    unfold Fbas.fromJson
    rw [fbas_fromJson_iff.2 hr]
  have hfd := distinct_fromRaw hd
  have hfw := wf_fromRaw r
  have hR : (Fbas.fromRaw r).relevantNodes env = ∅ := by
    rw [Finset.eq_empty_iff_forall_notMem]
    intro x hx
    obtain ⟨⟨Q, hQ, -⟩, -⟩ := (C08_relevant_iff env _ hfw x).1 hx
    exact hq ⟨Q, hQ⟩
  obtain ⟨x, hx⟩ := standardForm_ok env (Fbas.fromRaw r)
  have hx0 : (Fbas.fromRaw x).nodes = [] := by
    classical
    have := C38_content env _ hfd hfw
    rw [hx] at this
    rw [Except.ok.inj this]
    have hl : restrictFbas (RawRelevant (Fbas.fromRaw r).toRaw) (Fbas.fromRaw r).toRaw = [] := by
      unfold restrictFbas
      rw [List.map_eq_nil_iff, List.filter_eq_nil_iff]
      intro n _ hn
      obtain ⟨⟨P, hP, -⟩, -⟩ := of_decide_eq_true (p := RawRelevant _ _) hn
      obtain ⟨Q, hQ, -⟩ := (rawQuorum_toRaw_iff hfd hfw).1 hP
      exact hq ⟨Q, hQ⟩
    rw [hl]
    rfl
  have hnq : ¬ ∃ Q, IsQuorum (Fbas.fromRaw x) Q := by
    rintro ⟨Q, hQ⟩
    obtain ⟨y, hy⟩ := hQ.1
    have := Finset.mem_range.1 (hQ.subset_all hy)
    rw [hx0] at this
    cases this
  obtain ⟨env', res, c, -, h1, h2, -⟩ := cached_spec (env := env) trivial (consistent_of_filled hc)
    ⟨x, rfl⟩
  have hw : WellShaped env' (Fbas.fromRaw x) := wellShaped_of_flat _ _ (by
    rintro y q ⟨n, hn, -⟩
    rw [hx0] at hn
    cases hn)
  obtain ⟨res', B, S, h3, h4, -⟩ := doAnalysis_spec env' (wf_fromRaw x)
  rw [h1] at h3
  obtain rfl := Except.ok.inj h3
  have hb := (C29_no_quorum env' _ (wf_fromRaw x) hw hnq [] (by simp)).1
  rw [h4.blocking] at hb
  cases hb
  rw [main_eq hf hx h2]
  have : postAnalysis (Fbas.fromRaw x) res organizations failing evil = .error .outOfBounds := by
    unfold postAnalysis
    simp only [C35_pretty _ _ h4.unwrapB, bind, Except.bind]
    rfl
  rw [this]
  rfl

/-- C74: the program panics if one of the files does not describe an FBAS or organizations. -/
theorem C74_bad_input (env : Env) (hash : Json → String) (cache : Cache)
    (nodes organizations : Json) (failing : List String) (evil : List NodeId) :
    ((∀ r, ¬ DescribesFbas nodes r) →
      Reuse.main env hash cache nodes organizations failing evil = .error .explicit) ∧
    ((∀ gs, ¬ DescribesGroupings organizations gs) →
      ∃ p, Reuse.main env hash cache nodes organizations failing evil = .error p) := by
  rcases fromJson_cases nodes with ⟨r, hr, hf⟩ | ⟨hn, hf⟩
  · refine ⟨fun h => absurd hr (h r), fun h => ?_⟩
    obtain ⟨x, hx⟩ := standardForm_ok env (Fbas.fromRaw r)
    obtain ⟨res, c, h1, -⟩ := cached_ok (env := env) (cache := cache) (r := x)
    rw [main_eq hf hx h1]
    unfold postAnalysis
    simp only [(C62_organizations organizations (Fbas.fromRaw x)).2 h, bind, Except.bind]
    cases res.minimalBlockingSets.intoPrettyVecVec (Fbas.fromRaw x) none with
    | error e => exact ⟨e, rfl⟩
    | ok l => cases l <;> exact ⟨_, rfl⟩
  · have : Reuse.main env hash cache nodes organizations failing evil = .error .explicit := by
      unfold Reuse.main
      rw [hf]
      rfl
    exact ⟨fun _ => this, fun _ => ⟨_, this⟩⟩

/-! ### Concrete cases -/

/-- A node with a flat quorum set. -/
def jsonNode (key : String) (threshold : ℕ) (validators : List String) : Json :=
  .obj [("publicKey", .str key), ("quorumSet", .obj [("threshold", .nat threshold),
    ("validators", .arr (validators.map .str))])]

/-- Four nodes of which three are a quorum, and a node that is not relevant, not sorted by key. -/
def jsonReuse : Json := .arr [jsonNode "z" 1 ["b"], jsonNode "d" 3 ["a", "b", "c", "d"],
  jsonNode "b" 3 ["a", "b", "c", "d"], jsonNode "a" 3 ["a", "b", "c", "d"],
  jsonNode "c" 3 ["a", "b", "c", "d"]]

/-- The same in another order. -/
def jsonReuse' : Json := .arr [jsonNode "a" 3 ["a", "b", "c", "d"],
  jsonNode "b" 3 ["a", "b", "c", "d"], jsonNode "c" 3 ["d", "b", "c", "a"],
  jsonNode "d" 3 ["a", "b", "c", "d"], jsonNode "z" 1 ["b"]]

def jsonReuseOrgs : Json := .arr [.obj [("name", .str "o"), ("validators", .arr [.str "a", .str "b"])],
  .obj [("name", .str "p"), ("validators", .arr [.str "c", .str "x"])]]

/-- Two nodes per blocking set, one organization; after "d" fails one more node; with the evil node 1,
which is "b", one more node has to become evil. -/
example : (Reuse.main (Ref.refEnv 5) (fun _ => "") [] jsonReuse jsonReuseOrgs ["d"] [1]).map Prod.fst =
    .ok [.hash "", .smallestBlockingSet ["a", "b"], .worstCase 2 1, .moreFailures 1, .moreEvil 1] := by
  decide +kernel

example : (Reuse.main (Ref.refEnv 5) (fun _ => "") [] jsonReuse' jsonReuseOrgs ["d", "a"] [1, 0]).map
    Prod.fst = .ok [.hash "", .smallestBlockingSet ["a", "b"], .worstCase 2 1, .moreFailures 0,
      .lacksIntersection] := by
  decide +kernel

def rawReuse : RawFbas := [⟨"z", ⟨1, ["b"], []⟩, none, none⟩,
  ⟨"d", ⟨3, ["a", "b", "c", "d"], []⟩, none, none⟩, ⟨"b", ⟨3, ["a", "b", "c", "d"], []⟩, none, none⟩,
  ⟨"a", ⟨3, ["a", "b", "c", "d"], []⟩, none, none⟩, ⟨"c", ⟨3, ["a", "b", "c", "d"], []⟩, none, none⟩]

/-- The hypotheses of `C74_report_partial` are met. -/
example (hash : Json → String) : ∃ g first n m k last cache',
    Reuse.main (Ref.refEnv 5) hash [] jsonReuse jsonReuseOrgs ["d"] [1] =
      .ok ([.hash (hash g.toJson), .smallestBlockingSet first, .worstCase n m, .moreFailures k, last],
        cache') ∧
    Report (Fbas.fromRaw rawReuse) [⟨"o", ["a", "b"]⟩, ⟨"p", ["c", "x"]⟩]
      (withKeys (Fbas.fromRaw rawReuse) ["d"]) (withKeys (Fbas.fromRaw rawReuse) (keysOf g [1]))
      first n m k last := by
  obtain ⟨g, hg⟩ := toStandardForm_ok (Ref.refEnv 5) (Fbas.fromRaw rawReuse)
  have hn : ((Fbas.fromRaw rawReuse).toStandardForm (Ref.refEnv 5)).map Fbas.nodes =
      .ok (["a", "b", "c", "d"].map (fun p => (⟨p, ⟨3, [0, 1, 2, 3], []⟩⟩ : Node))) := by decide +kernel
  rw [hg] at hn
  have hflat := flat_of_list (f := g) (by rw [Except.ok.inj hn]; decide +kernel)
  obtain ⟨first, n, m, k, last, cache', h⟩ := C74_report_partial (Ref.refEnv 5) hash [] .empty jsonReuse
    jsonReuseOrgs rawReuse [⟨"o", ["a", "b"]⟩, ⟨"p", ["c", "x"]⟩] (fbas_fromJson_iff.1 rfl)
    (by unfold DistinctKeys; decide +kernel) (groupings_fromJson_iff.1 rfl)
    (by simp [DisjointOrganizations]) (by decide +kernel) g hg (wellShaped_of_flat _ _ hflat)
    (majority_of_flat _ hflat) ["d"] [1]
  exact ⟨g, first, n, m, k, last, cache', h⟩

/-- There is no quorum (`C74_no_quorum`). -/
example : Reuse.main (Ref.refEnv 1) (fun _ => "") [] (.arr [jsonNode "a" 2 ["a"]]) jsonReuseOrgs [] [] =
    .error .outOfBounds :=
  C74_no_quorum _ _ _ .empty _ _ [⟨"a", ⟨2, ["a"], []⟩, none, none⟩] (fbas_fromJson_iff.1 rfl)
    (by unfold DistinctKeys; decide +kernel) (by decide +kernel) _ _

/-- A second run with the nodes in another order uses the results of the first one
(`C74_second_run`). -/
example : ((Reuse.main (Ref.refEnv 5) (fun _ => "") [] jsonReuse jsonReuseOrgs ["d"] [1]).bind (fun r =>
      (Reuse.main (Ref.refEnv 5) (fun _ => "") r.2 jsonReuse' jsonReuseOrgs ["d"] [1]).map
        (fun r' => (r'.1, decide (r'.2.length = 1))))) =
    .ok ([.hash "", .smallestBlockingSet ["a", "b"], .worstCase 2 1, .moreFailures 1, .moreEvil 1],
      true) := by
  decide +kernel

/-- The last line of the report is wrong if there is only one minimal quorum: no set of nodes is
splitting, but the program prints that 0 more nodes have to become evil for safety to become
endangered. (The list of splitting sets is empty, and `min` is 0 for empty lists.) -/
theorem C74_counterexample :
    (Reuse.main (Ref.refEnv 2) (fun _ => "") []
      (.arr [jsonNode "a" 2 ["a", "b"], jsonNode "b" 2 ["a", "b"]]) jsonReuseOrgs [] []).map Prod.fst =
        .ok [.hash "", .smallestBlockingSet ["a"], .worstCase 1 1, .moreFailures 1, .moreEvil 0] ∧
      ∀ X, ¬ Splitting (Fbas.fromRaw [⟨"a", ⟨2, ["a", "b"], []⟩, none, none⟩,
        ⟨"b", ⟨2, ["a", "b"], []⟩, none, none⟩]) X := by
  refine ⟨by decide +kernel, ?_⟩
  rintro X ⟨Q₁, Q₂, h1, h2, hne, -⟩
  have key : ∀ Q, IsMinQuorum (Fbas.fromRaw [⟨"a", ⟨2, ["a", "b"], []⟩, none, none⟩,
      ⟨"b", ⟨2, ["a", "b"], []⟩, none, none⟩]) Q → Q = {0, 1} := by
    have : ∀ Q ∈ (Fbas.fromRaw [⟨"a", ⟨2, ["a", "b"], []⟩, none, none⟩,
        ⟨"b", ⟨2, ["a", "b"], []⟩, none, none⟩]).allNodes.powerset, IsMinQuorum (Fbas.fromRaw
          [⟨"a", ⟨2, ["a", "b"], []⟩, none, none⟩, ⟨"b", ⟨2, ["a", "b"], []⟩, none, none⟩]) Q →
        Q = {0, 1} := by decide +kernel
    exact fun Q hQ => this Q (Finset.mem_powerset.2 hQ.prop.subset_all) hQ
  exact hne ((key _ h1).trans (key _ h2).symm)

#print axioms C74_do_analysis
#print axioms C74_exact_partial
#print axioms C74_runs
#print axioms C74_second_run
#print axioms C74_hashed_json
#print axioms C74_report_partial
#print axioms C74_no_quorum
#print axioms C74_bad_input
#print axioms C74_counterexample

end FA.Props
