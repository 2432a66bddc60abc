import Verif.Lemmas.TidyStandardForm
import Verif.Props.Reuse
import Verif.Props.TidyInput
import Verif.Props.TidyTool

/-!
# C74 for inputs with a tidy top tier
-/

namespace FA.Props
open FA Spec Analysis Reuse

section
variable {env : Env} {f g : Fbas}

/-- C74: the standard form of a network with a tidy top tier has a tidy top tier, whatever the ranking of
nodes is. -/
theorem C74_tidy (hd : DistinctNames f) (hwf : WF f) (hg : f.toStandardForm env = .ok g)
    (h : TidyTopTier f) : TidyTopTier g ∧ (MajoritiesInside f → MajoritiesInside g) :=
  standardForm_tidy hd hwf hg h

end

/-- C74 for inputs with a tidy top tier and majorities inside, in terms of the input files alone: the report
is right about the FBAS that was loaded, whatever was analysed in earlier runs. -/
theorem C74_report_tidy (env : Env) (hash : Json → String) (cache : Cache)
    (hc : FilledByRuns (fun _ => True) cache) (nodes organizations : Json) (r : RawFbas)
    (gs : List RawGrouping) (hr : DescribesFbas nodes r) (hd : DistinctKeys r)
    (ho : DescribesGroupings organizations gs) (hdo : DisjointOrganizations gs)
    (hq : ∃ P, RawQuorum r P) (ht : RawTidyTopTier r) (hm : RawMajoritiesInside r)
    (failing : List String) (evil : List NodeId) :
    ∃ g first n m k last cache', (Fbas.fromRaw r).toStandardForm env = .ok g ∧
      Reuse.main env hash cache nodes organizations failing evil =
        .ok ([.hash (hash g.toJson), .smallestBlockingSet first, .worstCase n m, .moreFailures k, last],
          cache') ∧
      Report (Fbas.fromRaw r) gs (withKeys (Fbas.fromRaw r) failing)
        (withKeys (Fbas.fromRaw r) (keysOf g evil)) first n m k last := by
  obtain ⟨x, hg⟩ := standardForm_ok env (Fbas.fromRaw r)
  obtain ⟨h1, h2⟩ := standardForm_tidy (distinct_fromRaw hd) (wf_fromRaw r) hg (ht.loaded hd)
  have hm' := h2 (RawMajoritiesInside.loaded hd ht hm)
  obtain ⟨first, n, m, k, last, c, h3, h4⟩ := C74_report_partial env hash cache hc nodes organizations r gs
    hr hd ho hdo (exists_loaded_quorum hd hq) _ hg (C91_well_shaped env (wf_fromRaw x) h1)
    (fun T hT f' sm hs q hq => (tidy_clusters h1 hm' T hT f' sm hs q hq).2.2) failing evil
  exact ⟨_, first, n, m, k, last, c, hg, h3, h4⟩

/-! ### A concrete case -/

theorem rawReuse_topTier {p : PublicKey} :
    RawInTopTier rawReuse p ↔ p ∈ ["a", "b", "c", "d"] := by
  have hd : DistinctKeys rawReuse := by unfold DistinctKeys; decide
  have hL : findMinimalQuorums (Ref.refEnv 5) (Fbas.fromRaw rawReuse) =
      .ok [{1, 2, 3}, {1, 2, 4}, {1, 3, 4}, {2, 3, 4}] := Ref.ok_of (by decide +kernel)
  have e : ([{1, 2, 3}, {1, 2, 4}, {1, 3, 4}, {2, 3, 4}] : List NodeSet).map
      (names (Fbas.fromRaw rawReuse)) =
      [{"d", "b", "a"}, {"d", "b", "c"}, {"d", "a", "c"}, {"b", "a", "c"}] := by decide +kernel
  unfold RawInTopTier
  simp only [rawMinQuorum_computed hd hL, e]
  constructor
  · rintro ⟨P, hP, hp⟩
    have : ∀ P ∈ ([{"d", "b", "a"}, {"d", "b", "c"}, {"d", "a", "c"}, {"b", "a", "c"}] :
        List (Finset PublicKey)), ∀ p ∈ P, p ∈ ["a", "b", "c", "d"] := by decide +kernel
    exact this P hP p hp
  · intro hp
    have : ∀ p ∈ ["a", "b", "c", "d"], ∃ P ∈ ([{"d", "b", "a"}, {"d", "b", "c"}, {"d", "a", "c"},
        {"b", "a", "c"}] : List (Finset PublicKey)), p ∈ P := by decide +kernel
    obtain ⟨P, h1, h2⟩ := this p hp
    exact ⟨P, h1, h2⟩

theorem rawReuse_node {n : RawNode} (hn : n ∈ rawReuse) (ht : RawInTopTier rawReuse n.publicKey) :
    n.quorumSet = ⟨3, ["a", "b", "c", "d"], []⟩ := by
  rw [rawReuse_topTier] at ht
  unfold rawReuse at hn
  rcases List.mem_cons.1 hn with rfl | hn
  · exact absurd ht (by decide)
  · rcases List.mem_cons.1 hn with rfl | hn
    · rfl
    · rcases List.mem_cons.1 hn with rfl | hn
      · rfl
      · rcases List.mem_cons.1 hn with rfl | hn
        · rfl
        · rw [List.mem_singleton.1 hn]

/-- The hypotheses of `C74_report_tidy` are met: four nodes and one that only watches. -/
example : DescribesFbas jsonReuse rawReuse ∧ DistinctKeys rawReuse ∧ (∃ P, RawQuorum rawReuse P) ∧
    RawTidyTopTier rawReuse ∧ RawMajoritiesInside rawReuse := by
  obtain ⟨P, hP, -⟩ := (rawReuse_topTier (p := "a")).2 (by decide)
  refine ⟨fbas_fromJson_iff.1 rfl, by unfold DistinctKeys; decide, ⟨P, hP.prop⟩, fun n hn ht => ?_,
    fun n hn ht q hq => ?_⟩
  · rw [rawReuse_node hn ht]
    exact ⟨rawDupFree_flat (by decide), rawSane_flat (by decide) (by decide), fun p hp =>
      rawReuse_topTier.2 (mentions_flat hp)⟩
  · rw [rawReuse_node hn ht] at hq
    exact absurd hq List.not_mem_nil

#print axioms C74_tidy
#print axioms C74_report_tidy

end FA.Props
