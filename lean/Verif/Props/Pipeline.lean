import Verif.Lemmas.Pipeline
import Verif.Props.SimulatorTools
import Verif.Props.GraphGenerator
import Verif.Props.Tool
import Verif.Props.Uniform
import Verif.Props.TidyTool
import Verif.Ref.Decide
import Verif.Ref.Json

/-!
# C95: what `fbas_analyzer` prints about simulated networks

`qsc_simulator … | fbas_analyzer …`
-/

namespace FA.Props
open FA Spec Simulator Tool

/-! ### All policies: everything is exact -/

/-- C95: whatever the policy and the random choices, if the analyzer reads the printed document, then it
gets a network with the same quorums whose quorum sets are flat and list no node twice. It reads the
document if all thresholds fit into 64 bits (which is always the case in Rust). -/
theorem C95_plain (R : Rand) (rnd : ℚ → ℚ) (args : QscSimulator.Cli) (s : R.State) (doc : Json)
    (h : QscSimulator.main R rnd args s = .ok doc) :
    ∃ f : Fbas, doc = f.toJson ∧ Plain f ∧
      ((∀ v ∈ f.nodes, FitsQ v.quorumSet) ↔ ∃ f', Fbas.fromJson doc = .ok f') ∧
      ∀ f', Fbas.fromJson doc = .ok f' → Plain f' ∧ ∀ Q, IsQuorum f' Q ↔ IsQuorum f Q := by
  cases hp : QscSimulator.parseQscConfig R rnd args.qscConfig with
  | error e => unfold QscSimulator.main at h; rw [hp] at h; cases h
  | ok p =>
    obtain ⟨qsc, m⟩ := p
    obtain ⟨i, g, h1, h2, h3⟩ := main_eq hp s
    cases hs : QscSimulator.simulate qsc i g s with
    | error e => rw [h3 e hs] at h; cases h
    | ok f =>
      rw [h2 f hs] at h
      obtain rfl := Except.ok.inj h
      have hpl := (keepsPlain_config hp).simulate (keeps_config hp) hs
      have hn := ((keeps_config hp).simulate hs).2
      refine ⟨f, rfl, hpl, ⟨fun hfits => ⟨_, C63_save_load f hfits⟩, fun ⟨f', hf'⟩ => hpl.fits hf'⟩,
        fun f' hf' => ?_⟩
      rw [C63_save_load f (hpl.fits hf')] at hf'
      obtain rfl := Except.ok.inj hf'
      exact ⟨hpl.read_back hn, (generic_read_back hn).2⟩

section
variable {env : Env} {order : List String → List String} {opts : Options} {f : Fbas}
  {g : Option Groupings} {gs : List Grouping} {lines : List Line}

/-- C95: everything that the analyzer prints about a network with plain quorum sets is right: for all
options, whatever is computed first, and also if nodes are merged by disjoint groups. -/
theorem C95_tool (hr : Run env order opts f g gs lines) (hd : DisjointGroups gs) (hq : ∃ Q, IsQuorum f Q)
    (h : Plain f) (j : Json) :
    (("minimal_quorums", j) ∈ results lines → ∃ L, MinimalGroupSets gs f (ContainsQuorum f) L ∧
      L.Pairwise Before ∧ ShowsSets opts.describe opts.pretty gs f L j) ∧
    (("has_quorum_intersection", j) ∈ results lines → ∃ b, j = .bool b ∧ (b = true ↔ QuorumIntersection f)) ∧
    (("minimal_blocking_sets", j) ∈ results lines → ∃ L, MinimalGroupSets gs f (Blocking f) L ∧
      L.Pairwise Before ∧ ShowsSets opts.describe opts.pretty gs f L j) ∧
    (("minimal_splitting_sets", j) ∈ results lines → ∃ L, MinimalGroupSets gs f (Splitting f) L ∧
      L.Pairwise Before ∧ ShowsSets opts.describe opts.pretty gs f L j) ∧
    (("top_tier", j) ∈ results lines → ∃ T, GroupsOf gs f (InTopTier f) T ∧
      ShowsSet opts.pretty gs f T j) := by
  have hw := wellShaped_of_flat env f h
  have hdup : ∀ f' sm, f.shrunken (f.relevantNodes env) = .ok (f', sm) → ∀ q, SymCluster f' q → DupFree q :=
    fun f' sm hs q hq => (hw.relevant f' sm hs q hq).1
  refine ⟨fun hj => ?_, C65_intersection hr j, fun hj => ?_, fun hj => ?_, fun hj => ?_⟩
  · obtain ⟨L, h1, -, -, h2, h3⟩ := C65_minimal_quorums hr hd j hj
    exact ⟨L, h1, h2 (.inr hdup), h3⟩
  · obtain ⟨L, h1, -, h2, h3⟩ := C65_blocking_partial hr hd j hq (.inl hw.relevant) hw.topTier hj
    exact ⟨L, h1, h2, h3⟩
  · by_cases hqi : QuorumIntersection f
    · obtain ⟨L, h1, -, h2, h3⟩ := C65_splitting_partial hr hd j hqi (.inl hw) (by
        intro T hT f' sm hs q hq
        obtain ⟨h1, h2⟩ := hw.topTier T hT f' sm hs q hq
        cases h2 with
        | intro _ h3 h4 _ => exact ⟨h1, h4, majority_of_flat f h T hT f' sm hs q hq⟩) hdup hj
      exact ⟨L, h1, h2, h3⟩
    · exact ⟨[∅], minimalGroupSets_empty (splitting_empty hq hqi), List.pairwise_singleton _ _,
        (C65_splitting_without_intersection hr hd j (.inl hw) hj).1 hqi⟩
  · obtain ⟨T, h1, -, h2⟩ := C65_top_tier_partial hr hd j (.inl hw) hj
    exact ⟨T, h1, h2⟩

/-- C95: what is printed about a network with plain quorum sets does not depend on which other analyses are
requested (a counterexample to quorum intersection is any pair of disjoint quorums). -/
theorem C95_independent {opts' : Options} {lines' : List Line} (hr : Run env order opts f g gs lines)
    (hr' : Run env order opts' f g gs lines') (hp : opts.pretty = opts'.pretty)
    (hdesc : opts.describe = opts'.describe) (hd : DisjointGroups gs) (h : Plain f) (name : String)
    (hname : name ≠ "nonintersecting_quorums") (j j' : Json) (hj : (name, j) ∈ results lines)
    (hj' : (name, j') ∈ results lines') : j = j' :=
  C65_independent_partial hr hr' hp hdesc hd (.inl (wellShaped_of_flat env f h)) name hname j j' hj hj'

end

/-- C95: everything that `qsc_simulator … | fbas_analyzer …` prints is right, for every policy, all random
choices and all options. -/
theorem C95_exact {env : Env} {order : List String → List String} {opts : Options} {f : Fbas}
    {g : Option Groupings} {gs : List Grouping} {lines : List Line} (R : Rand) (rnd : ℚ → ℚ)
    (args : QscSimulator.Cli) (s : R.State) (h : QscSimulator.main R rnd args s = .ok opts.nodes)
    (hr : Run env order opts f g gs lines) (hd : DisjointGroups gs) (hq : ∃ Q, IsQuorum f Q) (j : Json) :
    (("minimal_quorums", j) ∈ results lines → ∃ L, MinimalGroupSets gs f (ContainsQuorum f) L ∧
      L.Pairwise Before ∧ ShowsSets opts.describe opts.pretty gs f L j) ∧
    (("has_quorum_intersection", j) ∈ results lines → ∃ b, j = .bool b ∧ (b = true ↔ QuorumIntersection f)) ∧
    (("minimal_blocking_sets", j) ∈ results lines → ∃ L, MinimalGroupSets gs f (Blocking f) L ∧
      L.Pairwise Before ∧ ShowsSets opts.describe opts.pretty gs f L j) ∧
    (("minimal_splitting_sets", j) ∈ results lines → ∃ L, MinimalGroupSets gs f (Splitting f) L ∧
      L.Pairwise Before ∧ ShowsSets opts.describe opts.pretty gs f L j) ∧
    (("top_tier", j) ∈ results lines → ∃ T, GroupsOf gs f (InTopTier f) T ∧
      ShowsSet opts.pretty gs f T j) := by
  obtain ⟨f0, -, -, -, h1⟩ := C95_plain R rnd args s opts.nodes h
  exact C95_tool hr hd hq (h1 f hr.nodes).1 j

/-- C95: `qsc_simulator … | fbas_analyzer …` fails after the simulation only if the alternative check is
requested for a simulated network without quorums (if all thresholds fit into 64 bits). -/
theorem C95_no_panics (R : Rand) (rnd : ℚ → ℚ) (args : QscSimulator.Cli) (s : R.State) (doc : Json)
    (h : QscSimulator.main R rnd args s = .ok doc) :
    ∃ f : Fbas, doc = f.toJson ∧ ((∀ v ∈ f.nodes, FitsQ v.quorumSet) →
      ∀ (env : Env) (order : List String → List String) (opts : Options), opts.nodes = doc → Unmerged opts →
        ((∃ lines, Tool.main env order opts = .ok lines) ↔ (UsesAlternative opts → ∃ Q, IsQuorum f Q))) := by
  obtain ⟨f, rfl, -, h1, h2⟩ := C95_plain R rnd args s doc h
  refine ⟨f, rfl, fun hfits env order opts ho hu => ?_⟩
  obtain ⟨f', hf'⟩ := h1.1 hfits
  obtain ⟨r, hr, rfl⟩ := ((C62_nodes f.toJson).1 _).1 hf'
  have hquo := (h2 _ hf').2
  simp only [← hquo]
  rw [C65_panics_iff, ho]
  constructor
  · rintro ⟨r', hr', -, -, -, h4⟩
    rwa [C62_unambiguous _ _ _ hr hr']
  · exact fun ha => ⟨r, hr, fun hc => absurd hc hu.1, fun hc => absurd hc hu.2.1,
      fun j hj => absurd hj (hu.2.2 j), ha⟩

/-! ### Closed forms -/

section
variable {env : Env} {order : List String → List String} {opts : Options} {f : Fbas}
  {g : Option Groupings} {gs : List Grouping} {lines : List Line} {K : NodeSet} {q : QuorumSet}

theorem unmerged_run (hr : Run env order opts f g gs lines) (hu : Unmerged opts) : g = none ∧ gs = [] := by
  obtain ⟨-, -, hg, -⟩ := hr.spec
  have hg : g = none := by
    by_contra hne
    rcases hg.1 hne with h | h | ⟨j, h⟩
    · exact hu.1 h
    · exact hu.2.1 h
    · exact hu.2.2 j h
  subst hg
  rcases hr.made with ⟨-, h⟩ | ⟨g', h, -⟩
  · exact ⟨rfl, h⟩
  · cases h

/-- C95: everything that is printed about a network with a uniform core (see C89), without merging: closed
forms of all results. -/
theorem C95_uniform (hr : Run env order opts f g gs lines) (hu : Unmerged opts) (h : UniformCore f K q) :
    ReportsUniform opts f K q (results lines) := by
  obtain ⟨rfl, rfl⟩ := unmerged_run hr hu
  have hw := uniform_shaped env h
  have hdup : ∀ f' sm, f.shrunken (f.relevantNodes env) = .ok (f', sm) → ∀ q, SymCluster f' q → DupFree q :=
    fun f' sm hs q hq => (hw.relevant f' sm hs q hq).1
  have hd : DisjointGroups [] := fun a ha => by cases ha
  refine ⟨fun j => (C65_overview hr hd j).1, fun j hj => ?_, fun j hj => ?_, fun j hj => ?_, fun j hj => ?_,
    fun j hj => ?_, fun j hj => ?_, fun j hj => ?_⟩
  · obtain ⟨L, M, h1, h2, h3, h4, -⟩ := C65_clusters hr hd j hj
    rw [h4 rfl] at h3
    have : L = [q] := by
      have hm : ∀ p, p ∈ L ↔ p = q := fun p => by rw [h1, h.symCluster_iff]
      exact List.perm_singleton.1 ((List.perm_ext_iff_of_nodup h2 (List.nodup_singleton _)).2 fun p => by
        rw [hm, List.mem_singleton])
    rwa [this] at h3
  · obtain ⟨L, -, h1, -, h2, h3⟩ := C65_minimal_quorums hr hd j hj
    have hb := h2 (.inr hdup)
    exact ⟨L, ⟨nodup_of_listed hb, fun S => by rw [h1 rfl, h.isMinQuorum_iff]⟩, hb, h3⟩
  · obtain ⟨b, rfl, hb⟩ := C65_intersection hr j hj
    rw [h.quorumIntersection_iff] at hb
    rw [Bool.eq_iff_iff.2 (hb.trans decide_eq_true_iff.symm)]
  · have := (C65_nonintersecting hr j hj).1
    rw [h.quorumIntersection_iff] at this
    omega
  · obtain ⟨L, -, h1, h2, h3⟩ := C65_blocking_partial hr hd j h.exists_quorum (.inl hw.relevant) hw.topTier hj
    exact ⟨L, ⟨nodup_of_listed h2, fun S => by
      rw [h1 rfl, IsMinBlocking, minimal_inter_iff h.blocking_iff]⟩, h2, h3⟩
  · by_cases hqi : K.card < 2 * q.threshold
    · have hqi' := h.quorumIntersection_iff.2 hqi
      obtain ⟨L, -, h1, h2, h3⟩ := C65_splitting_partial hr hd j hqi' (.inl hw) (by
        intro T hT f' sm hs p hp
        obtain ⟨h1, h2⟩ := hw.topTier T hT f' sm hs p hp
        cases h2 with
        | intro _ h3 h4 _ =>
          refine ⟨h1, h4, fun p' hp' => ?_⟩
          rw [(h.flatSomewhere.cluster (isShrunken_of_shrunken hs) hp).1] at hp'
          cases hp') hdup hj
      refine ⟨L, fun hle => by omega, fun _ he => ?_, fun _ hlt => ⟨⟨nodup_of_listed h2, fun S => ?_⟩, h2⟩, h3⟩
      · refine List.eq_nil_iff_forall_not_mem.2 fun S hS => ?_
        exact h.not_splitting he S ((h1 rfl S).1 hS).prop
      · rw [h1 rfl, IsMinSplitting, minimal_inter_iff (h.splitting_iff hlt (by omega))]
    · refine ⟨[∅], fun _ => rfl, fun a => absurd a hqi, fun a => absurd a hqi,
        (C65_splitting_without_intersection hr hd j (.inl hw) hj).1
          fun hq => hqi (h.quorumIntersection_iff.1 hq)⟩
  · obtain ⟨T, -, h1, h2⟩ := C65_top_tier_partial hr hd j (.inl hw) hj
    rwa [show T = K from Finset.ext fun x => by rw [h1 rfl, h.inTopTier_iff]] at h2

end

/-- The analyzer prints closed forms for a document that is read as a network in which all nodes require `t`
of all `n` nodes. -/
theorem analyzer_all {f : Fbas} {doc : Json} {n t : ℕ} (hdoc : Fbas.fromJson doc = .ok f)
    (hl : f.nodes.length = n) (ha : AllHave f ⟨t, List.range f.nodes.length, []⟩) (h1 : 1 ≤ t) (h2 : t ≤ n)
    (env : Env) (order : List String → List String) (opts : Options) (ho : opts.nodes = doc)
    (hu : Unmerged opts) :
    ∃ lines, Tool.main env order opts = .ok lines ∧
      ReportsUniform opts f (Finset.range n) ⟨t, List.range n, []⟩ (results lines) := by
  rw [hl] at ha
  have hcore := uniformCore_of_all hl ha h1 h2
  obtain ⟨r, hr, hrf⟩ := ((C62_nodes doc).1 _).1 hdoc
  obtain ⟨lines, hlines⟩ := (C65_panics_iff env order opts).2 ⟨r, ho ▸ hr, fun hc => absurd hc hu.1,
    fun hc => absurd hc hu.2.1, fun j hj => absurd hj (hu.2.2 j), fun _ => hrf ▸ hcore.exists_quorum⟩
  obtain ⟨f', g, gs, hrun⟩ := exists_run hlines
  have : f' = f := by
    have := hrun.nodes
    rw [ho, hdoc] at this
    exact (Except.ok.inj this).symm
  subst this
  exact ⟨lines, hlines, C95_uniform hrun hu hcore⟩

/-- C95: `qsc_simulator … ideal | fbas_analyzer …` never panics and prints closed forms of all results: with
`n` nodes, the minimal quorums are all sets of `n - ⌊(n-1)/3⌋` nodes, and so on. -/
theorem C95_ideal (R : Rand) (rnd : ℚ → ℚ) (i g : ℕ) (s : R.State) (hpos : 1 ≤ i + g)
    (hfit : i + g < 2 ^ 64) :
    ∃ doc f, QscSimulator.main R rnd ⟨i, g, .ideal⟩ s = .ok doc ∧ Fbas.fromJson doc = .ok f ∧
      f.nodes.length = i + g ∧
      ∀ (env : Env) (order : List String → List String) (opts : Options), opts.nodes = doc → Unmerged opts →
        ∃ lines, Tool.main env order opts = .ok lines ∧
          ReportsUniform opts f (Finset.range (i + g))
            ⟨i + g - (i + g - 1) / 3, List.range (i + g), []⟩ (results lines) := by
  obtain ⟨f, h1, hn, hq⟩ := C71_ideal R rnd i g s
  generalize i + g = n at *
  obtain ⟨t, ht⟩ : ∃ t, t = Qsc.calculate67pThreshold n := ⟨_, rfl⟩
  have hb := C41_bounds n hpos
  rw [← ht] at hb
  obtain ⟨f', h2, h3, h4⟩ := flat_read_back (t := t) (by omega) hn (fun x q hxq => by
    obtain ⟨t', vs, rfl, g1, g2, g3⟩ := hq x q hxq
    have hvs : vs = List.range n :=
      g1.eq_of_mem_iff List.pairwise_lt_range (fun y => (g2 y).trans List.mem_range.symm)
    subst hvs
    have h5 : ThresholdFor none n t := by rw [ht]; exact C81_threshold n none
    rw [List.length_range] at g3
    have h6 : t' = t := Nat.le_antisymm ((g3 t).2 ((h5 t).1 (Nat.le_refl _)))
      ((h5 t').2 ((g3 t').1 (Nat.le_refl _)))
    rw [h6])
  refine ⟨_, f', h1, h2, h3, fun env order opts ho hu => ?_⟩
  have := analyzer_all h2 h3 h4 hb.1 hb.2 env order opts ho hu
  rwa [ht] at this

/-- C95: `qsc_simulator … super-safe | fbas_analyzer …` never panics and prints that the set of all nodes is
the only minimal quorum, that every single node is a minimal blocking set, and that there are no splitting
sets. -/
theorem C95_super_safe (R : Rand) (rnd : ℚ → ℚ) (i g : ℕ) (s : R.State) (hpos : 1 ≤ i + g)
    (hfit : i + g < 2 ^ 64) :
    ∃ doc f, QscSimulator.main R rnd ⟨i, g, .superSafe⟩ s = .ok doc ∧ Fbas.fromJson doc = .ok f ∧
      f.nodes.length = i + g ∧
      ∀ (env : Env) (order : List String → List String) (opts : Options), opts.nodes = doc → Unmerged opts →
        ∃ lines, Tool.main env order opts = .ok lines ∧
          ReportsUniform opts f (Finset.range (i + g)) ⟨i + g, List.range (i + g), []⟩ (results lines) := by
  obtain ⟨f, h1, hn, hq⟩ := C71_super_safe R rnd i g s
  generalize i + g = n at *
  obtain ⟨f', h2, h3, h4⟩ := flat_read_back hfit hn hq
  exact ⟨_, f', h1, h2, h3, fun env order opts ho hu =>
    analyzer_all h2 h3 h4 hpos (Nat.le_refl _) env order opts ho hu⟩

/-! ### Generated graphs -/

theorem ncard_listed {vs : List NodeId} {P : NodeId → Prop} (hn : vs.Nodup) (h : ∀ y, y ∈ vs ↔ P y) :
    Set.ncard {y | P y} = vs.length := by
  rw [show {y | P y} = (vs.toFinset : Set NodeId) from Set.ext fun y => by simp [← h],
    Set.ncard_coe_finset, List.toFinset_card_of_nodup hn]

/-- C95: `graph_generator … | qsc_simulator … all-neighbors | fbas_analyzer …`: with suitable parameters,
no program fails, whatever the random choices and the options of the analyzer. The quorums of the analyzed
network are the sets of nodes in which each node has more than two thirds of its neighbourhood (including
itself) in the generated graph. `C95_exact` applies, so everything that is printed is right. -/
theorem C95_generated (R R' : Rand) (s : R.State) (config : GraphGenerator.Config) (n : ℕ)
    (hc : Suitable config n) (hfit : n < 2 ^ 64) (showF64 : ℚ → Text) (hs : ∀ x, '\n' ∉ showF64 x)
    (toFile dontShuffle : Bool) (rnd : ℚ → ℚ) (u : R'.State) :
    ∃ (t : Text) (G : Graph) (doc : Json) (f : Fbas),
      GraphGenerator.main R showF64 s toFile dontShuffle config = .ok t ∧
      Graph.fromAsRelString t = .ok G ∧ G.outlinks.length = n ∧
      QscSimulator.main R' rnd ⟨0, 0, .allNeighbors t none⟩ u = .ok doc ∧
      Fbas.fromJson doc = .ok f ∧ f.nodes.length = n ∧ Plain f ∧
      (∀ Q : NodeSet, IsQuorum f Q ↔ Q.Nonempty ∧ ∀ x ∈ Q, x < n ∧
        2 * Set.ncard {y | y = x ∨ Link G x y} < 3 * Set.ncard {y | (y = x ∨ Link G x y) ∧ y ∈ Q}) ∧
      (∃ Q, IsQuorum f Q) ∧
      ∀ (env : Env) (order : List String → List String) (opts : Options), opts.nodes = doc → Unmerged opts →
        ∃ lines, Tool.main env order opts = .ok lines := by
  obtain ⟨t, G, h1, h2, h3, h4, f0, h5, h6, h7⟩ :=
    C72_simulator R R' s config n hc showF64 hs toFile dontShuffle rnd none u
  obtain ⟨f1, h8, -, h9, h10⟩ := C95_plain R' rnd _ u _ h5
  have hl0 : f0.nodes.length = n := names_length h6
  have hrange : ∀ x y, Link G x y → y < n := by
    intro x y hxy
    rw [← h3]
    exact (fromAsRel_spec h2).1 x y hxy
  have hfits : ∀ v ∈ f0.nodes, FitsQ v.quorumSet := by
    intro v hv
    obtain ⟨x, hx⟩ := List.mem_iff_getElem?.1 hv
    obtain ⟨t', vs, hq, g1, g2, g3⟩ := h7 x _ ⟨v, hx, rfl⟩
    rw [hq]
    refine .intro ?_ (by simp)
    have hxn : x < n := by rw [← hl0]; exact hasQSet_lt ⟨v, hx, rfl⟩
    have hle : vs.length ≤ n := by
      have hsub : vs.toFinset ⊆ Finset.range n := fun y hy => by
        rw [List.mem_toFinset, g2] at hy
        rw [Finset.mem_range]
        rcases hy with rfl | hy
        · exact hxn
        · exact hrange x y hy
      have := Finset.card_le_card hsub
      rwa [List.toFinset_card_of_nodup (g1.imp fun h => ne_of_lt h), Finset.card_range] at this
    have ht := (g3 vs.length).2 (by omega)
    omega
  have hback := C63_save_load f0 hfits
  obtain ⟨hkeys, hquo⟩ := generic_read_back h6
  have hplain : Plain (Fbas.fromRaw f0.toRaw) := (h10 _ hback).1
  have hl : (Fbas.fromRaw f0.toRaw).nodes.length = n := by
    have := congrArg List.length hkeys
    rw [List.length_map, List.length_map] at this
    rw [this, hl0]
  have hq : ∀ Q : NodeSet, IsQuorum (Fbas.fromRaw f0.toRaw) Q ↔ Q.Nonempty ∧ ∀ x ∈ Q, x < n ∧
      2 * Set.ncard {y | y = x ∨ Link G x y} < 3 * Set.ncard {y | (y = x ∨ Link G x y) ∧ y ∈ Q} := by
    intro Q
    rw [hquo]
    refine and_congr_right fun _ => forall_congr' fun x => forall_congr' fun hx => ?_
    have key : ∀ q, HasQSet f0 x q → (Slice Q q ↔ 2 * Set.ncard {y | y = x ∨ Link G x y} <
        3 * Set.ncard {y | (y = x ∨ Link G x y) ∧ y ∈ Q}) := by
      intro q hq
      obtain ⟨t', vs, rfl, g1, g2, g3⟩ := h7 x q hq
      have hnd : vs.Nodup := g1.imp fun h => ne_of_lt h
      rw [ncard_listed hnd g2, ncard_listed (vs := vs.filter (· ∈ Q)) (hnd.filter _) (fun y => by
        rw [List.mem_filter, g2, decide_eq_true_iff]), slice_flat_iff, g3]
      have hne : vs.length ≠ 0 := by
        have : x ∈ vs := (g2 x).2 (.inl rfl)
        intro he
        rw [List.length_eq_zero_iff] at he
        rw [he] at this
        cases this
      have h1 : 1 ≤ t' := by
        by_contra h0
        have := (g3 0).1 (by omega)
        omega
      rw [and_iff_right h1, or_iff_right hne]
    constructor
    · rintro ⟨q, hq, hsl⟩
      exact ⟨by rw [← hl0]; exact hasQSet_lt hq, (key q hq).1 hsl⟩
    · rintro ⟨hxn, hlt⟩
      have hxn' : x < f0.nodes.length := by rw [hl0]; exact hxn
      have hq : HasQSet f0 x f0.nodes[x].quorumSet := ⟨_, List.getElem?_eq_getElem hxn', rfl⟩
      exact ⟨_, hq, (key _ hq).2 hlt⟩
  have hex : ∃ Q, IsQuorum (Fbas.fromRaw f0.toRaw) Q := by
    refine ⟨Finset.range n, (hq _).2 ⟨?_, fun x hx => ?_⟩⟩
    · rw [Finset.nonempty_range_iff]
      rintro rfl
      cases config <;> · unfold Suitable at hc; omega
    · rw [Finset.mem_range] at hx
      refine ⟨hx, ?_⟩
      have he : {y | (y = x ∨ Link G x y) ∧ y ∈ Finset.range n} = {y | y = x ∨ Link G x y} := by
        ext y
        simp only [Set.mem_ofPred_eq, Finset.mem_range, and_iff_left_iff_imp]
        rintro (rfl | hy)
        · exact hx
        · exact hrange x y hy
      have hfin : {y | y = x ∨ Link G x y}.Finite := by
        refine (Finset.range n).finite_toSet.subset fun y hy => ?_
        rw [Finset.mem_coe, Finset.mem_range]
        rcases hy with rfl | hy
        · exact hx
        · exact hrange x y hy
      have hpos : 0 < Set.ncard {y | y = x ∨ Link G x y} := (Set.ncard_pos hfin).2 ⟨x, .inl rfl⟩
      rw [he]
      omega
  refine ⟨t, G, _, _, h1, h2, h3, h5, hback, hl, hplain, hq, hex, fun env order opts ho hu => ?_⟩
  obtain ⟨r, hr, hrf⟩ := ((C62_nodes f0.toJson).1 _).1 hback
  exact (C65_panics_iff env order opts).2 ⟨r, ho ▸ hr, fun hc => absurd hc hu.1,
    fun hc => absurd hc hu.2.1, fun j hj => absurd hj (hu.2.2 j), fun _ => hrf ▸ hex⟩

/-! ### Examples -/

/-- What is printed by `qsc_simulator --initial 2 --grow-by 2 random 3` for some random choices. -/
def simulatedFour : Json :=
  (Ref.mkFbas [⟨3, [0, 1, 2], []⟩, ⟨3, [1, 0, 2], []⟩, ⟨3, [2, 1, 0], []⟩, ⟨3, [3, 2, 1], []⟩]).toJson

theorem simulatedFour_printed :
    QscSimulator.main busyRand id ⟨2, 2, .random 3⟩ (0 : ℕ) = .ok simulatedFour :=
  Ref.doc_of (by decide +kernel)

/-- `qsc_simulator --initial 2 --grow-by 2 random 3 | fbas_analyzer --results-only -b -s` -/
def linesSimulated : List Line := [
  .result "nodes_total" (.nat 4),
  .result "symmetric_clusters" (.arr [.obj [("threshold", .nat 3),
    ("validators", .arr [.nat 0, .nat 1, .nat 2])]]),
  .duration "symmetric_clusters",
  .result "has_quorum_intersection" (.bool true),
  .duration "has_quorum_intersection",
  .result "minimal_blocking_sets" (idSets [[0], [1], [2]]),
  .duration "minimal_blocking_sets",
  .result "minimal_splitting_sets" (idSets []),
  .duration "minimal_splitting_sets",
  .result "top_tier" (.arr [.nat 0, .nat 1, .nat 2])]

theorem linesSimulated_printed : Tool.main (Ref.refEnv 4) id { plain simulatedFour with
    minimalBlockingSets := true, minimalSplittingSets := true, resultsOnly := true } = .ok linesSimulated :=
  Ref.prints_of (by decide +kernel)

/-- `C95_plain`, `C95_exact` and `C95_no_panics` apply to this network. -/
example : ∃ f g gs, Run (Ref.refEnv 4) id { plain simulatedFour with
      minimalBlockingSets := true, minimalSplittingSets := true, resultsOnly := true } f g gs
      linesSimulated ∧ DisjointGroups gs ∧ Plain f ∧ IsQuorum f {0, 1, 2} := by
  obtain ⟨f, g, gs, hr⟩ := exists_run linesSimulated_printed
  obtain ⟨-, rfl⟩ := unmerged_run hr (by unfold Unmerged ByCountry ByIsp ByOrg; simp [plain])
  obtain ⟨f0, -, -, -, h1⟩ := C95_plain busyRand id ⟨2, 2, .random 3⟩ (0 : ℕ) _ simulatedFour_printed
  have hd : DisjointGroups [] := fun a ha => by cases ha
  refine ⟨f, g, [], hr, hd, (h1 f hr.nodes).1, ?_⟩
  have hn : (Fbas.fromJson simulatedFour).map Fbas.nodes = .ok [⟨"n0", ⟨3, [0, 1, 2], []⟩⟩,
      ⟨"n1", ⟨3, [0, 1, 2], []⟩⟩, ⟨"n2", ⟨3, [0, 1, 2], []⟩⟩, ⟨"n3", ⟨3, [1, 2, 3], []⟩⟩] :=
    Ref.ok_of (by decide +kernel)
  have hf : Fbas.fromJson simulatedFour = .ok f := hr.nodes
  rw [hf] at hn
  have hn : f.nodes = _ := Except.ok.inj hn
  have hs : Slice {0, 1, 2} ⟨3, [0, 1, 2], []⟩ :=
    .intro _ [0, 1, 2] [] (List.Sublist.refl _) (List.Sublist.refl _) (by decide) (by simp) (by decide) rfl
  refine ⟨⟨0, by decide⟩, fun x hx => ⟨_, ?_, hs⟩⟩
  unfold HasQSet
  rw [hn]
  rcases (by simpa using hx : x = 0 ∨ x = 1 ∨ x = 2) with rfl | rfl | rfl
  · exact ⟨_, rfl, rfl⟩
  · exact ⟨_, rfl, rfl⟩
  · exact ⟨_, rfl, rfl⟩

/-- The conditions of `C95_ideal` and `C95_super_safe` are met by a network of 3 nodes that grows by 1. -/
example : 1 ≤ 3 + 1 ∧ 3 + 1 < 2 ^ 64 ∧ Unmerged (plain nodesFour) := by
  unfold Unmerged ByCountry ByIsp ByOrg; simp [plain]

/-- The conditions of `C95_generated`. -/
example : Suitable (.barabasiAlbert 4 3 1) 4 ∧ Suitable (.wattsStrogatz 10 4 (1 / 2)) 10 := by
  unfold Suitable; simp

#print axioms C95_plain
#print axioms C95_tool
#print axioms C95_independent
#print axioms C95_exact
#print axioms C95_no_panics
#print axioms C95_uniform
#print axioms C95_ideal
#print axioms C95_super_safe
#print axioms C95_generated

end FA.Props
