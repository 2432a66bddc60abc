import Verif.Props.Pipeline
import Verif.Props.MergedOrgs

/-!
# C97: data points of simulated networks

`qsc_simulator … > nodes.json`, then `bulk_fbas_analyzer … nodes.json`
-/

namespace FA.Props
open FA Spec Simulator Tool Bulk

section
variable {env : Env} {order : List String → List String} {hash : Json → String} {label : Text}
  {nodes : Json} {organizations : Option Json} {r : RawFbas} {k : Kind} {g : Option Groupings}
  {gs : List Grouping} {d : DataPoint}

/-- C97: All columns of the data point of a network with plain quorum sets are right, for nodes and for
disjoint groups. -/
theorem C97_plain (ho : ∀ l, (order l).Perm l)
    (hr : BulkRun env order hash label nodes organizations r k g gs d) (hd : DisjointGroups gs)
    (hi : HasInformation r organizations k) (hq : ∃ Q, IsQuorum (Fbas.fromRaw r) Q)
    (h : Plain (Fbas.fromRaw r)) :
    (d.hasQuorumIntersection = true ↔ QuorumIntersection (Fbas.fromRaw r)) ∧
    (∃ T, GroupsOf gs (Fbas.fromRaw r) (InTopTier (Fbas.fromRaw r)) T ∧
      (k = .nodes → ∀ x, x ∈ T ↔ InTopTier (Fbas.fromRaw r) x) ∧
      (columns d k).topTierSize = some T.card) ∧
    (∃ L, MinimalGroupSets gs (Fbas.fromRaw r) (ContainsQuorum (Fbas.fromRaw r)) L ∧
      (k = .nodes → ∀ S, S ∈ L ↔ IsMinQuorum (Fbas.fromRaw r) S) ∧ L.Nodup ∧
      ShowsSizes L (columns d k).mq) ∧
    (∃ L, MinimalGroupSets gs (Fbas.fromRaw r) (Blocking (Fbas.fromRaw r)) L ∧
      (k = .nodes → ∀ S, S ∈ L ↔ IsMinBlocking (Fbas.fromRaw r) S) ∧ L.Nodup ∧
      ShowsSizes L (columns d k).mbs) ∧
    ∃ L, MinimalGroupSets gs (Fbas.fromRaw r) (Splitting (Fbas.fromRaw r)) L ∧
      (k = .nodes → ∀ S, S ∈ L ↔ IsMinSplitting (Fbas.fromRaw r) S) ∧ L.Nodup ∧
      ShowsSizes L (columns d k).mss := by
  have hw := wellShaped_of_flat env _ h
  have hdup : ∀ f' sm, (Fbas.fromRaw r).shrunken ((Fbas.fromRaw r).relevantNodes env) = .ok (f', sm) →
      ∀ q, SymCluster f' q → DupFree q := fun f' sm hs q hq => (hw.relevant f' sm hs q hq).1
  refine ⟨(C69_has_quorum_intersection hr).2, ?_, ?_, ?_, ?_⟩
  · exact C69_top_tier ho hr hd hi
  · obtain ⟨L, h0, h1, h2, h3⟩ := C69_quorums ho hr hd hi
    exact ⟨L, h0, h1, h2 (.inr hdup), h3⟩
  · exact C69_blocking_partial ho hr hd hi hq hw.topTier
  · by_cases hqi : QuorumIntersection (Fbas.fromRaw r)
    · exact C69_splitting_partial ho hr hd hi hqi (by
        intro T hT f' sm hs q hq
        obtain ⟨h1, h2⟩ := hw.topTier T hT f' sm hs q hq
        cases h2 with
        | intro _ h3 h4 _ => exact ⟨h1, h4, majority_of_flat _ h T hT f' sm hs q hq⟩) hdup
    · refine ⟨[∅], minimalGroupSets_empty (splitting_empty hq hqi), fun _ S => ?_, List.nodup_singleton _, 0, 0, 0,
        C69_splitting_without_intersection ho hr hd hi hqi, ?_, ?_, ?_, ?_⟩
      · rw [List.mem_singleton]
        exact (isMinSplitting_of_not_intersection hq hqi S).symm
      all_goals simp

/-- C97: The node columns of the data point of a network with a uniform core (see C89) contain the size of
the core and the numbers of nodes that are needed for a quorum, to block, and to split. -/
theorem C97_uniform {K : NodeSet} {q : QuorumSet} (ho : ∀ l, (order l).Perm l)
    (hr : BulkRun env order hash label nodes organizations r .nodes g gs d)
    (h : UniformCore (Fbas.fromRaw r) K q) :
    (d.hasQuorumIntersection = true ↔ K.card < 2 * q.threshold) ∧ d.topTierSize = K.card ∧
    (d.mqMin = q.threshold ∧ d.mqMax = q.threshold ∧ d.mqMean = q.threshold) ∧
    (d.mbsMin = K.card - q.threshold + 1 ∧ d.mbsMax = K.card - q.threshold + 1 ∧
      d.mbsMean = (K.card - q.threshold + 1 : ℕ)) ∧
    let s := if q.threshold < K.card then 2 * q.threshold - K.card else 0
    d.mssMin = s ∧ d.mssMax = s ∧ d.mssMean = s := by
  obtain rfl : gs = [] := by
    have : g = none := (Except.ok.inj hr.groups).symm
    subst this
    rcases hr.made with ⟨-, rfl⟩ | ⟨g', h, -⟩
    · rfl
    · cases h
  have hd : DisjointGroups [] := fun a ha => by cases ha
  have hi : HasInformation r organizations .nodes := trivial
  have hw := uniform_shaped env h
  have hdup : ∀ f' sm, (Fbas.fromRaw r).shrunken ((Fbas.fromRaw r).relevantNodes env) = .ok (f', sm) →
      ∀ q, SymCluster f' q → DupFree q := fun f' sm hs q hq => (hw.relevant f' sm hs q hq).1
  have hpos := h.pos
  have hle := h.le
  refine ⟨by rw [(C69_has_quorum_intersection hr).2, h.quorumIntersection_iff], ?_, ?_, ?_, ?_⟩
  · obtain ⟨T, -, h1, h2⟩ := C69_top_tier ho hr hd hi
    rw [show T = K from Finset.ext fun x => by rw [h1 rfl, h.inTopTier_iff]] at h2
    exact Option.some.inj h2
  · obtain ⟨L, -, h1, h2, h3⟩ := C69_quorums ho hr hd hi
    have := sizes_allOfSize (R := K) ⟨h2 (.inr hdup), fun S => by rw [h1 rfl, h.isMinQuorum_iff]⟩ hle h3
    simpa [columns] using this
  · obtain ⟨L, -, h1, h2, h3⟩ := C69_blocking_partial ho hr hd hi h.exists_quorum hw.topTier
    have := sizes_allOfSize (R := K) ⟨h2, fun S => by
      rw [h1 rfl, IsMinBlocking, minimal_inter_iff h.blocking_iff]⟩ (by omega) h3
    simpa [columns] using this
  · by_cases hqi : K.card < 2 * q.threshold
    · obtain ⟨L, -, h1, h2, h3⟩ := C69_splitting_partial ho hr hd hi (h.quorumIntersection_iff.2 hqi) (by
        intro T hT f' sm hs p hp
        obtain ⟨h1, h2⟩ := hw.topTier T hT f' sm hs p hp
        cases h2 with
        | intro _ h3 h4 _ =>
          refine ⟨h1, h4, fun p' hp' => ?_⟩
          rw [(h.flatSomewhere.cluster (isShrunken_of_shrunken hs) hp).1] at hp'
          cases hp') hdup
      by_cases hlt : q.threshold < K.card
      · have := sizes_allOfSize (R := K) ⟨h2, fun S => by
          rw [h1 rfl, IsMinSplitting, minimal_inter_iff (h.splitting_iff hlt (by omega))]⟩ (by omega) h3
        simpa [columns, hlt] using this
      · have hnil : L = [] := List.eq_nil_iff_forall_not_mem.2 fun S hS =>
          h.not_splitting (by omega) S ((h1 rfl S).1 hS).prop
        obtain ⟨lo, hi', mean, e, hs⟩ := h3
        obtain ⟨rfl, rfl, rfl⟩ := hs.empty hnil
        simpa [columns, hlt] using e
    · have := C69_splitting_without_intersection ho hr hd hi (fun hq => hqi (h.quorumIntersection_iff.1 hq))
      have hz : (if q.threshold < K.card then 2 * q.threshold - K.card else 0) = 0 := by
        split <;> omega
      rw [hz]
      simpa [columns] using this

end

theorem analyze_toJson {f : Fbas} (hfits : ∀ v ∈ f.nodes, FitsQ v.quorumSet) (env : Env)
    (order : List String → List String) (hash : Json → String) (label : Text) :
    ∃ d, Bulk.analyze env order hash label f.toJson none = .ok d := by
  refine (C69_panics_iff env order hash label f.toJson none).2 ⟨f.toRaw, describesFbas_toJson fun n hn => ?_,
    fun n hn s hs => ?_, fun n hn s hs => ?_, fun j hj => by cases hj⟩
  · obtain ⟨n', hn', rfl⟩ := List.mem_map.1 hn
    exact fits_toRaw f (hfits n' hn')
  · rw [(C63_no_annotations f n hn).1] at hs
    cases hs
  · rw [(C63_no_annotations f n hn).2] at hs
    cases hs

/-- C97: The bulk analyzer fails on no simulated network whose thresholds fit into 64 bits, and if there is
no file with organizations, then there are only columns about nodes; all of them are right. -/
theorem C97_simulated (R : Rand) (rnd : ℚ → ℚ) (args : QscSimulator.Cli) (s : R.State) (doc : Json)
    (h : QscSimulator.main R rnd args s = .ok doc) :
    ∃ f : Fbas, doc = f.toJson ∧ ∀ (env : Env) (order : List String → List String) (hash : Json → String)
      (label : Text), (∀ l, (order l).Perm l) →
      ((∀ v ∈ f.nodes, FitsQ v.quorumSet) ↔ ∃ d, Bulk.analyze env order hash label doc none = .ok d) ∧
      ∀ d, Bulk.analyze env order hash label doc none = .ok d →
        (∀ k, k ≠ .nodes → columns d k = .absent) ∧ d.label = label ∧
        (d.hasQuorumIntersection = true ↔ QuorumIntersection f) ∧
        ((∃ Q, IsQuorum f Q) →
          (∃ T : NodeSet, (∀ x, x ∈ T ↔ InTopTier f x) ∧ d.topTierSize = T.card) ∧
          (∃ L, (∀ S, S ∈ L ↔ IsMinQuorum f S) ∧ L.Nodup ∧ Sizes L d.mqMin d.mqMax d.mqMean) ∧
          (∃ L, (∀ S, S ∈ L ↔ IsMinBlocking f S) ∧ L.Nodup ∧ Sizes L d.mbsMin d.mbsMax d.mbsMean) ∧
          ∃ L, (∀ S, S ∈ L ↔ IsMinSplitting f S) ∧ L.Nodup ∧ Sizes L d.mssMin d.mssMax d.mssMean) := by
  obtain ⟨f, rfl, -, h1, h2⟩ := C95_plain R rnd args s doc h
  refine ⟨f, rfl, fun env order hash label ho => ⟨⟨fun hfits => ?_, fun ⟨d, hd⟩ => ?_⟩, fun d hd => ?_⟩⟩
  · exact analyze_toJson hfits env order hash label
  · obtain ⟨r, hr, -⟩ := (C69_panics_iff env order hash label f.toJson none).1 ⟨d, hd⟩
    exact h1.2 ⟨_, ((C62_nodes _).1 _).2 ⟨r, hr, rfl⟩⟩
  · obtain ⟨r, hr, -⟩ := (C69_panics_iff env order hash label f.toJson none).1 ⟨d, hd⟩
    have hload := ((C62_nodes _).1 _).2 ⟨r, hr, rfl⟩
    have hfits := h1.2 ⟨_, hload⟩
    obtain rfl : r = f.toRaw := C62_unambiguous _ _ _ hr (describesFbas_toJson fun n hn => by
      obtain ⟨n', hn', rfl⟩ := List.mem_map.1 hn
      exact fits_toRaw f (hfits n' hn'))
    obtain ⟨hplain, hquo⟩ := h2 _ hload
    have hruns : ∀ k, ∃ g gs, BulkRun env order hash label f.toJson none f.toRaw k g gs d := fun k => by
      obtain ⟨r', g, gs, hrun⟩ := exists_bulkRun hd k
      obtain rfl := C62_unambiguous _ _ _ hrun.described hr
      exact ⟨g, gs, hrun⟩
    have heq : IsQuorum (Fbas.fromRaw f.toRaw) = IsQuorum f := funext fun Q => propext (hquo Q)
    have hann := C63_no_annotations f
    obtain ⟨g, gs, hrun⟩ := hruns .nodes
    refine ⟨fun k hk => ?_, (C69_has_quorum_intersection hrun).1, ?_, fun hq => ?_⟩
    · obtain ⟨g, gs, hrun⟩ := hruns k
      refine (C69_columns ho hrun).2 fun hi => ?_
      cases k with
      | nodes => exact hk rfl
      | orgs => exact hi rfl
      | isps =>
        obtain ⟨n, hn, hne⟩ := hi
        exact hne (hann n hn).1
      | ctries =>
        obtain ⟨n, hn, hne⟩ := hi
        rw [(hann n hn).2] at hne
        exact hne rfl
    · rw [(C69_has_quorum_intersection hrun).2]
      unfold QuorumIntersection
      rw [heq]
    · obtain rfl : gs = [] := by
        have : g = none := (Except.ok.inj hrun.groups).symm
        subst this
        rcases hrun.made with ⟨-, rfl⟩ | ⟨g', h, -⟩
        · rfl
        · cases h
      have hmq : IsMinQuorum (Fbas.fromRaw f.toRaw) = IsMinQuorum f := by
        unfold IsMinQuorum
        rw [heq]
      have hmb : IsMinBlocking (Fbas.fromRaw f.toRaw) = IsMinBlocking f := by
        unfold IsMinBlocking Blocking
        rw [heq]
      have hms : IsMinSplitting (Fbas.fromRaw f.toRaw) = IsMinSplitting f := by
        unfold IsMinSplitting Splitting
        rw [hmq]
      have htt : InTopTier (Fbas.fromRaw f.toRaw) = InTopTier f := by
        unfold InTopTier
        rw [hmq]
      obtain ⟨-, ⟨T, -, a1, a2⟩, ⟨L1, -, b1, b2, b3⟩, ⟨L2, -, c1, c2, c3⟩, L3, -, e1, e2, e3⟩ :=
        C97_plain ho hrun (fun a ha => by cases ha) trivial (by rwa [heq]) hplain
      have hsz : ∀ {L : List NodeSet} {lo hi : ℕ} {mean : ℚ},
          ShowsSizes L (some lo, some hi, some mean) → Sizes L lo hi mean := by
        rintro L lo hi mean ⟨lo', hi', mean', e, hs⟩
        cases e
        exact hs
      refine ⟨⟨T, htt ▸ a1 rfl, Option.some.inj a2⟩, ⟨L1, hmq ▸ b1 rfl, b2, hsz b3⟩,
        ⟨L2, hmb ▸ c1 rfl, c2, hsz c3⟩, L3, hms ▸ e1 rfl, e2, hsz e3⟩

/-- The data point of a simulated network in which all nodes require `t` of all `n` nodes. -/
theorem dataPoint_all {R : Rand} {rnd : ℚ → ℚ} {args : QscSimulator.Cli} {s : R.State} {doc : Json}
    {f : Fbas} {n t : ℕ} (h : QscSimulator.main R rnd args s = .ok doc) (hdoc : Fbas.fromJson doc = .ok f)
    (hl : f.nodes.length = n) (ha : AllHave f ⟨t, List.range f.nodes.length, []⟩) (h1 : 1 ≤ t) (h2 : t ≤ n)
    (h3 : n < 2 * t) (env : Env) (order : List String → List String) (hash : Json → String) (label : Text)
    (ho : ∀ l, (order l).Perm l) :
    ∃ sf, f.toStandardForm env = .ok sf ∧
      let m := if t < n then 2 * t - n else 0
      Bulk.analyze env order hash label doc none = .ok {
        label := label, hasQuorumIntersection := true, topTierSize := n
        mbsMin := n - t + 1, mbsMax := n - t + 1, mbsMean := (n - t + 1 : ℕ)
        mssMin := m, mssMax := m, mssMean := m
        mqMin := t, mqMax := t, mqMean := t, standardFormHash := hash sf.toJson } := by
  rw [hl] at ha
  have hcore := uniformCore_of_all hl ha h1 h2
  obtain ⟨f1, e1, -, hiff, -⟩ := C95_plain R rnd args s _ h
  obtain ⟨d, hd⟩ := analyze_toJson (hiff.2 ⟨f, hdoc⟩) env order hash label
  rw [← e1] at hd
  obtain ⟨f0, -, hall⟩ := C97_simulated R rnd args s doc h
  obtain ⟨habs, hlab, -⟩ := (hall env order hash label ho).2 d hd
  obtain ⟨r, g, gs, hrun⟩ := exists_bulkRun hd .nodes
  obtain rfl : Fbas.fromRaw r = f := by
    have := ((C62_nodes doc).1 _).2 ⟨r, hrun.described, rfl⟩
    rw [hdoc] at this
    exact (Except.ok.inj this).symm
  obtain ⟨-, v, T, Q, B, S, -, -, -, -, -, sf, hsf, hh⟩ := hrun.spec
  obtain ⟨u1, u2, ⟨u3, u4, u5⟩, ⟨u6, u7, u8⟩, u9, u10, u11⟩ := C97_uniform ho hrun hcore
  rw [Finset.card_range] at u1 u2 u6 u7 u8 u9 u10 u11
  refine ⟨sf, hsf, ?_⟩
  rw [hd]
  have o1 := habs .orgs (by decide)
  have o2 := habs .isps (by decide)
  have o3 := habs .ctries (by decide)
  have u1 := u1.2 h3
  simp only [columns, Columns.absent, Columns.mk.injEq, Prod.mk.injEq] at o1 o2 o3
  cases d
  simp_all

/-- C97: Simulating `n` nodes with the ideal policy and analyzing the document always yields this data point:
all nodes are in the top tier, quorums need `n - ⌊(n-1)/3⌋` nodes, `⌊(n-1)/3⌋ + 1` nodes can block, and
`n - 2⌊(n-1)/3⌋` nodes can split (for less than 4 nodes, none can). -/
theorem C97_ideal (R : Rand) (rnd : ℚ → ℚ) (i g : ℕ) (s : R.State) (hpos : 1 ≤ i + g)
    (hfit : i + g < 2 ^ 64) :
    ∃ doc f, QscSimulator.main R rnd ⟨i, g, .ideal⟩ s = .ok doc ∧ Fbas.fromJson doc = .ok f ∧
      ∀ (env : Env) (order : List String → List String) (hash : Json → String) (label : Text),
        (∀ l, (order l).Perm l) → ∃ sf, f.toStandardForm env = .ok sf ∧
          let n := i + g
          let b := (n - 1) / 3
          let m := if n < 4 then 0 else n - 2 * b
          Bulk.analyze env order hash label doc none = .ok {
            label := label, hasQuorumIntersection := true, topTierSize := n
            mbsMin := b + 1, mbsMax := b + 1, mbsMean := (b + 1 : ℕ)
            mssMin := m, mssMax := m, mssMean := m
            mqMin := n - b, mqMax := n - b, mqMean := (n - b : ℕ), standardFormHash := hash sf.toJson } := by
  obtain ⟨f, h1, hn, hq⟩ := C71_ideal R rnd i g s
  generalize i + g = n at *
  obtain ⟨t, ht⟩ : ∃ t, t = Qsc.calculate67pThreshold n := ⟨_, rfl⟩
  have hb := C41_bounds n hpos
  rw [← ht] at hb
  obtain ⟨f', h2, h3, h4⟩ := flat_read_back (t := t) (by omega) hn (fun x q hxq => by
    obtain ⟨t', vs, rfl, g1, g2, g3⟩ := hq x q hxq
    have hvs : vs = List.range n :=
      g1.eq_of_mem_iff List.pairwise_lt_range (fun y => (g2 y).trans List.mem_range.symm)
    subst hvs
    have h5 : ThresholdFor none n t := by rw [ht]; exact C81_threshold n none
    rw [List.length_range] at g3
    have h6 : t' = t := Nat.le_antisymm ((g3 t).2 ((h5 t).1 (Nat.le_refl _)))
      ((h5 t').2 ((g3 t').1 (Nat.le_refl _)))
    rw [h6])
  have ht' : t = n - (n - 1) / 3 := ht
  refine ⟨_, f', h1, h2, fun env order hash label ho => ?_⟩
  obtain ⟨sf, e1, e2⟩ := dataPoint_all h1 h2 h3 h4 hb.1 hb.2 (by omega) env order hash label ho
  refine ⟨sf, e1, ?_⟩
  have hm : (if t < n then 2 * t - n else 0) = if n < 4 then 0 else n - 2 * ((n - 1) / 3) := by
    by_cases h : n < 4
    · rw [if_pos h, if_neg (by omega)]
    · rw [if_neg h, if_pos (by omega)]
      omega
  rw [hm, show n - t + 1 = (n - 1) / 3 + 1 by omega, ht'] at e2
  exact e2

/-- C97: Simulating `n` nodes with the super safe policy and analyzing the document always yields this data
point: quorums need all nodes, each node can block, and none can split. -/
theorem C97_super_safe (R : Rand) (rnd : ℚ → ℚ) (i g : ℕ) (s : R.State) (hpos : 1 ≤ i + g)
    (hfit : i + g < 2 ^ 64) :
    ∃ doc f, QscSimulator.main R rnd ⟨i, g, .superSafe⟩ s = .ok doc ∧ Fbas.fromJson doc = .ok f ∧
      ∀ (env : Env) (order : List String → List String) (hash : Json → String) (label : Text),
        (∀ l, (order l).Perm l) → ∃ sf, f.toStandardForm env = .ok sf ∧
          let n := i + g
          Bulk.analyze env order hash label doc none = .ok {
            label := label, hasQuorumIntersection := true, topTierSize := n
            mbsMin := 1, mbsMax := 1, mbsMean := 1, mssMin := 0, mssMax := 0, mssMean := 0
            mqMin := n, mqMax := n, mqMean := n, standardFormHash := hash sf.toJson } := by
  obtain ⟨f, h1, hn, hq⟩ := C71_super_safe R rnd i g s
  generalize i + g = n at *
  obtain ⟨f', h2, h3, h4⟩ := flat_read_back hfit hn hq
  refine ⟨_, f', h1, h2, fun env order hash label ho => ?_⟩
  obtain ⟨sf, e1, e2⟩ := dataPoint_all h1 h2 h3 h4 hpos (Nat.le_refl _) (by omega) env order hash label ho
  refine ⟨sf, e1, ?_⟩
  rw [if_neg (Nat.lt_irrefl _), Nat.sub_self] at e2
  simpa using e2

/-! ### Examples -/

/-- The data point of `simulatedFour`. -/
theorem simulatedFour_point : Bulk.analyze (Ref.refEnv 4) id (fun _ => "h") "x".toList simulatedFour none =
    .ok { label := "x".toList, hasQuorumIntersection := true, topTierSize := 3
          mbsMin := 1, mbsMax := 1, mbsMean := 1, mssMin := 0, mssMax := 0, mssMean := 0
          mqMin := 3, mqMax := 3, mqMean := 3, standardFormHash := "h" } :=
  Ref.ok_of (by decide +kernel)

/-- `C97_simulated` applies to this network, and says for example that its top tier has three nodes, and that
all its minimal blocking sets contain one node. -/
example : ∃ f : Fbas, simulatedFour = f.toJson ∧ (QuorumIntersection f ∧
    (∃ T : NodeSet, (∀ x, x ∈ T ↔ InTopTier f x) ∧ 3 = T.card) ∧ ∀ S, IsMinBlocking f S → S.card = 1) := by
  obtain ⟨f, h1, h2⟩ := C97_simulated busyRand id ⟨2, 2, .random 3⟩ (0 : ℕ) _ simulatedFour_printed
  obtain ⟨-, -, h3, h4⟩ := (h2 (Ref.refEnv 4) id (fun _ => "h") "x".toList fun l => .refl l).2 _
    simulatedFour_point
  have hqi := h3.1 rfl
  obtain ⟨h5, -, ⟨L, h6, -, h7⟩, -⟩ := h4 hqi.1
  refine ⟨f, h1, hqi, h5, fun S hS => ?_⟩
  have := h7.bounds S ((h6 S).2 hS)
  exact Nat.le_antisymm this.2 this.1

/-- The conditions of `C97_ideal` and `C97_super_safe`. -/
example : 1 ≤ 3 + 1 ∧ 3 + 1 < 2 ^ 64 := by decide

#print axioms C97_plain
#print axioms C97_uniform
#print axioms C97_simulated
#print axioms C97_ideal
#print axioms C97_super_safe

end FA.Props
