import Verif.Lemmas.Simulation
import Verif.Lemmas.Threshold
import Verif.Props.Io
import Mathlib.Tactic.Linarith
import Mathlib.Tactic.Positivity.Finset
import Mathlib.Tactic.NormNum
import Mathlib.Tactic.Ring

/-!
# C41-C44: thresholds, global reevaluation, growth
-/

namespace FA.Props
open FA Spec Simulator

/-- A source of randomness that never shuffles, always chooses the first possible element and never
says yes. -/
def lazyRand : Rand where
  State := Unit
  shuffle s l := (l, s)
  shuffle_perm _ _ := .refl _
  chooseWeighted s w l := (l.find? (fun x => decide (0 < w x)), s)
  chooseWeighted_some s w l x h := by
    refine ⟨List.mem_of_find?_eq_some h, ?_⟩
    have := List.find?_some h
    simpa using this
  chooseWeighted_none s w l h x hx := by
    have := List.find?_eq_none.1 h x hx
    simpa using this
  choose s l := (l.head?, s)
  choose_some s l x h := List.mem_of_mem_head? h
  choose_none s l h := by simpa using h
  genBool s _ := (false, s)
  genBool_zero _ := rfl

/-- A source of randomness that reverses lists, always chooses the last possible element and says yes
unless the probability is 0. -/
def busyRand : Rand where
  State := ℕ
  shuffle s l := (l.reverse, s + 1)
  shuffle_perm _ l := l.reverse_perm
  chooseWeighted s w l := ((l.reverse.find? (fun x => decide (0 < w x))), s + 1)
  chooseWeighted_some s w l x h := by
    refine ⟨List.mem_reverse.1 (List.mem_of_find?_eq_some h), ?_⟩
    have := List.find?_some h
    simpa using this
  chooseWeighted_none s w l h x hx := by
    have := List.find?_eq_none.1 h x (List.mem_reverse.2 hx)
    simpa using this
  choose s l := (l.getLast?, s + 1)
  choose_some s l x h := List.mem_of_getLast? h
  choose_none s l h := by simpa using h
  genBool s p := (decide (p ≠ 0), s + 1)
  genBool_zero _ := by simp

/-! ## C41 -/

/-- C41: the threshold is between 1 and `n`. -/
theorem C41_bounds (n : ℕ) (hn : 1 ≤ n) :
    1 ≤ Qsc.calculate67pThreshold n ∧ Qsc.calculate67pThreshold n ≤ n := by
  unfold Qsc.calculate67pThreshold; omega

/-- C41: it is the smallest `t` with `3t ≥ 2n + 1`. -/
theorem C41_least (n : ℕ) (hn : 1 ≤ n) (t : ℕ) :
    Qsc.calculate67pThreshold n ≤ t ↔ 2 * n + 1 ≤ 3 * t := by
  unfold Qsc.calculate67pThreshold; omega

/-- C41: `f = n - t` is the largest `f` with `3f + 1 ≤ n`. -/
theorem C41_faults (n : ℕ) (hn : 1 ≤ n) (f : ℕ) :
    f ≤ n - Qsc.calculate67pThreshold n ↔ 3 * f + 1 ≤ n := by
  unfold Qsc.calculate67pThreshold; omega

/-- Two properties of rounding to the nearest `f64`: a rounded number is at least as close to the
exact one as any integer up to `2^53`, and as any half of such an integer. -/
structure NearestF64 (rnd : ℚ → ℚ) : Prop where
  int : ∀ (x : ℚ) (z : ℤ), |z| ≤ 2 ^ 53 → |rnd x - x| ≤ |(z : ℚ) - x|
  half : ∀ (x : ℚ) (z : ℤ), |z| ≤ 2 ^ 53 → |rnd x - x| ≤ |(z : ℚ) / 2 - x|

/-- C41: computing with `f64` gives the same threshold for all `n` up to `2^53`. -/
theorem C41_float (rnd : ℚ → ℚ) (hr : NearestF64 rnd) (n : ℕ) (hn : n ≤ 2 ^ 53) :
    Qsc.calculate67pThresholdF64 rnd n = Qsc.calculate67pThreshold n := by
  have hexact : ∀ z : ℤ, |z| ≤ 2 ^ 53 → rnd (z : ℚ) = z := by
    intro z hz
    have := hr.int z z hz
    rw [sub_self, abs_zero] at this
    have := abs_nonpos_iff.1 this
    linarith
  have hn' : ((n : ℤ)) ≤ 2 ^ 53 := by exact_mod_cast hn
  have h1 : rnd (n : ℚ) = n := by
    have := hexact n (by rw [abs_of_nonneg (by omega)]; exact hn')
    exact_mod_cast this
  have h2 : rnd ((n : ℚ) - 1) = n - 1 := by
    have := hexact ((n : ℤ) - 1) (by rw [abs_le]; constructor <;> omega)
    push_cast at this
    exact this
  unfold Qsc.calculate67pThresholdF64 Qsc.calculate67pThreshold
  rw [h1, h2]
  have key : ⌊rnd (((n : ℚ) - 1) / 3)⌋ = ((n : ℤ) - 1) / 3 := by
    set q : ℤ := ((n : ℤ) - 1) / 3 with hq
    have hq1 : 3 * q ≤ (n : ℤ) - 1 := by omega
    have hq2 : (n : ℤ) - 1 ≤ 3 * q + 2 := by omega
    have hqq : |q| ≤ 2 ^ 53 := by rw [abs_le]; constructor <;> omega
    rcases (by omega : (n : ℤ) - 1 = 3 * q ∨ (n : ℤ) - 1 = 3 * q + 1 ∨ (n : ℤ) - 1 = 3 * q + 2)
      with h | h | h
    · have hx : ((n : ℚ) - 1) / 3 = q := by
        have : ((n : ℚ) - 1) = 3 * q := by exact_mod_cast h
        rw [this]; ring
      rw [hx, hexact q hqq]; simp
    · have hx : ((n : ℚ) - 1) / 3 = q + 1 / 3 := by
        have : ((n : ℚ) - 1) = 3 * q + 1 := by exact_mod_cast h
        rw [this]; ring
      have := hr.half (((n : ℚ) - 1) / 3) (2 * q + 1) (by rw [abs_le]; constructor <;> omega)
      rw [hx] at this ⊢
      have hr' : |((2 * q + 1 : ℤ) : ℚ) / 2 - ((q : ℚ) + 1 / 3)| = 1 / 6 := by
        have : ((2 * q + 1 : ℤ) : ℚ) / 2 - ((q : ℚ) + 1 / 3) = 1 / 6 := by push_cast; ring
        rw [this]; norm_num
      rw [hr', abs_le] at this
      rw [Int.floor_eq_iff]
      constructor <;> linarith [this.1, this.2]
    · have hx : ((n : ℚ) - 1) / 3 = q + 2 / 3 := by
        have : ((n : ℚ) - 1) = 3 * q + 2 := by exact_mod_cast h
        rw [this]; ring
      have := hr.half (((n : ℚ) - 1) / 3) (2 * q + 1) (by rw [abs_le]; constructor <;> omega)
      rw [hx] at this ⊢
      have hr' : |((2 * q + 1 : ℤ) : ℚ) / 2 - ((q : ℚ) + 2 / 3)| = 1 / 6 := by
        have : ((2 * q + 1 : ℤ) : ℚ) / 2 - ((q : ℚ) + 2 / 3) = -(1 / 6) := by push_cast; ring
        rw [this, abs_neg]; norm_num
      rw [hr', abs_le] at this
      rw [Int.floor_eq_iff]
      constructor <;> linarith [this.1, this.2]
  rw [key]
  omega

/-- Concrete case: exact arithmetic is a (perfect) rounding. -/
example : NearestF64 id := ⟨fun x z _ => by simp, fun x z _ => by simp⟩

example : (List.range 11).map Qsc.calculate67pThreshold = [0, 1, 2, 3, 3, 4, 5, 5, 6, 7, 7] := by
  decide

#print axioms C41_bounds
#print axioms C41_least
#print axioms C41_faults
#print axioms C41_float

/-! ## C42 -/

/-- C42: for any configurator, a global reevaluation that does not panic consists of `k ≤ max`
rounds, where `k` is the returned number. In each round every node is visited exactly once. All rounds
except possibly the last one had a change; if there were fewer than `max` rounds then the last round
had no change. The monitor sees exactly these rounds. -/
theorem C42_rounds {R : Rand} (qsc : Qsc R) (max k : ℕ) (sim sim' : Simulator R)
    (h : simulateGlobalReevaluation qsc max sim = .ok (k, sim')) :
    ∃ rounds : List (List (NodeId × ChangeEffect)),
      rounds.length = k ∧ k ≤ max ∧
      Rounds qsc sim.fbas.nodes.length sim.fbas rounds sim'.fbas ∧
      (∀ r ∈ rounds.dropLast, HadChange r) ∧
      (k < max → ∃ r, rounds.getLast? = some r ∧ ¬ HadChange r) ∧
      sim'.events = sim.events ++ [.startGlobalReevaluation] ++ rounds.flatMap roundEvents ++
        [.finishGlobalReevaluation k] := by
  unfold simulateGlobalReevaluation at h
  dsimp only at h
  cases hr : reevaluationLoop qsc max false 0 (rangeFT 0 sim.fbas.nodes.length)
      (sim.registerEvent .startGlobalReevaluation) with
  | error e => rw [hr] at h; cases h
  | ok p =>
    obtain ⟨k', sim1⟩ := p
    rw [hr] at h
    obtain ⟨rfl, rfl⟩ := Prod.mk.inj (Except.ok.inj h)
    obtain ⟨rs, h1, h2, -, h4, h5, h6, h7⟩ :=
      reevaluationLoop_spec (n := sim.fbas.nodes.length) (by rw [rangeFT_zero]) hr
    have hk : rs.length = k' := by omega
    refine ⟨rs, hk, by omega, h4, h5, fun hlt => ?_, ?_⟩
    · rcases h6 (by omega) with ⟨h, -⟩ | h
      · cases h
      · exact h
    · show sim1.events ++ _ = _
      rw [h7]
      simp [registerEvent]

/-- C42: with a configurator that does not panic for existing nodes and does not add or remove nodes,
a global reevaluation does not panic. -/
theorem C42_no_panic {R : Rand} (qsc : Qsc R)
    (hq : ∀ (f : Fbas) (s : R.State) (x : NodeId), x < f.nodes.length →
      ∃ c f' s', qsc x (f, s) = .ok (c, f', s') ∧ f'.nodes.length = f.nodes.length)
    (max : ℕ) (sim : Simulator R) :
    ∃ k sim', simulateGlobalReevaluation qsc max sim = .ok (k, sim') :=
  let ⟨k, sim', h, _⟩ := reevaluation_safe hq max sim
  ⟨k, sim', h⟩

/-- C42: with `IdealQsc` and at least one allowed round, a global reevaluation ends within two rounds
and afterwards all nodes have the target configuration. Public keys do not change. -/
theorem C42_ideal (R : Rand) (max : ℕ) (hmax : 1 ≤ max) (sim : Simulator R) :
    ∃ k sim', simulateGlobalReevaluation (Qsc.ideal R) max sim = .ok (k, sim') ∧ k ≤ 2 ∧
      sim'.fbas.nodes.map Node.publicKey = sim.fbas.nodes.map Node.publicKey ∧
      sim'.fbas.pkToId = sim.fbas.pkToId ∧
      AllHave sim'.fbas ⟨Qsc.calculate67pThreshold sim.fbas.nodes.length,
        List.range sim.fbas.nodes.length, []⟩ := by
  obtain ⟨k, sim', h1, h2, h3, h4⟩ := reevaluation_targets (qsc := Qsc.ideal R)
    (cand := fun n => ⟨Qsc.calculate67pThreshold n, rangeFT 0 n, []⟩) (fun _ _ => rfl) hmax sim
  exact ⟨k, sim', h1, h2, h3.1, h3.2, by simpa using h4⟩

/-- C42: same for `SuperSafeQsc`. -/
theorem C42_superSafe (R : Rand) (max : ℕ) (hmax : 1 ≤ max) (sim : Simulator R) :
    ∃ k sim', simulateGlobalReevaluation (Qsc.superSafe R) max sim = .ok (k, sim') ∧ k ≤ 2 ∧
      sim'.fbas.nodes.map Node.publicKey = sim.fbas.nodes.map Node.publicKey ∧
      sim'.fbas.pkToId = sim.fbas.pkToId ∧
      AllHave sim'.fbas ⟨sim.fbas.nodes.length, List.range sim.fbas.nodes.length, []⟩ := by
  obtain ⟨k, sim', h1, h2, h3, h4⟩ := reevaluation_targets (qsc := Qsc.superSafe R)
    (cand := fun n => ⟨n, rangeFT 0 n, []⟩) (fun _ _ => rfl) hmax sim
  exact ⟨k, sim', h1, h2, h3.1, h3.2, by simpa using h4⟩

/-- Concrete case: two rounds are made even if more are allowed; nodes are visited in different
orders. -/
example : (simulateGlobalReevaluation (Qsc.superSafe busyRand) 10
      ⟨Ref.mkFbas [⟨0, [], []⟩, ⟨2, [0, 1], []⟩], [], (0 : ℕ)⟩).map
        (fun p => (p.1, p.2.fbas.nodes.map Node.quorumSet, p.2.events)) =
    .ok (2, [⟨2, [0, 1], []⟩, ⟨2, [0, 1], []⟩],
      [.startGlobalReevaluation, .startGlobalReevaluationRound, .quorumSetChange 1 .noChange,
        .quorumSetChange 0 .change, .startGlobalReevaluationRound, .quorumSetChange 0 .noChange,
        .quorumSetChange 1 .noChange, .finishGlobalReevaluation 2]) :=
  Ref.ok_of (by decide +kernel)

#print axioms C42_rounds
#print axioms C42_no_panic
#print axioms C42_ideal
#print axioms C42_superSafe

/-! ## C43, C44 -/

/-- Growth with a configurator that has a target configuration. -/
theorem growth_targets {R : Rand} {qsc : Qsc R} {cand : ℕ → QuorumSet} (hq : Targets qsc cand)
    (k m : ℕ) (sim : Simulator R) (hreg : RegistryOk sim.fbas)
    (hn : sim.fbas.nodes.map Node.publicKey = (List.range m).map (fun i => "n" ++ toString i))
    (hall : AllHave sim.fbas (cand m)) :
    ∃ sim', simulateGrowth qsc k sim = .ok sim' ∧ RegistryOk sim'.fbas ∧
      sim'.fbas.nodes.map Node.publicKey = (List.range (m + k)).map (fun i => "n" ++ toString i) ∧
      AllHave sim'.fbas (cand (m + k)) := by
  induction k generalizing m sim with
  | zero => exact ⟨sim, rfl, hreg, hn, hall⟩
  | succ k ih =>
    have hl : sim.fbas.nodes.length = m := by
      have := congrArg List.length hn; simpa using this
    obtain ⟨h1, h2⟩ := C40_add_generic_node sim.fbas hreg QuorumSet.empty
    cases hr : sim.fbas.addGenericNode QuorumSet.empty with
    | error e =>
      obtain ⟨n', hn', hp⟩ := h1.1 ⟨e, hr⟩
      have : n'.publicKey ∈ sim.fbas.nodes.map Node.publicKey := List.mem_map_of_mem hn'
      rw [hn] at this
      obtain ⟨i, hi, hi'⟩ := List.mem_map.1 this
      have := genericNodeName_inj (i := i) (j := sim.fbas.nodes.length) (hi'.trans hp)
      rw [List.mem_range] at hi
      omega
    | ok p =>
      obtain ⟨x, f⟩ := p
      obtain ⟨h3, h4, h5⟩ := h2 x f hr
      have hfl : f.nodes.length = m + 1 := by rw [h4]; simp [hl]
      obtain ⟨c, f', g1, g2, -⟩ := replace_spec (R := R) (f := f) (s := sim.rng) (x := x)
        (by rw [hfl, h3, hl]; exact Nat.lt_succ_self m) (cand f.nodes.length)
      have g1' : qsc x (f, sim.rng) = .ok (c, f', sim.rng) := by rw [hq]; exact g1
      set sim1 : Simulator R := ({ sim with fbas := f', rng := sim.rng } :
        Simulator R).registerEvent (.addNode x) with hsim1
      have hsf : sim1.fbas = f' := rfl
      obtain ⟨k', sim2, e1, -, e3, e4⟩ := reevaluation_targets hq
        (max := sim1.fbas.numberOfNodes) (by
          show 1 ≤ f'.nodes.length
          rw [g2.length, hfl]; omega) sim1
      rw [hsf] at e3 e4
      have hnames := g2.trans e3
      have hreg2 : RegistryOk sim2.fbas := hnames.registry h5
      have hlen : f'.nodes.length = m + 1 := by rw [g2.length, hfl]
      obtain ⟨sim', s1, s2, s3, s4⟩ := ih (m + 1) sim2 hreg2 (by
        rw [hnames.1, h4, List.map_append, hn, hl, List.range_succ, List.map_append]; rfl) (by
        rw [hlen] at e4; exact e4)
      refine ⟨sim', ?_, s2, by rw [s3]; congr 2; omega, by rw [show m + (k + 1) = m + 1 + k by omega]; exact s4⟩
      rw [simulateGrowth, hr]
      dsimp only
      rw [g1']
      dsimp only
      rw [← hsim1, e1]
      exact s1

/-- Growth from an empty FBAS. -/
theorem growth_from_empty {R : Rand} {qsc : Qsc R} {cand : ℕ → QuorumSet} (hq : Targets qsc cand)
    (n : ℕ) (s : R.State) :
    ∃ sim', simulateGrowth qsc n ⟨Fbas.new, [], s⟩ = .ok sim' ∧
      sim'.fbas.nodes.length = n ∧ AllHave sim'.fbas (cand n) := by
  obtain ⟨sim', h1, -, h3, h4⟩ := growth_targets hq n 0 ⟨Fbas.new, [], s⟩ (fun pk i => by
    constructor
    · intro h; cases h
    · rintro ⟨n, hn, -⟩; simp [Fbas.new] at hn) rfl (fun x hx => by simp [Fbas.new] at hx)
  rw [Nat.zero_add] at h3 h4
  refine ⟨sim', h1, ?_, h4⟩
  have := congrArg List.length h3; simpa using this

/-- C43: growing an FBAS of `n` nodes with `IdealQsc` never panics; the quorums are exactly the
(non-empty) sets of at least `calculate_67p_threshold(n)` nodes. -/
theorem C43_quorums (R : Rand) (n : ℕ) (s : R.State) :
    ∃ sim', simulateGrowth (Qsc.ideal R) n ⟨Fbas.new, [], s⟩ = .ok sim' ∧
      sim'.fbas.nodes.length = n ∧
      ∀ Q : NodeSet, IsQuorum sim'.fbas Q ↔
        Q.Nonempty ∧ (∀ x ∈ Q, x < n) ∧ Qsc.calculate67pThreshold n ≤ Q.card := by
  obtain ⟨sim', h1, h2, h3⟩ := growth_from_empty (qsc := Qsc.ideal R)
    (cand := fun n => ⟨Qsc.calculate67pThreshold n, rangeFT 0 n, []⟩) (fun _ _ => rfl) n s
  refine ⟨sim', h1, h2, fun Q => ?_⟩
  rw [rangeFT_zero] at h3
  rcases Nat.eq_zero_or_pos n with rfl | hn
  · constructor
    · intro h
      obtain ⟨x, hx⟩ := h.1
      have := h.subset_all hx
      rw [Fbas.allNodes, h2] at this
      simp at this
    · rintro ⟨⟨x, hx⟩, h, -⟩
      exact absurd (h x hx) (Nat.not_lt_zero _)
  · have ht := C41_bounds n hn
    conv at h3 => enter [2, 2]; rw [← h2]
    rw [threshold_quorum_iff h3 ht.1, h2]
    constructor
    · rintro ⟨hs, hc⟩
      exact ⟨Finset.card_pos.1 (by omega), fun x hx => Finset.mem_range.1 (hs hx), hc⟩
    · rintro ⟨-, hs, hc⟩
      exact ⟨fun x hx => Finset.mem_range.2 (hs x hx), hc⟩

/-- C43: for `n ≥ 1` the result enjoys quorum intersection, and its minimal blocking sets are exactly
the sets of `n - t + 1` nodes (`t` the threshold), i.e. `f + 1` nodes for the largest `f` with
`3f + 1 ≤ n`. -/
theorem C43_safety_liveness (R : Rand) (n : ℕ) (hn : 1 ≤ n) (s : R.State) :
    ∃ sim', simulateGrowth (Qsc.ideal R) n ⟨Fbas.new, [], s⟩ = .ok sim' ∧
      QuorumIntersection sim'.fbas ∧
      ∀ B : NodeSet, IsMinBlocking sim'.fbas B ↔
        (∀ x ∈ B, x < n) ∧ B.card = n - Qsc.calculate67pThreshold n + 1 := by
  obtain ⟨sim', h1, h2, h3⟩ := growth_from_empty (qsc := Qsc.ideal R)
    (cand := fun n => ⟨Qsc.calculate67pThreshold n, rangeFT 0 n, []⟩) (fun _ _ => rfl) n s
  rw [rangeFT_zero] at h3
  have ht := C41_bounds n hn
  have hmaj : n < 2 * Qsc.calculate67pThreshold n := by
    unfold Qsc.calculate67pThreshold; omega
  conv at h3 => enter [2, 2]; rw [← h2]
  refine ⟨sim', h1, (threshold_intersection h3 ht.1 (by rw [h2]; exact ht.2)).2 (by
    rw [h2]; exact hmaj), fun B => ?_⟩
  rw [threshold_minBlocking_iff h3 ht.1 (by rw [h2]; exact ht.2), h2]
  simp only [Finset.subset_iff, Finset.mem_range]

/-- C44: growing an FBAS of `n ≥ 1` nodes with `SuperSafeQsc` never panics; the only quorum is the set
of all nodes. -/
theorem C44_quorums (R : Rand) (n : ℕ) (hn : 1 ≤ n) (s : R.State) :
    ∃ sim', simulateGrowth (Qsc.superSafe R) n ⟨Fbas.new, [], s⟩ = .ok sim' ∧
      sim'.fbas.nodes.length = n ∧
      ∀ Q : NodeSet, IsQuorum sim'.fbas Q ↔ ∀ x, x ∈ Q ↔ x < n := by
  obtain ⟨sim', h1, h2, h3⟩ := growth_from_empty (qsc := Qsc.superSafe R)
    (cand := fun n => ⟨n, rangeFT 0 n, []⟩) (fun _ _ => rfl) n s
  refine ⟨sim', h1, h2, fun Q => ?_⟩
  rw [rangeFT_zero] at h3
  conv at h3 => enter [2, 2]; rw [← h2]
  rw [threshold_quorum_iff h3 hn, h2]
  constructor
  · rintro ⟨hs, hc⟩ x
    rw [Finset.eq_of_subset_of_card_le hs (by simpa using hc), Finset.mem_range]
  · intro h
    have : Q = Finset.range n := by ext x; rw [h, Finset.mem_range]
    rw [this]; exact ⟨Finset.Subset.refl _, by simp⟩

/-- Concrete case. -/
example : (simulateGrowth (Qsc.ideal busyRand) 4 ⟨Fbas.new, [], (0 : ℕ)⟩).map
    (fun s => s.fbas.nodes) =
      .ok ((List.range 4).map (fun i => ⟨"n" ++ toString i, ⟨3, [0, 1, 2, 3], []⟩⟩)) :=
  Ref.ok_of (by decide +kernel)

#print axioms C43_quorums
#print axioms C43_safety_liveness
#print axioms C44_quorums

end FA.Props
