import Verif.Lemmas.PerformanceCount
import Verif.Ref.Decide

/-!
# Properties of the performance experiment (C70)
-/

namespace FA.Props
open FA Spec Bulk

theorem almost_of_ideal {n : ℕ} (hn : 2 ≤ n) : ∃ f, makeAlmostIdealFbas n = .ok f ∧
    Almost f n ⟨n - (n - 1) / 3, List.range n, []⟩ ∧
    ∀ Q, IsQuorum f Q ↔ (∀ x ∈ Q, x < n) ∧ n - (n - 1) / 3 ≤ Q.card := by
  obtain ⟨f, h1, h2, h3, h4⟩ := almostSymmetric_spec
    ⟨Qsc.calculate67pThreshold n, rangeFT 0 n, []⟩ (n := n) (by omega)
  obtain ⟨f', e1, -, -, e2⟩ := C56_almost_ideal n (by omega)
  have h1' : makeAlmostIdealFbas n = .ok f := h1
  rw [h1'] at e1
  obtain rfl := Except.ok.inj e1
  rw [rangeFT_zero] at h3 h4
  refine ⟨f, h1', ⟨hn, h2, h3, h4, fun x => ?_⟩, e2⟩
  constructor
  · intro h
    cases h with
    | validator h => exact List.mem_range.1 h
    | inner h _ => cases h
  · intro h; exact .validator (List.mem_range.2 h)

theorem almost_of_stellarlike {m : ℕ} (hm : 1 ≤ m) :
    ∃ f, makeAlmostIdealStellarlikeFbas (3 * m) = .ok f ∧
    Almost f (3 * m) (stellarlikeQuorumSet m) ∧
    ∀ Q, IsQuorum f Q ↔ (∀ x ∈ Q, x < 3 * m) ∧ m - (m - 1) / 3 ≤ (orgsWith m 2 Q).card := by
  obtain ⟨f, h1, h2, h3, h4⟩ := almostSymmetric_spec (stellarlikeQuorumSet m)
    (n := 3 * m) (by omega)
  obtain ⟨f', e1, -, e2⟩ := C56_stellarlike m hm
  have h1' : makeAlmostIdealStellarlikeFbas (3 * m) = .ok f := by
    unfold makeAlmostIdealStellarlikeFbas
    rw [if_pos (by omega), show 3 * m / 3 = m by omega]
    exact h1
  rw [h1'] at e1
  obtain rfl := Except.ok.inj e1
  have key1 : ∀ x o : ℕ, o < m → (x = o * 3 ∨ x = o * 3 + 1 ∨ x = o * 3 + 2) → x < 3 * m := by
    intro x o ho h; omega
  have key2 : ∀ x : ℕ, x < 3 * m → ∃ o, o < m ∧ (x = o * 3 ∨ x = o * 3 + 1 ∨ x = o * 3 + 2) :=
    fun x h => ⟨x / 3, by omega, by omega⟩
  refine ⟨f, h1', ⟨by omega, h2, h3, h4, fun x => ?_⟩, e2⟩
  unfold stellarlikeQuorumSet
  rw [rangeFT_zero]
  constructor
  · intro h
    cases h with
    | validator h => cases h
    | inner h h' =>
      obtain ⟨o, ho, rfl⟩ := List.mem_map.1 h
      have ho := List.mem_range.1 ho
      cases h' with
      | validator h =>
        simp only [List.mem_cons, List.not_mem_nil, or_false] at h
        exact key1 x o ho h
      | inner h _ => cases h
  · intro h
    obtain ⟨o, ho, h⟩ := key2 x h
    exact .inner (List.mem_map.2 ⟨o, List.mem_range.2 ho, rfl⟩) (.validator (by simpa using h))

/-! ### One data point -/

/-- C70: The numbers reported for the FBAS of `n ≥ 2` nodes, with `k = ⌊(n - 1) / 3⌋`: there are as many
minimal quorums as there are sets of `n - k` of the `n` nodes, as many minimal blocking sets as there are
sets of `k + 1` nodes, and as many minimal splitting sets as there are sets of `n - 2 * k` nodes (none if
`n < 4`). -/
theorem C70_almost_ideal_partial (env : Env) (n run : ℕ) (hn : 2 ≤ n) :
    perfAnalyze env n run false = .ok
      { topTierSize := n
        run := run
        mqNumber := n.choose (n - (n - 1) / 3)
        mbsNumber := n.choose ((n - 1) / 3 + 1)
        mssNumber := if n < 4 then 0 else n.choose (n - 2 * ((n - 1) / 3))
        mqMean := (n - (n - 1) / 3 : ℕ)
        mbsMean := ((n - 1) / 3 + 1 : ℕ)
        mssMean := if n < 4 then 0 else (n - 2 * ((n - 1) / 3) : ℕ) } := by
  obtain ⟨f, h1, h2, h3⟩ := almost_of_ideal hn
  have hqi : QuorumIntersection f := flat_intersection h3 (by omega) (by omega)
  obtain ⟨Q, B, S, d, hd, d1, d2, d3, d4, d5, d6, d7, d8, d9, hQ, hB, hS, nQ, nB, nS⟩ :=
    perf_core env run false (by simpa using h1) h2 hqi
      (fun x hx => flat_inTopTier h3 (by omega) (by omega) hx)
  rw [hd]
  have hQ' : ∀ P, P ∈ Q ↔ P ∈ (Finset.range n).powersetCard (n - (n - 1) / 3) := fun P => by
    rw [hQ, flat_minQuorum_iff h3]
  have hB' : ∀ P, P ∈ B ↔ P ∈ (Finset.range n).powersetCard ((n - 1) / 3 + 1) := fun P => by
    rw [hB, IsMinBlocking, minimal_card_iff (fun S => flat_blocking_iff h3 (by omega) S),
      show n - (n - (n - 1) / 3) + 1 = (n - 1) / 3 + 1 by omega]
  have lQ := length_eq_card nQ hQ'
  have lB := length_eq_card nB hB'
  rw [Finset.card_powersetCard, Finset.card_range] at lQ lB
  have mQ : d.mqMean = (n - (n - 1) / 3 : ℕ) := by
    refine mean_eq (ne_nil_of_length ?_) (fun P hP => (Finset.mem_powersetCard.1 ((hQ' P).1 hP)).2) d6
    rw [lQ]; exact Nat.choose_pos (by omega)
  have mB : d.mbsMean = ((n - 1) / 3 + 1 : ℕ) := by
    refine mean_eq (ne_nil_of_length ?_) (fun P hP => (Finset.mem_powersetCard.1 ((hB' P).1 hP)).2) d7
    rw [lB]; exact Nat.choose_pos (by omega)
  have key : d.mssNumber = (if n < 4 then 0 else n.choose (n - 2 * ((n - 1) / 3))) ∧
      d.mssMean = if n < 4 then (0 : ℚ) else (n - 2 * ((n - 1) / 3) : ℕ) := by
    by_cases h4 : n < 4
    · rw [if_pos h4, if_pos h4]
      have : S = [] := by
        refine List.eq_nil_iff_forall_not_mem.2 (fun P hP => ?_)
        refine flat_no_splitting (f := f) (n := n) ?_ P ((hS P).1 hP)
        rw [show n - (n - 1) / 3 = n by omega] at h3
        exact h3
      exact ⟨by rw [d5, this]; rfl, d9 this⟩
    · rw [if_neg h4, if_neg h4]
      have hS' : ∀ P, P ∈ S ↔ P ∈ (Finset.range n).powersetCard (n - 2 * ((n - 1) / 3)) := fun P => by
        rw [hS, IsMinSplitting,
          minimal_card_iff (fun S => flat_splitting_iff h3 (by omega) (by omega) S),
          show 2 * (n - (n - 1) / 3) - n = n - 2 * ((n - 1) / 3) by omega]
      have lS := length_eq_card nS hS'
      rw [Finset.card_powersetCard, Finset.card_range] at lS
      refine ⟨d5.trans lS, ?_⟩
      refine mean_eq (ne_nil_of_length ?_) (fun P hP => (Finset.mem_powersetCard.1 ((hS' P).1 hP)).2) d8
      rw [lS]; exact Nat.choose_pos (by omega)
  obtain ⟨kS, mS⟩ := key
  rw [← d3] at lQ
  rw [← d4] at lB
  obtain ⟨a1, a2, a3, a4, a5, a6, a7, a8⟩ := d
  dsimp only at *
  subst d1 d2 lQ lB kS mQ mB mS
  rfl

open Classical in
/-- C70: The numbers reported for `--stellar-like` and `m` organizations with three nodes each, with
`k = ⌊(m - 1) / 3⌋`: minimal quorums consist of two nodes of each of `m - k` organizations, minimal
blocking sets of two nodes of each of `k + 1` organizations, minimal splitting sets of one node of each of
`m - 2 * k` organizations. -/
theorem C70_stellarlike (env : Env) (m run : ℕ) (hm : 1 ≤ m) :
    perfAnalyze env (3 * m) run true = .ok
      { topTierSize := 3 * m
        run := run
        mqNumber := m.choose (m - (m - 1) / 3) * 3 ^ (m - (m - 1) / 3)
        mbsNumber := m.choose ((m - 1) / 3 + 1) * 3 ^ ((m - 1) / 3 + 1)
        mssNumber := m.choose (m - 2 * ((m - 1) / 3)) * 3 ^ (m - 2 * ((m - 1) / 3))
        mqMean := (2 * (m - (m - 1) / 3) : ℕ)
        mbsMean := (2 * ((m - 1) / 3 + 1) : ℕ)
        mssMean := (m - 2 * ((m - 1) / 3) : ℕ) } := by
  obtain ⟨f, h1, h2, h3⟩ := almost_of_stellarlike hm
  have hqi : QuorumIntersection f := nested_intersection h3 (by omega) (by omega)
  obtain ⟨Q, B, S, d, hd, d1, d2, d3, d4, d5, d6, d7, d8, d9, hQ, hB, hS, nQ, nB, nS⟩ :=
    perf_core env run true (by simpa using h1) h2 hqi
      (fun x hx => nested_inTopTier h3 (by omega) (by omega) hx)
  rw [hd]
  have hQ' : ∀ P, P ∈ Q ↔ Picks m (m - (m - 1) / 3) 2 P := fun P => by
    rw [hQ, nested_minQuorum_iff h3]
  have hB' : ∀ P, P ∈ B ↔ Picks m ((m - 1) / 3 + 1) 2 P := fun P => by
    rw [hB, IsMinBlocking, minimal_orgs_iff (by omega) (fun S => nested_blocking_iff h3 (by omega) S),
      show m - (m - (m - 1) / 3) + 1 = (m - 1) / 3 + 1 by omega]
  have hS' : ∀ P, P ∈ S ↔ Picks m (m - 2 * ((m - 1) / 3)) 1 P := fun P => by
    rw [hS, IsMinSplitting,
      minimal_orgs_iff (by omega) (fun S => nested_splitting_iff h3 (by omega) (by omega) S),
      show 2 * (m - (m - 1) / 3) - m = m - 2 * ((m - 1) / 3) by omega]
  have num : ∀ (L : List NodeSet) (k c : ℕ), 1 ≤ c → L.Nodup → (∀ P, P ∈ L ↔ Picks m k c P) →
      L.length = m.choose k * (Nat.choose 3 c) ^ k := by
    intro L k c hc hn hL
    rw [← card_picks hc]
    refine length_eq_card hn (fun P => ?_)
    rw [hL, Finset.mem_filter, Finset.mem_powerset]
    exact ⟨fun h => ⟨h.sub, h⟩, fun h => h.2⟩
  have lQ := num Q _ 2 (by omega) nQ hQ'
  have lB := num B _ 2 (by omega) nB hB'
  have lS := num S _ 1 (by omega) nS hS'
  rw [show Nat.choose 3 2 = 3 from rfl] at lQ lB
  rw [show Nat.choose 3 1 = 3 from rfl] at lS
  have mQ : d.mqMean = (2 * (m - (m - 1) / 3) : ℕ) := by
    refine mean_eq (ne_nil_of_length ?_) (fun P hP => picks_card ((hQ' P).1 hP)) d6
    rw [lQ]; exact Nat.mul_pos (Nat.choose_pos (by omega)) (Nat.pow_pos (by omega))
  have mB : d.mbsMean = (2 * ((m - 1) / 3 + 1) : ℕ) := by
    refine mean_eq (ne_nil_of_length ?_) (fun P hP => picks_card ((hB' P).1 hP)) d7
    rw [lB]; exact Nat.mul_pos (Nat.choose_pos (by omega)) (Nat.pow_pos (by omega))
  have mS : d.mssMean = (1 * (m - 2 * ((m - 1) / 3)) : ℕ) := by
    refine mean_eq (ne_nil_of_length ?_) (fun P hP => picks_card ((hS' P).1 hP)) d8
    rw [lS]; exact Nat.mul_pos (Nat.choose_pos (by omega)) (Nat.pow_pos (by omega))
  rw [Nat.one_mul] at mS
  rw [← d3] at lQ
  rw [← d4] at lB
  rw [← d5] at lS
  obtain ⟨a1, a2, a3, a4, a5, a6, a7, a8⟩ := d
  dsimp only at *
  subst d1 d2 lQ lB lS mQ mB mS
  rfl

/-- Concrete cases: 4 nodes, of which 3 form a quorum; 2 organizations. -/
example : (4).choose (4 - (4 - 1) / 3) = 4 ∧ (4).choose ((4 - 1) / 3 + 1) = 6 ∧
    (4).choose (4 - 2 * ((4 - 1) / 3)) = 6 := by decide

example : perfAnalyze (Ref.refEnv 4) 4 7 false = .ok ⟨4, 7, 4, 6, 6, 3, 2, 2⟩ := by
  rw [C70_almost_ideal_partial _ _ _ (by omega)]; rfl

example : perfAnalyze (Ref.refEnv 6) 6 0 true = .ok ⟨6, 0, 9, 6, 9, 4, 2, 2⟩ := by
  rw [C70_stellarlike _ 2 _ (by omega)]; rfl

/-- The experiment with one node does not panic. -/
theorem C70_one_node (env : Env) (run : ℕ) :
    ∃ d, perfAnalyze env 1 run false = .ok d ∧ d.topTierSize = 1 ∧ d.run = run := by
  obtain ⟨f, h1, h2, h3, h4⟩ := C56_almost_ideal 1 (by omega)
  have hwf : WF f := by
    rintro x y ⟨q, hq, hm⟩
    have hx : x = 0 := by
      obtain ⟨nd, e, -⟩ := hq
      have := (List.getElem?_eq_some_iff.1 e).1
      rw [h2] at this
      exact Nat.lt_one_iff.1 this
    subst hx
    rw [← h3.unique hq] at hm
    rw [h2]
    cases hm with
    | validator h => simp at h; rw [h]; exact Nat.one_pos
    | inner h _ => cases h
  obtain ⟨v, T, Q, B, S, d, -, hd, d1, d2, -⟩ := perf_ok env run false (n := 1) (f := f)
    (by simpa using h1) hwf h2 (flat_intersection h4 (by omega) (by omega))
  exact ⟨d, hd, d1, d2⟩

/-- C70 is false for one node: the single minimal blocking set is counted twice, as the changed quorum
set of node 0 lists node 0 twice. -/
theorem C70_one_node_counterexample :
    perfAnalyze (Ref.refEnv 1) 1 0 false = .ok ⟨1, 0, 1, 2, 0, 1, 1, 0⟩ ∧
      ∃ f, makeAlmostIdealFbas 1 = .ok f ∧ ∀ B, IsMinBlocking f B ↔ B = {0} := by
  refine ⟨Ref.ok_of (by decide +kernel), ?_⟩
  obtain ⟨f, h1, -, -, h4⟩ := C56_almost_ideal 1 (by omega)
  refine ⟨f, h1, fun B => ?_⟩
  rw [IsMinBlocking, minimal_card_iff (fun S => flat_blocking_iff h4 (by omega) S),
    show (1 : ℕ) - (1 - (1 - 1) / 3) + 1 = (Finset.range 1).card by decide, Finset.powersetCard_self,
    Finset.mem_singleton]
  rfl

/-- C70: The assertions in the experiment never fail. It panics exactly for FBASs without nodes, and with
`--stellar-like` for numbers of nodes that are not multiples of three. -/
theorem C70_panics_iff (env : Env) (n run : ℕ) (stellarlike : Bool) :
    (∃ e, perfAnalyze env n run stellarlike = .error e) ↔ n = 0 ∨ stellarlike = true ∧ ¬ 3 ∣ n := by
  constructor
  · rintro ⟨e, h⟩
    by_contra hn
    rw [not_or] at hn
    cases stellarlike with
    | false =>
      by_cases h1 : n = 1
      · subst h1
        obtain ⟨d, hd, -⟩ := C70_one_node env run
        rw [hd] at h; cases h
      · rw [C70_almost_ideal_partial env n run (by omega)] at h; cases h
    | true =>
      obtain ⟨m, rfl⟩ : 3 ∣ n := by simpa using hn.2
      rw [C70_stellarlike env m run (by omega)] at h; cases h
  · intro h
    have : ∃ e, (if stellarlike then makeAlmostIdealStellarlikeFbas n else makeAlmostIdealFbas n) =
        .error e := by
      cases stellarlike with
      | false =>
        obtain ⟨e, he⟩ := (C56_panics n).1.2 (by simpa using h)
        exact ⟨e, by simpa using he⟩
      | true =>
        obtain ⟨e, he⟩ := (C56_panics n).2.2 (by simpa using h)
        exact ⟨e, by simpa using he⟩
    obtain ⟨e, he⟩ := this
    refine ⟨e, ?_⟩
    cases stellarlike <;> simp only [Bool.false_eq_true, if_false, if_true] at he <;>
      simp [perfAnalyze, he, bind, Except.bind]

/-! ### The program -/

theorem perfAnalyze_key {env : Env} {n run : ℕ} {stellarlike : Bool} {d : PerfDataPoint}
    (h : perfAnalyze env n run stellarlike = .ok d) : d.topTierSize = n ∧ d.run = run := by
  have hp : ¬ ∃ e, perfAnalyze env n run stellarlike = .error e := by rintro ⟨e, he⟩; rw [h] at he; cases he
  rw [C70_panics_iff, not_or] at hp
  cases stellarlike with
  | false =>
    by_cases h1 : n = 1
    · subst h1
      obtain ⟨d', hd, h2⟩ := C70_one_node env run
      rw [hd] at h; cases h; exact h2
    · rw [C70_almost_ideal_partial env n run (by omega)] at h; cases h; exact ⟨rfl, rfl⟩
  | true =>
    obtain ⟨m, rfl⟩ : 3 ∣ n := by simpa using hp.2
    rw [C70_stellarlike env m run (by omega)] at h; cases h; exact ⟨rfl, rfl⟩

/-- C70: The program never panics. Unless existing results have the same size and run, the output
contains exactly one line for each existing result, which is unchanged, and for each other run of each FBAS
size up to the maximum (with `--stellar-like`: the multiples of three), ordered by size. -/
theorem C70_output (env : Env) (mx runs : ℕ) (stellarlike : Bool) (existing : List PerfDataPoint)
    (hl : existing.Pairwise (fun a b => ¬ (a.topTierSize = b.topTierSize ∧ a.run = b.run))) :
    ∃ out, perfMain env mx runs stellarlike existing = (out, none) ∧
      out.Pairwise (fun a b => a.topTierSize ≤ b.topTierSize ∧
        ¬ (a.topTierSize = b.topTierSize ∧ a.run = b.run)) ∧
      (∀ d ∈ existing, d ∈ out) ∧
      (∀ n r, 1 ≤ n → n ≤ mx → r < runs → (stellarlike = true → 3 ∣ n) →
        ∃ d ∈ out, d.topTierSize = n ∧ d.run = r ∧
          (d ∈ existing ∨ perfAnalyze env n r stellarlike = .ok d)) ∧
      ∀ d ∈ out, d ∈ existing ∨ (1 ≤ d.topTierSize ∧ d.topTierSize ≤ mx ∧ d.run < runs ∧
        perfAnalyze env d.topTierSize d.run stellarlike = .ok d) := by
  have hkey : ∀ a b : PerfDataPoint, a.key = b.key ↔ a.topTierSize = b.topTierSize ∧ a.run = b.run := by
    intro a b
    unfold PerfDataPoint.key
    rw [toLex_inj, Prod.mk.injEq]
  have hl' : (existing.map PerfDataPoint.key).Nodup := by
    rw [List.Nodup, List.pairwise_map]
    exact hl.imp fun {a b} h => by rw [Ne, hkey]; exact h
  obtain ⟨c1, c2, c3, c4⟩ := C57_performance PerfDataPoint.key mx runs stellarlike existing hl'
  have hw := writeAll_spec (perfAnalyzeOrReuse env stellarlike)
    (performanceTasks PerfDataPoint.key (generateInputs mx runs stellarlike) existing)
  unfold perfMain
  generalize performanceTasks PerfDataPoint.key (generateInputs mx runs stellarlike) existing = tasks at *
  have hok : ∀ t ∈ tasks, ∃ d, perfAnalyzeOrReuse env stellarlike t = .ok d := by
    intro t ht
    cases t with
    | reuse o => exact ⟨o, rfl⟩
    | analyze i =>
      obtain ⟨⟨h1, -, -, h2⟩, -⟩ := (c4 (ofLex i).1 (ofLex i).2).1 ht
      cases h : perfAnalyze env (ofLex i).1 (ofLex i).2 stellarlike with
      | ok d => exact ⟨d, h⟩
      | error e =>
        rcases (C70_panics_iff _ _ _ _).1 ⟨e, h⟩ with h3 | ⟨h3, h4⟩
        · omega
        · exact absurd (h2 h3) h4
  generalize hout : writeAll (perfAnalyzeOrReuse env stellarlike) tasks = w at hw
  obtain ⟨out, e⟩ := w
  dsimp only at hw
  obtain ⟨w1, w2, w3⟩ := hw
  have he : e = none := by
    cases e with
    | none => rfl
    | some p =>
      obtain ⟨t, t1, t2⟩ := w3 p rfl
      obtain ⟨d, hd⟩ := hok t (List.mem_of_getElem? t1)
      rw [hd] at t2; cases t2
  subst he
  rw [w2 rfl, List.take_length] at w1
  have hk : ∀ t d, perfAnalyzeOrReuse env stellarlike t = .ok d → d.key = t.label id PerfDataPoint.key := by
    intro t d h
    cases t with
    | reuse o => cases h; rfl
    | analyze i =>
      obtain ⟨h1, h2⟩ := perfAnalyze_key h
      show toLex (d.topTierSize, d.run) = i
      rw [h1, h2]; rfl
  have hmap : out.map PerfDataPoint.key = tasks.map (Task.label id PerfDataPoint.key) := by
    clear c1 c2 c3 c4 hok w2 w3 hout
    induction w1 with
    | nil => rfl
    | cons ht _ ih => rw [List.map_cons, List.map_cons, ih, hk _ _ ht]
  refine ⟨out, rfl, ?_, fun d hd => ?_, fun n r h1 h2 h3 h4 => ?_, fun d hd => ?_⟩
  · have p1 : (out.map PerfDataPoint.key).Pairwise (fun a b => (ofLex a).1 ≤ (ofLex b).1) := by
      rw [hmap, List.pairwise_map]; exact c1
    have p2 : (out.map PerfDataPoint.key).Pairwise (· ≠ ·) := by rw [hmap]; exact c2
    rw [List.pairwise_map] at p1 p2
    exact (p1.and p2).imp fun {a b} h => ⟨h.1, fun h' => h.2 ((hkey a b).2 h')⟩
  · obtain ⟨d', h1, h2⟩ := exists_right w1 ((c3 d).2 hd)
    cases h2
    exact h1
  · by_cases hex : toLex (n, r) ∈ existing.map PerfDataPoint.key
    · obtain ⟨d, hd, hd'⟩ := List.mem_map.1 hex
      obtain ⟨d', g1, g2⟩ := exists_right w1 ((c3 d).2 hd)
      cases g2
      unfold PerfDataPoint.key at hd'
      rw [toLex_inj, Prod.mk.injEq] at hd'
      exact ⟨d, g1, hd'.1, hd'.2, .inl hd⟩
    · obtain ⟨d, g1, g2⟩ := exists_right w1 ((c4 n r).2 ⟨⟨h1, h2, h3, h4⟩, hex⟩)
      obtain ⟨k1, k2⟩ := perfAnalyze_key g2
      exact ⟨d, g1, k1, k2, .inr g2⟩
  · obtain ⟨t, h1, h2⟩ := exists_left w1 hd
    cases t with
    | reuse o => cases h2; exact .inl ((c3 d).1 h1)
    | analyze i =>
      obtain ⟨⟨g1, g2, g3, g4⟩, -⟩ := (c4 (ofLex i).1 (ofLex i).2).1 h1
      obtain ⟨k1, k2⟩ := perfAnalyze_key h2
      refine .inr ?_
      rw [k1, k2]
      exact ⟨g1, g2, g3, h2⟩

/-- Concrete case: an existing result is kept, the others are computed. -/
example : perfMain (Ref.refEnv 3) 3 1 false [⟨2, 0, 9, 9, 9, 9, 9, 9⟩] =
    ([⟨1, 0, 1, 2, 0, 1, 1, 0⟩, ⟨2, 0, 9, 9, 9, 9, 9, 9⟩, ⟨3, 0, 1, 3, 0, 3, 1, 0⟩], none) := by
  decide +kernel

#print axioms C70_almost_ideal_partial
#print axioms C70_stellarlike
#print axioms C70_one_node
#print axioms C70_one_node_counterexample
#print axioms C70_panics_iff
#print axioms C70_output

end FA.Props
