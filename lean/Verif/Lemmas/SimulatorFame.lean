import Verif.Lemmas.SimulatorSteady

/-!
# When weighted random choices succeed
-/

namespace FA
open Spec Simulator Props

variable {R : Rand}

/-- The validators from which `RandomQsc` starts. -/
def startFrom (q : QuorumSet) (x : NodeId) : List NodeId :=
  if q.validators = [] then [x] else q.validators

theorem startFrom_nodup {q : QuorumSet} {x : NodeId} (h : q.validators.Nodup) :
    (startFrom q x).Nodup := by
  unfold startFrom
  split
  · exact List.nodup_singleton _
  · exact h

/-- The nodes that can be chosen. -/
def choosable (n : ℕ) (w : List ℕ) (vs : List NodeId) : Finset ℕ :=
  (Finset.range n).filter (fun y => y ∉ vs ∧ 0 < w.getD y 1)

theorem mem_choosable {n : ℕ} {w : List ℕ} {vs : List NodeId} {y : ℕ} :
    y ∈ choosable n w vs ↔ y < n ∧ y ∉ vs ∧ 0 < w.getD y 1 := by
  unfold choosable
  rw [Finset.mem_filter, Finset.mem_range]

theorem random_error_iff {size : ℕ} {t : Option ℕ} {w : List ℕ} {f : Fbas} {s : R.State} {x : NodeId}
    {q : QuorumSet} (hx : HasQSet f x q) :
    (∃ e, Qsc.random R size t w x (f, s) = .error e) ↔
      (startFrom q x).length < size ∧
        (choosable f.nodes.length w (startFrom q x)).card + (startFrom q x).length <
          min size f.nodes.length := by
  obtain ⟨hxn, hex⟩ := existing_eq hx
  unfold Qsc.random
  dsimp only
  rw [hex]
  dsimp only
  have hvs : (if q.validators = [] then [x] else q.validators) = startFrom q x := rfl
  rw [hvs]
  by_cases hlt : (startFrom q x).length < size
  · rw [if_pos hlt, and_iff_right hlt]
    have hcard : ((((rangeFT 0 f.nodes.length).filter (fun y => decide (y ∉ startFrom q x))).filter
        (fun y => decide (0 < w.getD y 1)))).length =
        (choosable f.nodes.length w (startFrom q x)).card := by
      rw [← List.toFinset_card_of_nodup (((nodup_rangeFT _ _).filter _).filter _)]
      congr 1
      ext y
      rw [List.mem_toFinset, List.mem_filter, List.mem_filter, mem_rangeFT, mem_choosable,
        decide_eq_true_eq, decide_eq_true_eq]
      exact ⟨fun h => ⟨h.1.1.2, h.1.2, h.2⟩, fun h => ⟨⟨⟨Nat.zero_le _, h.1⟩, h.2.1⟩, h.2.2⟩⟩
    have hiff := randomLoop_error (R := R) (weights := w)
      (k := min size f.nodes.length - (startFrom q x).length) (vs := startFrom q x) (s := s)
      ((nodup_rangeFT 0 f.nodes.length).filter (fun y => decide (y ∉ startFrom q x)))
    rw [hcard] at hiff
    have hiff' : (∃ e, Qsc.randomLoop R w (min size f.nodes.length - (startFrom q x).length)
        ((rangeFT 0 f.nodes.length).filter (fun y => decide (y ∉ startFrom q x))) (startFrom q x) s =
          .error e) ↔ (choosable f.nodes.length w (startFrom q x)).card + (startFrom q x).length <
          min size f.nodes.length := hiff.trans (by omega)
    rw [← hiff']
    cases Qsc.randomLoop R w (min size f.nodes.length - (startFrom q x).length)
        ((rangeFT 0 f.nodes.length).filter (fun y => decide (y ∉ startFrom q x))) (startFrom q x) s with
    | error e => exact ⟨fun _ => ⟨e, rfl⟩, fun _ => ⟨e, rfl⟩⟩
    | ok p =>
      refine ⟨fun ⟨e, he⟩ => ?_, fun ⟨e, he⟩ => by cases he⟩
      exfalso
      dsimp only at he
      obtain ⟨f1, g1, -⟩ := swap_spec hxn
        { q with threshold := t.getD (Qsc.calculate67pThreshold (min size f.nodes.length)),
                 validators := p.1 }
      rw [g1] at he
      cases he
  · rw [if_neg hlt]
    refine ⟨fun ⟨e, he⟩ => ?_, fun h => absurd h.1 hlt⟩
    exfalso
    obtain ⟨f1, g1, -⟩ := swap_spec hxn { q with validators := startFrom q x }
    rw [g1] at he
    cases he

/-- `min size m` is at most 1, or enough nodes have a positive weight. -/
def EnoughWeight (size m : ℕ) (w : List ℕ) : Prop :=
  ∀ x < m, min size m ≤ 1 + (choosable m w [x]).card

theorem choosable_le {n n' : ℕ} {w : List ℕ} {vs vs' : List NodeId} (hn : n ≤ n')
    (hv : ∀ y, y < n → y ∉ vs → 0 < w.getD y 1 → y ∉ vs') :
    (choosable n w vs).card ≤ (choosable n' w vs').card := by
  refine Finset.card_le_card (fun y hy => ?_)
  rw [mem_choosable] at hy ⊢
  exact ⟨Nat.lt_of_lt_of_le hy.1 hn, hv y hy.1 hy.2.1 hy.2.2, hy.2.2⟩

/-- If the number of nodes is not larger than the wanted size, all of them are needed. -/
theorem enoughWeight_all {size m : ℕ} {w : List ℕ} (hm : 2 ≤ m) (hs : m ≤ size) :
    EnoughWeight size m w ↔ ∀ y < m, 0 < w.getD y 1 := by
  constructor
  · intro h y hy
    by_contra hw
    obtain ⟨x, hx, hxy⟩ : ∃ x < m, x ≠ y := by
      by_cases hy0 : y = 0
      · exact ⟨1, by omega, by omega⟩
      · exact ⟨0, by omega, by omega⟩
    have h1 := h x hx
    have h2 : choosable m w [x] ⊆ ((Finset.range m).erase x).erase y := by
      intro z hz
      rw [mem_choosable] at hz
      rw [Finset.mem_erase, Finset.mem_erase, Finset.mem_range]
      refine ⟨?_, fun h => hz.2.1 (h ▸ List.mem_singleton.2 rfl), hz.1⟩
      rintro rfl
      exact hw hz.2.2
    have h3 := Finset.card_le_card h2
    rw [Finset.card_erase_of_mem (Finset.mem_erase.2 ⟨fun h => hxy h.symm, Finset.mem_range.2 hy⟩),
      Finset.card_erase_of_mem (Finset.mem_range.2 hx), Finset.card_range] at h3
    omega
  · intro h x hx
    have h2 : (Finset.range m).erase x ⊆ choosable m w [x] := by
      intro z hz
      rw [Finset.mem_erase, Finset.mem_range] at hz
      rw [mem_choosable]
      exact ⟨hz.2, fun hm => hz.1 (List.mem_singleton.1 hm), h z hz.2⟩
    have h3 := Finset.card_le_card h2
    rw [Finset.card_erase_of_mem (Finset.mem_range.2 hx), Finset.card_range] at h3
    omega

/-- With positive weights of the first nodes, no choice fails. -/
theorem choosable_first {n k : ℕ} {w : List ℕ} (hk : k ≤ n) (h : ∀ y < k, 0 < w.getD y 1)
    (vs : List NodeId) : k ≤ (choosable n w vs).card + vs.length := by
  have h1 : Finset.range k ⊆ choosable n w vs ∪ vs.toFinset := by
    intro y hy
    rw [Finset.mem_range] at hy
    rw [Finset.mem_union, mem_choosable, List.mem_toFinset]
    by_cases hv : y ∈ vs
    · exact .inr hv
    · exact .inl ⟨Nat.lt_of_lt_of_le hy hk, hv, h y hy⟩
  have h2 := (Finset.card_le_card h1).trans (Finset.card_union_le _ _)
  rw [Finset.card_range] at h2
  exact h2.trans (Nat.add_le_add_left (List.toFinset_card_le _) _)

/-- If a node without weight is missing, not all nodes can be chosen. -/
theorem choosable_missing {n y : ℕ} {w : List ℕ} {vs : List NodeId} (hy : y < n)
    (hw : ¬ 0 < w.getD y 1) (hv : y ∉ vs) (hnd : vs.Nodup) (hr : ∀ v ∈ vs, (v : ℕ) < n) :
    (choosable n w vs).card + vs.length < n := by
  have h1 : choosable n w vs ∪ vs.toFinset ⊆ (Finset.range n).erase y := by
    intro z hz
    rw [Finset.mem_union, mem_choosable, List.mem_toFinset] at hz
    rw [Finset.mem_erase, Finset.mem_range]
    rcases hz with hz | hz
    · refine ⟨?_, hz.1⟩
      rintro rfl
      exact hw hz.2.2
    · exact ⟨fun h => hv (h ▸ hz), hr z hz⟩
  have h2 := Finset.card_le_card h1
  rw [Finset.card_union_of_disjoint (by
      rw [Finset.disjoint_left]
      intro z hz hz'
      exact (mem_choosable.1 hz).2.1 (List.mem_toFinset.1 hz')),
    List.toFinset_card_of_nodup hnd, Finset.card_erase_of_mem (Finset.mem_range.2 hy),
    Finset.card_range] at h2
  omega

/-- A random quorum set in which only the node itself may be without weight. -/
def WeightedTarget (size : ℕ) (t : Option ℕ) (w : List ℕ) (n : ℕ) (x : NodeId) (q : QuorumSet) : Prop :=
  RandomTarget size t n x q ∧ ∀ v ∈ q.validators, v = x ∨ 0 < w.getD v 1

/-- Like `steady_random`, with exactly the weights that are needed if there are `lo` nodes in the
beginning and `N` nodes in the end. -/
theorem steady_weighted (R : Rand) {size : ℕ} {t : Option ℕ} {w : List ℕ} {lo N : ℕ}
    (hw : EnoughWeight size (max lo (min size N)) w) (hsize : 2 ≤ size) :
    Steady (Qsc.random R size t w) N (fun n x q => lo ≤ n ∧ WeightedTarget size t w n x q)
      (fun n x q => q = QuorumSet.empty ∨ ∃ m ≤ n, lo ≤ m ∧ WeightedTarget size t w m x q) lo
    where
  empty _ _ := .inl rfl
  weaken n _ _ h := .inr ⟨n, Nat.le_refl n, h⟩
  grow n _ _ h := h.imp id (fun ⟨m, hm, h⟩ => ⟨m, Nat.le_succ_of_le hm, h⟩)
  step f s x hx hN hB := by
    obtain ⟨hlo, hN⟩ := hN
    obtain ⟨q, hex, hq⟩ := existing_ok hx
    rw [getQuorumSet_iff] at hq
    have hb := hB x q hq
    have hnd : q.validators.Nodup := by
      rcases hb with rfl | ⟨m, -, -, ⟨vs, rfl, h, -⟩, -⟩
      · exact List.nodup_nil
      · exact h
    have hr : ∀ v ∈ q.validators, v < f.nodes.length := by
      rcases hb with rfl | ⟨m, hm, -, ⟨vs, rfl, -, -, h, -⟩, -⟩
      · intro v hv; cases hv
      · exact fun v hv => Nat.lt_of_lt_of_le (h v hv) hm
    have hin : q.inner = [] := by
      rcases hb with rfl | ⟨m, -, -, ⟨vs, rfl, -⟩, -⟩ <;> rfl
    have hpos : 1 ≤ (startFrom q x).length := by
      unfold startFrom
      split
      · exact Nat.le_refl _
      · rename_i h; exact List.length_pos_iff.2 h
    by_cases hlt : q.validators.length < size
    · have hok : ∃ r, Qsc.random R size t w x (f, s) = .ok r := by
        cases hc : Qsc.random R size t w x (f, s) with
        | ok r => exact ⟨r, rfl⟩
        | error e =>
          exfalso
          obtain ⟨h1, h2⟩ := (random_error_iff hq).1 ⟨e, hc⟩
          by_cases hsl : size ≤ lo
          · rw [max_eq_left (Nat.le_trans (Nat.min_le_left _ _) hsl)] at hw
            rcases hb with rfl | ⟨m, -, hm, ⟨vs, rfl, -, -, -, h4⟩, -⟩
            · change (choosable f.nodes.length w [x]).card + 1 < min size f.nodes.length at h2
              by_cases hxl : x < lo
              · have h3 := hw x hxl
                have h4 : (choosable lo w [x]).card ≤ (choosable f.nodes.length w [x]).card :=
                  choosable_le hlo (fun _ _ h _ => h)
                omega
              · have h3 := hw 0 (by omega)
                have h4 : (choosable lo w [0]).card ≤ (choosable f.nodes.length w [x]).card :=
                  choosable_le hlo (fun y hy _ _ hm => by
                    rw [List.mem_singleton] at hm; exact hxl (hm ▸ hy))
                omega
            · change vs.length < size at hlt
              omega
          · have hm : max lo (min size N) = min size N := by omega
            rw [hm] at hw
            by_cases h3 : 2 ≤ min size f.nodes.length
            · have h4 := (enoughWeight_all (by omega) (Nat.min_le_left _ _)).1 hw
              have h5 := choosable_first (n := f.nodes.length) (k := min size f.nodes.length)
                (Nat.min_le_right _ _) (fun y hy => h4 y (by omega)) (startFrom q x)
              omega
            · omega
      obtain ⟨⟨c, f', s'⟩, h1⟩ := hok
      obtain ⟨-, vs, g1, g2, g3, g4, g5, g6, g10, g7, g8, g9⟩ :=
        C45_random_partial R size t w f f' s s' c x q hq hnd hr hlt hsize h1
      rw [hin] at g1
      refine ⟨c, f', s', _, h1, ⟨g8, g9⟩, ⟨hlo, ⟨vs, rfl, g2, ?_, g3, g6⟩, fun v hv => ?_⟩,
        fun y => ?_⟩
      · rcases hb with rfl | ⟨m, -, -, ⟨vs', rfl, -, h, -⟩, -⟩
        · exact g5 rfl
        · exact g4 x h
      · rcases g10 v hv with h | h
        · rcases hb with rfl | ⟨m, -, -, -, hv'⟩
          · cases h
          · exact hv' v h
        · exact h
      · split
        · rename_i hy; rw [hy]; exact getQuorumSet_iff.2 g1
        · rename_i hy
          refine Option.ext (fun q' => ?_)
          rw [getQuorumSet_iff, getQuorumSet_iff]; exact g7 y q' hy
    · rcases hb with rfl | ⟨m, hm, -, ⟨vs, rfl, h1, h2, h3, h4⟩, hv⟩
      · exfalso; exact hlt (Nat.lt_of_lt_of_le Nat.zero_lt_two hsize)
      · dsimp only at hlt
        have h5 : min size m = size := by omega
        have h6 : min size f.nodes.length = size := by omega
        rw [h5] at hq h4
        refine ⟨.noChange, f, s, _, ?_, ⟨rfl, rfl⟩, ⟨hlo, ⟨vs, rfl, h1, h2,
          fun v hv => Nat.lt_of_lt_of_le (h3 v hv) hm, by rw [h6, h4]⟩, hv⟩, fun y => ?_⟩
        · obtain ⟨-, hex⟩ := existing_eq hq
          unfold Qsc.random
          dsimp only
          rw [hex]
          dsimp only
          rw [if_neg (List.ne_nil_of_mem h2), if_neg hlt, setQuorumSet_same hq]
        · split
          · rename_i hy; rw [hy, h6]; exact getQuorumSet_iff.2 hq
          · rfl

/-! ### Failing choices -/

/-- A configurator that only changes the visited node, and panics for node `x` as long as it has the
quorum set `q` and there are `n` nodes. -/
structure Stuck (qsc : Qsc R) (n : ℕ) (x : NodeId) (q : QuorumSet) : Prop where
  error : ∀ f s, f.nodes.length = n → HasQSet f x q → ∃ e, qsc x (f, s) = .error e
  keeps : Keeps qsc
  others : ∀ y f s c f' s', y ≠ x → qsc y (f, s) = .ok (c, f', s') → HasQSet f x q → HasQSet f' x q

theorem Stuck.round {qsc : Qsc R} {n : ℕ} {x : NodeId} {q : QuorumSet} (h : Stuck qsc n x q)
    (order : List NodeId) (hx : x ∈ order) (c : ChangeEffect) (sim : Simulator R)
    (hn : sim.fbas.nodes.length = n) (he : HasQSet sim.fbas x q) :
    ∃ e, roundLoop qsc order (c, sim) = .error e := by
  induction order generalizing c sim with
  | nil => cases hx
  | cons y order ih =>
    rw [roundLoop]
    by_cases hy : y = x
    · subst hy
      obtain ⟨e, h1⟩ := h.error sim.fbas sim.rng hn he
      rw [h1]; exact ⟨e, rfl⟩
    · cases hq : qsc y (sim.fbas, sim.rng) with
      | error e => exact ⟨e, rfl⟩
      | ok p =>
        obtain ⟨d, f', s'⟩ := p
        have hx' : x ∈ order := (List.mem_cons.1 hx).resolve_left (fun h => hy h.symm)
        exact ih hx' _ _ ((h.keeps _ _ _ _ _ _ hq).length.trans hn) (h.others y _ _ _ _ _ hy hq he)

theorem Stuck.reevaluation {qsc : Qsc R} {n : ℕ} {x : NodeId} {q : QuorumSet} (h : Stuck qsc n x q)
    (max : ℕ) (hmax : 1 ≤ max) (sim : Simulator R) (hn : sim.fbas.nodes.length = n)
    (he : HasQSet sim.fbas x q) : ∃ e, simulateGlobalReevaluation qsc max sim = .error e := by
  obtain ⟨m, rfl⟩ : ∃ m, max = m + 1 := ⟨max - 1, by omega⟩
  have hx : x < sim.fbas.nodes.length := by
    obtain ⟨node, hn, -⟩ := he
    exact (List.getElem?_eq_some_iff.1 hn).1
  unfold simulateGlobalReevaluation
  dsimp only
  rw [reevaluationLoop]
  dsimp only
  rw [if_neg (by simp)]
  have hp := R.shuffle_perm (sim.registerEvent .startGlobalReevaluation).rng
    (rangeFT 0 sim.fbas.nodes.length)
  generalize R.shuffle (sim.registerEvent .startGlobalReevaluation).rng
    (rangeFT 0 sim.fbas.nodes.length) = p at hp ⊢
  obtain ⟨order, rng⟩ := p
  obtain ⟨e, h1⟩ := h.round order (hp.mem_iff.2 (mem_rangeFT.2 ⟨Nat.zero_le _, hx⟩)) .noChange
    (({ sim.registerEvent .startGlobalReevaluation with rng } : Simulator R).registerEvent
      .startGlobalReevaluationRound) hn he
  have h1' : simulateGlobalReevaluationRound qsc order
    ({ sim.registerEvent .startGlobalReevaluation with rng } : Simulator R) = .error e := h1
  dsimp only
  rw [h1']
  exact ⟨e, rfl⟩

theorem random_others {size : ℕ} {t : Option ℕ} {w : List ℕ} {x y : NodeId} {q : QuorumSet} {f f' : Fbas}
    {s s' : R.State} {c : ChangeEffect} (hy : y ≠ x)
    (h : Qsc.random R size t w y (f, s) = .ok (c, f', s')) (hq : HasQSet f x q) : HasQSet f' x q := by
  have key : ∀ q', Qsc.setQuorumSet f y q' = .ok f' → HasQSet f' x q := by
    intro q' h1
    have hyn : y < f.nodes.length := by
      by_contra hyn
      unfold Qsc.setQuorumSet Fbas.swapQuorumSet at h1
      rw [List.getElem?_eq_none (Nat.le_of_not_lt hyn)] at h1
      cases h1
    obtain ⟨f1, g1, -, g3⟩ := swap_spec hyn q'
    rw [g1] at h1
    cases h1
    rw [← getQuorumSet_iff, g3, if_neg (fun h => hy h.symm), getQuorumSet_iff]
    exact hq
  unfold Qsc.random at h
  dsimp only at h
  split at h
  · cases h
  · rename_i q0 _
    generalize (if q0.validators = [] then [y] else q0.validators) = vs at h
    split at h
    · split at h
      · cases h
      · split at h
        · cases h
        · rename_i h1
          cases h
          exact key _ h1
    · split at h
      · cases h
      · rename_i h1
        cases h
        exact key _ h1

theorem stuck_random {size : ℕ} {t : Option ℕ} {w : List ℕ} {n : ℕ} {x : NodeId} {q : QuorumSet}
    (h1 : (startFrom q x).length < size)
    (h2 : (choosable n w (startFrom q x)).card + (startFrom q x).length < min size n) :
    Stuck (Qsc.random R size t w) n x q where
  error f s hn hx := (random_error_iff hx).2 ⟨h1, by rw [hn]; exact h2⟩
  keeps := keeps_random size t w
  others _ _ _ _ _ _ hy h hq := random_others hy h hq

theorem simulateGrowth_add (qsc : Qsc R) (a b : ℕ) (sim sim' : Simulator R)
    (h : simulateGrowth qsc a sim = .ok sim') :
    simulateGrowth qsc (a + b) sim = simulateGrowth qsc b sim' := by
  induction a generalizing sim with
  | zero => cases h; rw [Nat.zero_add]
  | succ a ih =>
    rw [Nat.add_right_comm, simulateGrowth]
    rw [simulateGrowth] at h
    split at h
    · cases h
    · split at h
      · cases h
      · dsimp only at h ⊢
        split at h
        · cases h
        · exact ih _ h

/-- Without enough weight, the simulation panics. -/
theorem weighted_error {size : ℕ} {t : Option ℕ} {w : List ℕ} {i g : ℕ} {s : R.State} (hsize : 2 ≤ size)
    (hw : ¬ EnoughWeight size (max i (min size (i + g))) w) :
    ∃ e, QscSimulator.simulate (Qsc.random R size t w) i g s = .error e := by
  -- a panic while the first nodes are configured
  have initial : ∀ x < i, (choosable i w [x]).card + 1 < min size i →
      ∃ e, QscSimulator.simulate (Qsc.random R size t w) i g s = .error e := by
    intro x hxi hx
    obtain ⟨f0, h1, h2, h3⟩ := C40_new_generic_unconfigured i
    have hl : f0.nodes.length = i := by rw [h2]; simp
    have he : HasQSet f0 x QuorumSet.empty := by
      refine ⟨⟨"n" ++ toString x, QuorumSet.empty⟩, ?_, rfl⟩
      rw [h2]; simp [hxi]
    obtain ⟨e, h4⟩ := (stuck_random (R := R) (size := size) (t := t) (w := w) (n := i) (x := x)
      (q := QuorumSet.empty) (by change 1 < size; omega) hx).reevaluation i (by omega)
      ⟨f0, [], s⟩ hl he
    unfold QscSimulator.simulate
    rw [h1]
    dsimp only
    rw [h4]
    exact ⟨e, rfl⟩
  by_cases hi : min size (i + g) ≤ i
  · rw [max_eq_left hi] at hw
    unfold EnoughWeight at hw
    push Not at hw
    obtain ⟨x, hxi, hx⟩ := hw
    exact initial x hxi (by omega)
  · have hm : max i (min size (i + g)) = min size (i + g) := by omega
    rw [hm] at hw
    have hm2 : 2 ≤ min size (i + g) := by
      by_contra hc
      apply hw
      intro x hx
      omega
    rw [enoughWeight_all hm2 (Nat.min_le_left _ _)] at hw
    -- the first node without weight
    have hex : ∃ y, y < min size (i + g) ∧ ¬ 0 < w.getD y 1 := by
      by_contra hc
      exact hw (fun y hy => by by_contra h; exact hc ⟨y, hy, h⟩)
    obtain ⟨y, ⟨hy, hy0⟩, hleast⟩ :
        ∃ y, (y < min size (i + g) ∧ ¬ 0 < w.getD y 1) ∧ ∀ z < y, 0 < w.getD z 1 := by
      classical
      refine ⟨Nat.find hex, Nat.find_spec hex, fun z hz => ?_⟩
      by_contra hc
      exact Nat.find_min hex hz ⟨Nat.lt_trans hz (Nat.find_spec hex).1, hc⟩
    by_cases hyi : y < i ∧ 2 ≤ i
    · obtain ⟨x, hx, hxy⟩ : ∃ x < i, x ≠ y := by
        by_cases hy1 : y = 0
        · exact ⟨1, by omega, by omega⟩
        · exact ⟨0, by omega, by omega⟩
      refine initial x hx ?_
      have := choosable_missing (n := i) (w := w) (vs := [x]) hyi.1 hy0
        (fun h => hxy (List.mem_singleton.1 h).symm) (List.nodup_singleton _)
        (fun v hv => by rw [List.mem_singleton.1 hv]; exact hx)
      rw [List.length_singleton] at this
      omega
    · -- with `k` nodes, nothing has happened yet
      obtain ⟨k, hk1, hk⟩ : ∃ k, 1 ≤ k ∧ k = max y 1 := ⟨_, le_max_right _ _, rfl⟩
      have hik : i ≤ k := by omega
      have hkN : k + 1 ≤ min size (i + g) := by omega
      have henough : EnoughWeight size (max i (min size k)) w := by
        have h1 : max i (min size k) = k := by omega
        rw [h1]
        by_cases hk2 : 2 ≤ k
        · exact (enoughWeight_all hk2 (by omega)).2 (fun z hz => hleast z (by omega))
        · intro x hx; omega
      have hst := steady_weighted R (t := t) (lo := i) (N := k) henough hsize
      obtain ⟨a, ha⟩ : ∃ a, k = i + a := ⟨k - i, by omega⟩
      obtain ⟨b, hb⟩ : ∃ b, g = a + (b + 1) := ⟨g - a - 1, by omega⟩
      obtain ⟨f0, h1, h2, h3⟩ := C40_new_generic_unconfigured i
      have hl : f0.nodes.length = i := by rw [h2]; simp
      have hn0 : f0.nodes.map Node.publicKey = (List.range i).map (fun i => "n" ++ toString i) := by
        rw [h2, List.map_map]; rfl
      obtain ⟨r, sim1, g1, g2, g3⟩ := hst.reevaluation i ⟨f0, [], s⟩
        (by show f0.nodes.length ≤ k; rw [hl]; exact hik)
        (by
          rintro y q ⟨node, hn, rfl⟩
          have := List.mem_of_getElem? hn
          rw [h2] at this
          obtain ⟨j, -, rfl⟩ := List.mem_map.1 this
          exact hst.empty _ _)
        (by
          rcases Nat.eq_zero_or_pos i with hi | hi
          · right
            rintro y q ⟨node, hn, -⟩
            have := (List.getElem?_eq_some_iff.1 hn).1
            rw [hl, hi] at this
            exact absurd this (Nat.not_lt_zero _)
          · exact .inl hi)
        (by show i ≤ f0.nodes.length; rw [hl])
      have g3' : ∀ y q, HasQSet sim1.fbas y q →
        i ≤ f0.nodes.length ∧ WeightedTarget size t w f0.nodes.length y q := g3
      have g2' : SameNames f0 sim1.fbas := g2
      rw [hl] at g3'
      obtain ⟨sim2, e1, e2, e3, e4⟩ := hst.growth a i (by omega) sim1 (g2'.registry h3)
        (by rw [g2'.1, hn0]) g3' (Nat.le_refl _)
      rw [← ha] at e3 e4
      have hl2 : sim2.fbas.nodes.length = k := by
        have := congrArg List.length e3; simpa using this
      have hfinal : ∃ e, simulateGrowth (Qsc.random R size t w) (b + 1) sim2 = .error e := by
        rw [simulateGrowth]
        obtain ⟨-, u2⟩ := C40_add_generic_node sim2.fbas e2 QuorumSet.empty
        cases hr : sim2.fbas.addGenericNode QuorumSet.empty with
        | error e => exact ⟨e, rfl⟩
        | ok p =>
          obtain ⟨z, f⟩ := p
          obtain ⟨u3, u4, u5⟩ := u2 z f hr
          have hz : z = k := by rw [u3, hl2]
          subst hz
          dsimp only
          have hfl : f.nodes.length = z + 1 := by rw [u4]; simp [hl2]
          have hze : HasQSet f z QuorumSet.empty := by
            refine ⟨⟨"n" ++ toString sim2.fbas.nodes.length, QuorumSet.empty⟩, ?_, rfl⟩
            rw [u4, List.getElem?_append_right (by rw [hl2]), hl2]; simp
          by_cases hyz : y = z
          · cases hc : Qsc.random R size t w z (f, sim2.rng) with
            | error e => exact ⟨e, rfl⟩
            | ok p =>
              obtain ⟨c, f', s'⟩ := p
              dsimp only
              -- node 0 cannot choose the new node
              have h0 : 0 < sim2.fbas.nodes.length := by rw [hl2]; exact hk1
              obtain ⟨q0, -, hq0⟩ := existing_ok h0
              rw [getQuorumSet_iff] at hq0
              obtain ⟨-, ⟨vs, rfl, v1, v2, v3, v4⟩, -⟩ := e4 0 q0 hq0
              have hq1 : HasQSet f 0 ⟨t.getD (Qsc.calculate67pThreshold (min size z)), vs, []⟩ := by
                obtain ⟨node, hn, hnq⟩ := hq0
                refine ⟨node, ?_, hnq⟩
                rw [u4, List.getElem?_append_left h0]; exact hn
              have hq2 := random_others (Nat.ne_of_gt hk1) hc hq1
              have hstart : startFrom ⟨t.getD (Qsc.calculate67pThreshold (min size z)), vs, []⟩ 0 =
                  vs := by
                unfold startFrom
                exact if_neg (List.ne_nil_of_mem v2)
              have hlen : f'.nodes.length = z + 1 :=
                ((keeps_random size t w) _ _ _ _ _ _ hc).length.trans hfl
              have hmiss := choosable_missing (n := z + 1) (w := w) (vs := vs)
                (Nat.lt_succ_self z) (hyz ▸ hy0) (fun h => Nat.lt_irrefl _ (v3 z h)) v1
                (fun v hv => Nat.lt_succ_of_lt (v3 v hv))
              have hstuck : Stuck (Qsc.random R size t w) (z + 1) 0
                  ⟨t.getD (Qsc.calculate67pThreshold (min size z)), vs, []⟩ :=
                stuck_random (by rw [hstart, v4]; omega) (by rw [hstart]; omega)
              obtain ⟨e, he⟩ := hstuck.reevaluation
                (({ sim2 with fbas := f', rng := s' } : Simulator R).registerEvent
                  (.addNode z)).fbas.numberOfNodes
                (by show 1 ≤ f'.nodes.length; rw [hlen]; omega)
                (({ sim2 with fbas := f', rng := s' } : Simulator R).registerEvent (.addNode z))
                hlen hq2
              rw [he]
              exact ⟨e, rfl⟩
          · have hmiss := choosable_missing (n := z + 1) (y := y) (w := w) (vs := [z])
              (by omega) hy0 (fun h => hyz (List.mem_singleton.1 h))
              (List.nodup_singleton _) (fun v hv => by
                rw [List.mem_singleton.1 hv]; exact Nat.lt_succ_self z)
            rw [List.length_singleton] at hmiss
            obtain ⟨e, he⟩ := (random_error_iff (R := R) (size := size) (t := t) (w := w)
              (s := sim2.rng) hze).2 ⟨by change 1 < size; omega, by
                rw [hfl]
                change (choosable (z + 1) w [z]).card + 1 < _
                omega⟩
            rw [he]
            exact ⟨e, rfl⟩
      obtain ⟨e, he⟩ := hfinal
      unfold QscSimulator.simulate
      rw [h1]
      dsimp only
      rw [g1]
      dsimp only
      rw [hb, simulateGrowth_add _ a (b + 1) sim1 sim2 e1, he]
      exact ⟨e, rfl⟩

end FA
