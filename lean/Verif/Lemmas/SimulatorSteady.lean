import Verif.Lemmas.SimulatorPolicies
import Mathlib.Logic.Relation

/-!
# What the policies of `qsc_simulator` lead to
-/

namespace FA
open Spec Simulator Props

variable {R : Rand}

theorem steady_targets {qsc : Qsc R} {cand : ℕ → QuorumSet} (h : Targets qsc cand) (N : ℕ) :
    Steady qsc N (fun n _ q => q = cand n) (fun _ _ _ => True) where
  empty _ _ := trivial
  weaken _ _ _ _ := trivial
  grow _ _ _ _ := trivial
  step f s x hx _ _ := by
    rw [h]
    obtain ⟨c, f', h1, h2, h3, -⟩ := replace_spec (s := s) hx (cand f.nodes.length)
    exact ⟨c, f', s, _, h1, h2, rfl, h3⟩

theorem steady_oneShot {qsc : Qsc R} {N : ℕ} {target : NodeId → QuorumSet}
    (h : OneShot qsc N target) :
    Steady qsc N (fun _ x q => q = target x)
      (fun _ x q => q = QuorumSet.empty ∨ q = target x) where
  empty _ _ := .inl rfl
  weaken _ _ _ h := .inr h
  grow _ _ _ h := h
  step f s x hx hN hB := by
    obtain ⟨h1, h2⟩ := h f s x hx (Nat.lt_of_lt_of_le hx hN.2)
    obtain ⟨q, -, hq⟩ := existing_ok hx
    rw [getQuorumSet_iff] at hq
    rcases hB x q hq with rfl | rfl
    · obtain ⟨c, f', s', e1, e2, e3⟩ := h1 hq
      exact ⟨c, f', s', _, e1, e2, rfl, e3⟩
    · obtain ⟨c, s', e1⟩ := h2 hq
      refine ⟨c, f, s', _, e1, ⟨rfl, rfl⟩, rfl, fun y => ?_⟩
      split
      · rename_i hy; rw [hy]; exact getQuorumSet_iff.2 hq
      · rfl

/-! ### Graph based policies with nodes outside of the graph -/

theorem not_connected {g : Graph} (hg : LinksInRange g) {x : NodeId}
    (hx : g.outlinks.length ≤ x) : x ∉ g.getConnectedNodes := by
  intro h
  rcases mem_getConnectedNodes.1 h with ⟨j, l, hl, -⟩ | ⟨i, hi⟩
  · exact absurd (List.getElem?_eq_some_iff.1 hl).1 (Nat.not_lt.2 hx)
  · exact absurd (hg i x hi) (Nat.not_lt.2 hx)

theorem oneShot_extend {qsc : Qsc R} {g : Graph} {target : NodeId → QuorumSet}
    (h : OneShot qsc g.outlinks.length target)
    (h' : ∀ (f : Fbas) (s : R.State) (x : NodeId), x < f.nodes.length → g.outlinks.length ≤ x →
      qsc x (f, s) = .ok (.noChange, f, s) ∧ target x = QuorumSet.empty) (N : ℕ) :
    OneShot qsc N target := by
  intro f s x hx _
  by_cases hxg : x < g.outlinks.length
  · exact h f s x hx hxg
  · obtain ⟨h1, h2⟩ := h' f s x hx (Nat.le_of_not_lt hxg)
    rw [h2]
    refine ⟨fun he => ⟨.noChange, f, s, h1, ⟨rfl, rfl⟩, fun y => ?_⟩, fun _ => ⟨.noChange, s, h1⟩⟩
    split
    · rename_i hy; rw [hy]; exact getQuorumSet_iff.2 he
    · rfl

theorem neighbors_oneShot_all (R : Rand) {g : Graph} (hg : LinksInRange g) (rel : Option ℚ) (N : ℕ) :
    OneShot (Qsc.allNeighbors R g rel) N (neighborsTarget g rel) := by
  refine oneShot_extend (neighbors_oneShot R g rel) (fun f s x hx hxg => ?_) N
  have hc := not_connected hg hxg
  refine ⟨?_, by unfold neighborsTarget; rw [if_neg hc]⟩
  obtain ⟨q, -, hq⟩ := existing_ok hx
  rw [getQuorumSet_iff] at hq
  exact C46_no_change R g rel f s x _ hq (.inr (fun h => hc (mem_getConnectedNodes.2 h)))

theorem tier_oneShot_all (R : Rand) {g : Graph} (hg : LinksInRange g) {sc : List ℚ}
    (hsc : sc.length = g.outlinks.length) (rel : Option ℚ) (N : ℕ) :
    OneShot (Qsc.higherTierNeighbors R g sc rel false) N (tierTarget g sc rel) := by
  refine oneShot_extend (tier_oneShot R hg hsc rel) (fun f s x hx hxg => ?_) N
  have hc := not_connected hg hxg
  refine ⟨?_, by unfold tierTarget; rw [if_neg hc]⟩
  unfold Qsc.higherTierNeighbors
  rw [if_neg hc]

/-- With `symmetry_enforcing`, a node has itself and the preferred neighbours as validators, and further
nodes only if they are reached via preferred neighbours. -/
def SymTarget (g : Graph) (sc : List ℚ) (rel : Option ℚ) (x : NodeId) (q : QuorumSet) : Prop :=
  if x ∈ g.getConnectedNodes then
    ∃ vs : List NodeId, q = ⟨Qsc.calculateThreshold vs.length rel, vs, []⟩ ∧ vs.Pairwise (· < ·) ∧
      x ∈ vs ∧ (∀ y, Preferred g (scoreOf sc) x y → y ∈ vs) ∧
      ∀ y ∈ vs, Relation.ReflTransGen (Preferred g (scoreOf sc)) x y
  else q = QuorumSet.empty

theorem steady_symmetric (R : Rand) {g : Graph} (hg : LinksInRange g) {sc : List ℚ}
    (hsc : sc.length = g.outlinks.length) (rel : Option ℚ) (N : ℕ) :
    Steady (Qsc.higherTierNeighbors R g sc rel true) N (fun _ x q => SymTarget g sc rel x q)
      (fun _ x q => q = QuorumSet.empty ∨ SymTarget g sc rel x q) where
  empty _ _ := .inl rfl
  weaken _ _ _ h := .inr h
  grow _ _ _ h := h
  step f s x hx hN hB := by
    by_cases hc : x ∈ g.getConnectedNodes
    · have hxg : x < g.outlinks.length := by
        by_contra h; exact not_connected hg (Nat.le_of_not_lt h) hc
      rw [higherTier_eq R hg hsc rel true f s hxg, if_pos hc]
      obtain ⟨c, f', h1, h2, h3, -⟩ := replace_spec (s := s) hx
        ⟨Qsc.calculateThreshold (tierValidators g sc f true x).length rel,
          tierValidators g sc f true x, []⟩
      refine ⟨c, f', s, _, h1, h2, ?_, h3⟩
      unfold SymTarget
      rw [if_pos hc]
      have hnd : (tierValidators g sc f true x).Nodup := nodup_tierValidators (.inl rfl)
      have hso : (tierValidators g sc f true x).Pairwise (· ≤ ·) := sortIds_pairwise _
      refine ⟨_, rfl, ?_, mem_tierValidators.2 (.inl rfl), fun y hy => ?_, fun y hy => ?_⟩
      · exact (hso.and hnd).imp (fun h => Nat.lt_of_le_of_ne h.1 h.2)
      · exact mem_tierValidators.2 (.inr (by rw [if_pos rfl]; exact .inl hy))
      · rcases mem_tierValidators.1 hy with rfl | h
        · exact .refl
        · rw [if_pos rfl] at h
          rcases h with h | ⟨z, q, hz, hq, hmx, hmy⟩
          · exact .single h
          · refine .head hz ?_
            rcases hB z q hq with rfl | hs
            · cases hmy with
              | validator h => cases h
              | inner h => cases h
            · unfold SymTarget at hs
              split at hs
              · obtain ⟨vs, rfl, -, -, -, hv⟩ := hs
                cases hmy with
                | validator h => exact hv y h
                | inner h => cases h
              · rw [hs] at hmy
                cases hmy with
                | validator h => cases h
                | inner h => cases h
    · have heq : Qsc.higherTierNeighbors R g sc rel true x (f, s) = .ok (.noChange, f, s) := by
        unfold Qsc.higherTierNeighbors; rw [if_neg hc]
      obtain ⟨q, -, hq⟩ := existing_ok hx
      have hq' := getQuorumSet_iff.1 hq
      have hqe : q = QuorumSet.empty := by
        rcases hB x q hq' with h | h
        · exact h
        · unfold SymTarget at h; rwa [if_neg hc] at h
      refine ⟨.noChange, f, s, q, heq, ⟨rfl, rfl⟩, ?_, fun y => ?_⟩
      · unfold SymTarget; rw [if_neg hc]; exact hqe
      · split
        · rename_i hy; rw [hy]; exact hq
        · rfl

/-! ### Random quorum sets -/

/-- A random quorum set of `min size n` different nodes, including `x`. -/
def RandomTarget (size : ℕ) (t : Option ℕ) (n : ℕ) (x : NodeId) (q : QuorumSet) : Prop :=
  ∃ vs : List NodeId, q = ⟨t.getD (Qsc.calculate67pThreshold (min size n)), vs, []⟩ ∧ vs.Nodup ∧
    x ∈ vs ∧ (∀ v ∈ vs, v < n) ∧ vs.length = min size n

theorem random_step (R : Rand) {size : ℕ} {t : Option ℕ} {w : List ℕ} (hw : ∀ y, 0 < w.getD y 1)
    {f : Fbas} {s : R.State} {x : NodeId} {q : QuorumSet} (hx : HasQSet f x q)
    (hnd : q.validators.Nodup) (hr : ∀ v ∈ q.validators, v < f.nodes.length)
    : ∃ r, Qsc.random R size t w x (f, s) = .ok r := by
  have hxn : x < f.nodes.length := by
    obtain ⟨node, hn, -⟩ := hx
    exact (List.getElem?_eq_some_iff.1 hn).1
  obtain ⟨-, hex⟩ := existing_eq hx
  unfold Qsc.random
  dsimp only
  rw [hex]
  dsimp only
  have hv0nd : (if q.validators = [] then [x] else q.validators).Nodup := by split <;> simp [hnd]
  have hv0r : ∀ v ∈ (if q.validators = [] then [x] else q.validators), v < f.nodes.length := by
    split
    · simpa using hxn
    · exact hr
  generalize (if q.validators = [] then [x] else q.validators) = vs0 at hv0nd hv0r
  by_cases hlt : vs0.length < size
  · rw [if_pos hlt]
    cases hl : Qsc.randomLoop R w (min size f.nodes.length - vs0.length)
      ((rangeFT 0 f.nodes.length).filter (fun x => decide (x ∉ vs0))) vs0 s with
    | error e =>
      exfalso
      have h1 := (randomLoop_error (R := R) (weights := w) ((nodup_rangeFT _ _).filter _)).1 ⟨e, hl⟩
      rw [List.filter_eq_self.2 (by intro a _; simpa using hw a)] at h1
      have h2 : ((rangeFT 0 f.nodes.length).filter (fun x => decide (x ∉ vs0))).length +
          vs0.length = f.nodes.length := by
        have h3 : (rangeFT 0 f.nodes.length).length =
            ((rangeFT 0 f.nodes.length).filter (fun x => decide (x ∈ vs0))).length +
            ((rangeFT 0 f.nodes.length).filter (fun x => decide (x ∉ vs0))).length := by
          refine (List.length_eq_length_filter_add (fun x => decide (x ∈ vs0))).trans ?_
          congr 2
          exact List.filter_congr (fun a _ => by simp)
        have h4 : ((rangeFT 0 f.nodes.length).filter (fun x => decide (x ∈ vs0))).Perm vs0 := by
          refine (List.perm_ext_iff_of_nodup ((nodup_rangeFT _ _).filter _) hv0nd).2 (fun a => ?_)
          rw [List.mem_filter, decide_eq_true_eq, mem_rangeFT]
          exact ⟨fun h => h.2, fun h => ⟨⟨Nat.zero_le _, hv0r a h⟩, h⟩⟩
        have h5 : (rangeFT 0 f.nodes.length).length = f.nodes.length := by
          rw [rangeFT_zero]; simp
        rw [h5, h4.length_eq] at h3
        rw [Nat.add_comm]; exact h3.symm
      have key : ∀ a b c n : ℕ, a + b = n → a < min c n - b → False := by omega
      exact key _ _ _ _ h2 h1
    | ok p =>
      dsimp only
      obtain ⟨f1, g1, -⟩ := swap_spec hxn
        { q with threshold := t.getD (Qsc.calculate67pThreshold (min size f.nodes.length)),
                 validators := p.1 }
      rw [g1]
      exact ⟨_, rfl⟩
  · rw [if_neg hlt]
    obtain ⟨f1, g1, -⟩ := swap_spec hxn { q with validators := vs0 }
    rw [g1]
    exact ⟨_, rfl⟩

theorem steady_random (R : Rand) {size : ℕ} {t : Option ℕ} {w : List ℕ} (hw : ∀ y, 0 < w.getD y 1)
    (hsize : 2 ≤ size) (N : ℕ) :
    Steady (Qsc.random R size t w) N (RandomTarget size t)
      (fun n x q => q = QuorumSet.empty ∨ ∃ m ≤ n, RandomTarget size t m x q) where
  empty _ _ := .inl rfl
  weaken n _ _ h := .inr ⟨n, Nat.le_refl n, h⟩
  grow n _ _ h := h.imp id (fun ⟨m, hm, h⟩ => ⟨m, Nat.le_succ_of_le hm, h⟩)
  step f s x hx _ hB := by
    obtain ⟨q, hex, hq⟩ := existing_ok hx
    rw [getQuorumSet_iff] at hq
    have hb := hB x q hq
    have hnd : q.validators.Nodup := by
      rcases hb with rfl | ⟨m, -, vs, rfl, h, -⟩
      · exact List.nodup_nil
      · exact h
    have hr : ∀ v ∈ q.validators, v < f.nodes.length := by
      rcases hb with rfl | ⟨m, hm, vs, rfl, -, -, h, -⟩
      · intro v hv; cases hv
      · exact fun v hv => Nat.lt_of_lt_of_le (h v hv) hm
    have hin : q.inner = [] := by
      rcases hb with rfl | ⟨m, -, vs, rfl, -⟩ <;> rfl
    by_cases hlt : q.validators.length < size
    · obtain ⟨⟨c, f', s'⟩, h1⟩ := random_step R (size := size) (t := t) (s := s) hw hq hnd hr
      obtain ⟨-, vs, g1, g2, g3, g4, g5, g6, -, g7, g8, g9⟩ :=
        C45_random_partial R size t w f f' s s' c x q hq hnd hr hlt hsize h1
      rw [hin] at g1
      refine ⟨c, f', s', _, h1, ⟨g8, g9⟩, ⟨vs, rfl, g2, ?_, g3, g6⟩, fun y => ?_⟩
      · rcases hb with rfl | ⟨m, -, vs', rfl, -, h, -⟩
        · exact g5 rfl
        · exact g4 x h
      · split
        · rename_i hy; rw [hy]; exact getQuorumSet_iff.2 g1
        · rename_i hy
          refine Option.ext (fun q' => ?_)
          rw [getQuorumSet_iff, getQuorumSet_iff]; exact g7 y q' hy
    · rcases hb with rfl | ⟨m, hm, vs, rfl, h1, h2, h3, h4⟩
      · exfalso; exact hlt (Nat.lt_of_lt_of_le Nat.zero_lt_two hsize)
      · dsimp only at hlt
        have h5 : min size m = size := by omega
        have h6 : min size f.nodes.length = size := by omega
        rw [h5] at hq h4
        refine ⟨.noChange, f, s, _, ?_, ⟨rfl, rfl⟩, ⟨vs, rfl, h1, h2,
          fun v hv => Nat.lt_of_lt_of_le (h3 v hv) hm, by rw [h6, h4]⟩, fun y => ?_⟩
        · obtain ⟨-, hex⟩ := existing_eq hq
          unfold Qsc.random
          dsimp only
          rw [hex]
          dsimp only
          rw [if_neg (List.ne_nil_of_mem h2), if_neg hlt, setQuorumSet_same hq]
        · split
          · rename_i hy; rw [hy, h6]; exact getQuorumSet_iff.2 hq
          · rfl

theorem steady_random_small (R : Rand) {size : ℕ} (t : Option ℕ) (w : List ℕ)
    (hsize : size ≤ 1) (N : ℕ) :
    Steady (Qsc.random R size t w) N (fun _ x q => q = ⟨0, [x], []⟩)
      (fun _ x q => q = QuorumSet.empty ∨ q = ⟨0, [x], []⟩) where
  empty _ _ := .inl rfl
  weaken _ _ _ h := .inr h
  grow _ _ _ h := h
  step f s x hx _ hB := by
    obtain ⟨q, hex, hq⟩ := existing_ok hx
    rw [getQuorumSet_iff] at hq
    have hv : (if q.validators = [] then [x] else q.validators) = [x] := by
      rcases hB x q hq with rfl | rfl
      · rfl
      · exact if_neg (by simp)
    obtain ⟨f1, g1, g2, g3⟩ := swap_spec hx { q with validators := [x] }
    have hq' : ({ q with validators := [x] } : QuorumSet) = ⟨0, [x], []⟩ := by
      rcases hB x q hq with rfl | rfl <;> rfl
    refine ⟨.noChange, f1, s, _, ?_, g2, hq', g3⟩
    unfold Qsc.random
    dsimp only
    rw [hex]
    dsimp only
    rw [hv, if_neg (by simp; omega), g1]

/-! ### GlobalRank -/

theorem topTierNodes_ok (rnd : ℚ → ℚ) {g : Graph} (hg : LinksInRange g) :
    ∃ T, Qsc.topTierNodes rnd g = .ok T ∧ T.Nodup ∧ T.Pairwise (· < ·) ∧
      ∀ i ∈ T, i < g.outlinks.length := by
  obtain ⟨h1, h2⟩ := C66_panics_iff rnd g
  cases hs : g.getRankScores rnd with
  | error e => exact absurd hg (h1.1 ⟨e, hs⟩)
  | ok sc =>
    have hlen := h2 sc hs
    unfold Qsc.topTierNodes
    dsimp only
    rw [hs]
    dsimp only
    rw [mapE_ok (g := fun i => getE sc i) (h := fun i => sc.getD i 0) (fun i hi => by
      have hi' := (mem_rangeFT.1 hi).2
      rw [← hlen] at hi'
      unfold getE; rw [List.getElem?_eq_getElem hi']; simp [hi'])]
    refine ⟨_, rfl, (nodup_rangeFT _ _).filter _, ?_, fun i hi => ?_⟩
    · refine List.Pairwise.filter _ ?_
      rw [rangeFT_zero]; exact List.pairwise_lt_range
    · exact (mem_rangeFT.1 (List.mem_filter.1 hi).1).2

/-- A configurator that only changes the visited node, and panics for the unconfigured node `x`. -/
def Trips (qsc : Qsc R) (x : NodeId) : Prop :=
  (∀ f s, HasQSet f x QuorumSet.empty → ∃ e, qsc x (f, s) = .error e) ∧
    ∀ y f s c f' s', y ≠ x → qsc y (f, s) = .ok (c, f', s') → HasQSet f x QuorumSet.empty →
      HasQSet f' x QuorumSet.empty

theorem Trips.round {qsc : Qsc R} {x : NodeId} (h : Trips qsc x) (order : List NodeId)
    (hx : x ∈ order) (c : ChangeEffect) (sim : Simulator R)
    (he : HasQSet sim.fbas x QuorumSet.empty) : ∃ e, roundLoop qsc order (c, sim) = .error e := by
  induction order generalizing c sim with
  | nil => cases hx
  | cons y order ih =>
    rw [roundLoop]
    by_cases hy : y = x
    · subst hy
      obtain ⟨e, h1⟩ := h.1 sim.fbas sim.rng he
      rw [h1]; exact ⟨e, rfl⟩
    · cases hq : qsc y (sim.fbas, sim.rng) with
      | error e => exact ⟨e, rfl⟩
      | ok p =>
        obtain ⟨d, f', s'⟩ := p
        have hx' : x ∈ order := (List.mem_cons.1 hx).resolve_left (fun h => hy h.symm)
        exact ih hx' _ _ (h.2 y _ _ _ _ _ hy hq he)

theorem Trips.reevaluation {qsc : Qsc R} {x : NodeId} (h : Trips qsc x) (max : ℕ) (hmax : 1 ≤ max)
    (sim : Simulator R) (he : HasQSet sim.fbas x QuorumSet.empty) :
    ∃ e, simulateGlobalReevaluation qsc max sim = .error e := by
  obtain ⟨m, rfl⟩ : ∃ m, max = m + 1 := ⟨max - 1, by omega⟩
  have hx : x < sim.fbas.nodes.length := by
    obtain ⟨node, hn, -⟩ := he
    exact (List.getElem?_eq_some_iff.1 hn).1
  unfold simulateGlobalReevaluation
  dsimp only
  rw [reevaluationLoop]
  dsimp only
  rw [if_neg (by simp)]
  have hp := R.shuffle_perm (sim.registerEvent .startGlobalReevaluation).rng
    (rangeFT 0 sim.fbas.nodes.length)
  generalize R.shuffle (sim.registerEvent .startGlobalReevaluation).rng
    (rangeFT 0 sim.fbas.nodes.length) = p at hp ⊢
  obtain ⟨order, rng⟩ := p
  obtain ⟨e, h1⟩ := h.round order (hp.mem_iff.2 (mem_rangeFT.2 ⟨Nat.zero_le _, hx⟩)) .noChange
    (({ sim.registerEvent .startGlobalReevaluation with rng } : Simulator R).registerEvent
      .startGlobalReevaluationRound) he
  have h1' : simulateGlobalReevaluationRound qsc order
    ({ sim.registerEvent .startGlobalReevaluation with rng } : Simulator R) = .error e := h1
  dsimp only
  rw [h1']
  exact ⟨e, rfl⟩

theorem Trips.growth {qsc : Qsc R} {x : NodeId} (h : Trips qsc x) (hk : Keeps qsc) (k : ℕ)
    (sim : Simulator R) (hreg : RegistryOk sim.fbas) (hm : sim.fbas.nodes.length ≤ x)
    (hx : x < sim.fbas.nodes.length + k) : ∃ e, simulateGrowth qsc k sim = .error e := by
  induction k generalizing sim with
  | zero => exfalso; exact absurd hx (Nat.not_lt.2 hm)
  | succ k ih =>
    rw [simulateGrowth]
    cases hr : sim.fbas.addGenericNode QuorumSet.empty with
    | error e => exact ⟨e, rfl⟩
    | ok p =>
      obtain ⟨y, f⟩ := p
      obtain ⟨h3, h4, h5⟩ := (C40_add_generic_node sim.fbas hreg QuorumSet.empty).2 y f hr
      dsimp only
      have hfl : f.nodes.length = sim.fbas.nodes.length + 1 := by rw [h4]; simp
      rcases Nat.lt_or_eq_of_le hm with hlt | heq
      · cases hq : qsc y (f, sim.rng) with
        | error e => exact ⟨e, rfl⟩
        | ok p =>
          obtain ⟨c, f', s'⟩ := p
          dsimp only
          have h6 := hk y f sim.rng c f' s' hq
          split
          · exact ⟨_, rfl⟩
          · rename_i k' sim2 hre
            have h7 : SameNames f' sim2.fbas := hk.reevaluation hre
            have hl2 : sim2.fbas.nodes.length = sim.fbas.nodes.length + 1 := by
              rw [h7.length, h6.length, hfl]
            refine ih sim2 (h7.registry (h6.registry h5)) ?_ ?_
            · rw [hl2]; exact hlt
            · rw [hl2]
              have key : ∀ a b c : ℕ, a < b + (c + 1) → a < b + 1 + c := by omega
              exact key _ _ _ hx
      · have hyx : y = x := by rw [h3, heq]
        subst hyx
        have he : HasQSet f y QuorumSet.empty := by
          refine ⟨⟨"n" ++ toString sim.fbas.nodes.length, QuorumSet.empty⟩, ?_, rfl⟩
          rw [h4, List.getElem?_append_right (by rw [h3]), h3]; simp
        obtain ⟨e, h1⟩ := h.1 f sim.rng he
        rw [h1]; exact ⟨e, rfl⟩

theorem Trips.simulate {qsc : Qsc R} {x : NodeId} (h : Trips qsc x) (hk : Keeps qsc) (i g : ℕ)
    (s : R.State) (hx : x < i + g) : ∃ e, QscSimulator.simulate qsc i g s = .error e := by
  obtain ⟨f0, h1, h2, h3⟩ := C40_new_generic_unconfigured i
  have hl : f0.nodes.length = i := by rw [h2]; simp
  unfold QscSimulator.simulate
  rw [h1]
  dsimp only
  by_cases hxi : x < i
  · have he : HasQSet f0 x QuorumSet.empty := by
      refine ⟨⟨"n" ++ toString x, QuorumSet.empty⟩, ?_, rfl⟩
      rw [h2]; simp [hxi]
    obtain ⟨e, h4⟩ := h.reevaluation i (Nat.lt_of_le_of_lt (Nat.zero_le x) hxi) ⟨f0, [], s⟩ he
    rw [h4]; exact ⟨e, rfl⟩
  · split
    · exact ⟨_, rfl⟩
    · rename_i k sim1 hre
      have h7 : SameNames f0 sim1.fbas := hk.reevaluation hre
      obtain ⟨e, h4⟩ := h.growth hk g sim1 (h7.registry h3)
        (by rw [h7.length, hl]; exact Nat.le_of_not_lt hxi) (by rw [h7.length, hl]; exact hx)
      rw [h4]; exact ⟨e, rfl⟩

theorem trips_globalRank (R : Rand) {g : Graph} (T : List NodeId) (rel : Option ℚ) {x : NodeId}
    (hx : g.outlinks.length ≤ x) : Trips (Qsc.globalRank R g T rel) x := by
  constructor
  · intro f s he
    obtain ⟨-, hex⟩ := existing_eq he
    unfold Qsc.globalRank
    dsimp only
    rw [hex]
    dsimp only
    rw [if_pos rfl]
    unfold getE
    rw [List.getElem?_eq_none hx]
    exact ⟨_, rfl⟩
  · intro y f s c f' s' hyx h he
    unfold Qsc.globalRank at h
    dsimp only at h
    split at h
    · cases h
    · split at h
      · split at h
        · cases h
        · split at h
          · split at h
            · cases h
            · rename_i hset
              cases h
              have hy : y < f.nodes.length := by
                by_contra hy
                unfold Qsc.setQuorumSet Fbas.swapQuorumSet at hset
                rw [List.getElem?_eq_none (Nat.le_of_not_lt hy)] at hset
                cases hset
              obtain ⟨f1, g1, -, g3⟩ := swap_spec hy _
              rw [g1] at hset
              cases hset
              rw [← getQuorumSet_iff, g3, if_neg (fun h => hyx h.symm)]
              exact getQuorumSet_iff.2 he
          · cases h; exact he
      · cases h; exact he

end FA
