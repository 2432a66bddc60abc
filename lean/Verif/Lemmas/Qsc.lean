import Verif.Lemmas.Simulation

/-!
# Lemmas about quorum set configurators
-/

namespace FA
open Spec

/-! ### RandomQsc -/

theorem randomLoop_ok {R : Rand} {weights : List ℕ} {k : ℕ} {available vs vs' : List NodeId}
    {s s' : R.State} (hav : available.Nodup)
    (h : Qsc.randomLoop R weights k available vs s = .ok (vs', s')) :
    ∃ new : List NodeId, vs' = vs ++ new ∧ new.Nodup ∧ new.length = k ∧
      ∀ x ∈ new, x ∈ available ∧ 0 < weights.getD x 1 := by
  induction k generalizing available vs s with
  | zero =>
    rw [Qsc.randomLoop] at h
    obtain ⟨rfl, rfl⟩ := Prod.mk.inj (Except.ok.inj h)
    exact ⟨[], by simp, List.nodup_nil, rfl, by simp⟩
  | succ k ih =>
    rw [Qsc.randomLoop] at h
    cases hc : R.chooseWeighted s (fun x => weights.getD x 1) available with
    | mk r s1 =>
      rw [hc] at h
      cases r with
      | none => cases h
      | some x =>
        obtain ⟨hx, hw⟩ := R.chooseWeighted_some s _ available x (by rw [hc])
        obtain ⟨new, h1, h2, h3, h4⟩ := ih (hav.erase x) h
        have hxn : x ∉ new := fun hxn => by
          have := (h4 x hxn).1
          rw [hav.mem_erase_iff] at this
          exact this.1 rfl
        refine ⟨x :: new, by rw [h1]; simp, List.nodup_cons.2 ⟨hxn, h2⟩, by
          rw [List.length_cons, h3], ?_⟩
        intro y hy
        rcases List.mem_cons.1 hy with rfl | hy
        · exact ⟨hx, hw⟩
        · exact ⟨List.mem_of_mem_erase (h4 y hy).1, (h4 y hy).2⟩

theorem randomLoop_error {R : Rand} {weights : List ℕ} {k : ℕ} {available vs : List NodeId}
    {s : R.State} (hav : available.Nodup) :
    (∃ e, Qsc.randomLoop R weights k available vs s = .error e) ↔
      (available.filter (fun x => decide (0 < weights.getD x 1))).length < k := by
  induction k generalizing available vs s with
  | zero => simp [Qsc.randomLoop]
  | succ k ih =>
    rw [Qsc.randomLoop]
    cases hc : R.chooseWeighted s (fun x => weights.getD x 1) available with
    | mk r s1 =>
      cases r with
      | none =>
        have hnone := R.chooseWeighted_none s _ available (by rw [hc])
        have : available.filter (fun x => decide (0 < weights.getD x 1)) = [] := by
          rw [List.filter_eq_nil_iff]
          intro x hx
          show ¬ decide (0 < weights.getD x 1) = true
          rw [hnone x hx]; decide
        rw [this]
        exact ⟨fun _ => by simp, fun _ => ⟨_, rfl⟩⟩
      | some x =>
        obtain ⟨hx, hw⟩ := R.chooseWeighted_some s _ available x (by rw [hc])
        dsimp only
        rw [ih (hav.erase x)]
        have hp : (available.filter (fun x => decide (0 < weights.getD x 1))).length =
            ((available.erase x).filter (fun x => decide (0 < weights.getD x 1))).length + 1 := by
          have h1 := (List.perm_cons_erase hx).filter (fun x => decide (0 < weights.getD x 1))
          rw [h1.length_eq, List.filter_cons_of_pos (by simpa using hw), List.length_cons]
        omega

/-! ### Configurators that set each node once -/

/-- A configurator for at most `N` nodes that gives an unconfigured node `x` the configuration
`target x` and leaves a node with this configuration alone. -/
def OneShot {R : Rand} (qsc : Qsc R) (N : ℕ) (target : NodeId → QuorumSet) : Prop :=
  ∀ (f : Fbas) (s : R.State) (x : NodeId), x < f.nodes.length → x < N →
    (HasQSet f x QuorumSet.empty → ∃ c f' s', qsc x (f, s) = .ok (c, f', s') ∧
      Simulator.SameNames f f' ∧
      ∀ y, f'.getQuorumSet y = if y = x then some (target x) else f.getQuorumSet y) ∧
    (HasQSet f x (target x) → ∃ c s', qsc x (f, s) = .ok (c, f, s'))

/-- All nodes have their target configuration. -/
def AllTarget (f : Fbas) (target : NodeId → QuorumSet) : Prop :=
  ∀ x < f.nodes.length, HasQSet f x (target x)

namespace Simulator
variable {R : Rand}

theorem roundLoop_oneShot {qsc : Qsc R} {N : ℕ} {target : NodeId → QuorumSet}
    (hq : OneShot qsc N target) (order : List NodeId) (c : ChangeEffect) (sim : Simulator R)
    (hN : sim.fbas.nodes.length ≤ N) (ho : ∀ x ∈ order, x < sim.fbas.nodes.length)
    (hall : AllTarget sim.fbas target) :
    ∃ c' sim', roundLoop qsc order (c, sim) = .ok (c', sim') ∧ sim'.fbas = sim.fbas := by
  induction order generalizing c sim with
  | nil => exact ⟨c, sim, rfl, rfl⟩
  | cons x order ih =>
    have hx := ho x List.mem_cons_self
    obtain ⟨d, s', h1⟩ := (hq sim.fbas sim.rng x hx (Nat.lt_of_lt_of_le hx hN)).2 (hall x hx)
    rw [roundLoop, h1]
    obtain ⟨c', sim', h2, h3⟩ := ih (c.update d)
      (({ sim with fbas := sim.fbas, rng := s' } : Simulator R).registerEvent (.quorumSetChange x d))
      hN (fun y hy => ho y (List.mem_cons_of_mem _ hy)) hall
    exact ⟨c', sim', h2, h3⟩

theorem reevaluation_oneShot {qsc : Qsc R} {N : ℕ} {target : NodeId → QuorumSet}
    (hq : OneShot qsc N target) (max : ℕ) (sim : Simulator R)
    (hN : sim.fbas.nodes.length ≤ N) (hall : AllTarget sim.fbas target) :
    ∃ k sim', simulateGlobalReevaluation qsc max sim = .ok (k, sim') ∧ sim'.fbas = sim.fbas := by
  have key : ∀ (remaining : ℕ) (stable : Bool) (next : ℕ) (order : List NodeId)
      (sim' : Simulator R), sim'.fbas = sim.fbas → (∀ x ∈ order, x < sim.fbas.nodes.length) →
      ∃ k sim'', reevaluationLoop qsc remaining stable next order sim' = .ok (k, sim'') ∧
        sim''.fbas = sim.fbas := by
    intro remaining
    induction remaining with
    | zero => intro stable next order sim' hs ho; exact ⟨next, sim', rfl, hs⟩
    | succ remaining ih =>
      intro stable next order sim' hs ho
      rw [reevaluationLoop]
      by_cases hst : stable = true
      · rw [if_pos hst]; exact ⟨next, sim', rfl, hs⟩
      · rw [if_neg hst]
        have hp := R.shuffle_perm sim'.rng order
        dsimp only
        generalize R.shuffle sim'.rng order = p at hp ⊢
        obtain ⟨order', rng⟩ := p
        obtain ⟨c, sim1, h1, h2⟩ := roundLoop_oneShot hq order' .noChange
          (({ sim' with rng } : Simulator R).registerEvent .startGlobalReevaluationRound)
          (by show sim'.fbas.nodes.length ≤ N; rw [hs]; exact hN)
          (fun x hx => by
            show x < sim'.fbas.nodes.length
            rw [hs]; exact ho x (hp.mem_iff.1 hx))
          (by show AllTarget sim'.fbas target; rw [hs]; exact hall)
        have h1' : simulateGlobalReevaluationRound qsc order' { sim' with rng } = .ok (c, sim1) := h1
        dsimp only
        rw [h1']
        exact ih _ _ _ _ (h2.trans hs) (fun x hx => ho x (hp.mem_iff.1 hx))
  obtain ⟨k, sim', h1, h2⟩ := key max false 0 (rangeFT 0 sim.fbas.nodes.length)
    (sim.registerEvent .startGlobalReevaluation) rfl (fun x hx => (mem_rangeFT.1 hx).2)
  exact ⟨k, sim'.registerEvent (.finishGlobalReevaluation k), by
    unfold simulateGlobalReevaluation; dsimp only; rw [h1], h2⟩

end Simulator
end FA
