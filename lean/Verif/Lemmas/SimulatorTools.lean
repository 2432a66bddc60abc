import Verif.Model.SimulatorTools
import Verif.Lemmas.Growth

/-!
# Simulation runs as in `qsc_simulator`
-/

namespace FA
open Spec Simulator Props

/-- A configurator for at least `lo` and at most `N` nodes. `B n x q` holds for the quorum sets `q` that node `x` may have
while there are `n` nodes; `A n x q` for those that it has after being configured. -/
structure Steady {R : Rand} (qsc : Qsc R) (N : ℕ) (A B : ℕ → NodeId → QuorumSet → Prop)
    (lo : ℕ := 0) : Prop where
  empty : ∀ n x, B n x QuorumSet.empty
  weaken : ∀ n x q, A n x q → B n x q
  grow : ∀ n x q, B n x q → B (n + 1) x q
  step : ∀ (f : Fbas) (s : R.State) (x : NodeId), x < f.nodes.length →
    lo ≤ f.nodes.length ∧ f.nodes.length ≤ N →
    (∀ y q, HasQSet f y q → B f.nodes.length y q) →
    ∃ c f' s' q', qsc x (f, s) = .ok (c, f', s') ∧ SameNames f f' ∧ A f.nodes.length x q' ∧
      ∀ y, f'.getQuorumSet y = if y = x then some q' else f.getQuorumSet y

variable {R : Rand} {qsc : Qsc R} {N lo : ℕ} {A B : ℕ → NodeId → QuorumSet → Prop}

theorem Steady.round (h : Steady qsc N A B lo) (order : List NodeId) (c : ChangeEffect)
    (sim : Simulator R) (hN : sim.fbas.nodes.length ≤ N) (ho : ∀ x ∈ order, x < sim.fbas.nodes.length)
    (hB : ∀ y q, HasQSet sim.fbas y q → B sim.fbas.nodes.length y q)
    (hlo : lo ≤ sim.fbas.nodes.length := by exact Nat.zero_le _) :
    ∃ c' sim', roundLoop qsc order (c, sim) = .ok (c', sim') ∧ SameNames sim.fbas sim'.fbas ∧
      ∀ y q, HasQSet sim'.fbas y q → B sim.fbas.nodes.length y q ∧
        (y ∈ order ∨ (∀ q, HasQSet sim.fbas y q → A sim.fbas.nodes.length y q) →
          A sim.fbas.nodes.length y q) := by
  induction order generalizing c sim with
  | nil =>
    refine ⟨c, sim, rfl, ⟨rfl, rfl⟩, fun y q hq => ⟨hB y q hq, ?_⟩⟩
    rintro (h | h)
    · cases h
    · exact h q hq
  | cons x order ih =>
    have hx := ho x List.mem_cons_self
    obtain ⟨d, f', s', q', h1, h2, h3, h4⟩ := h.step sim.fbas sim.rng x hx ⟨hlo, hN⟩ hB
    rw [roundLoop, h1]
    have hset : ∀ y q, HasQSet f' y q → (y = x ∧ q = q') ∨ (y ≠ x ∧ HasQSet sim.fbas y q) := by
      intro y q hq
      rw [← getQuorumSet_iff, h4] at hq
      split at hq
      · rename_i hy; exact .inl ⟨hy, (Option.some.inj hq).symm⟩
      · rename_i hy; exact .inr ⟨hy, getQuorumSet_iff.1 hq⟩
    set sim1 : Simulator R := (({ sim with fbas := f', rng := s' } : Simulator R).registerEvent
      (.quorumSetChange x d)) with hsim1
    have hf1 : sim1.fbas = f' := rfl
    obtain ⟨c', sim', g1, g2, g3⟩ := ih (c.update d) sim1
      (by rw [hf1, h2.length]; exact hN)
      (fun y hy => by rw [hf1, h2.length]; exact ho y (List.mem_cons_of_mem _ hy))
      (fun y q hq => by
        rw [hf1] at hq ⊢
        rw [h2.length]
        rcases hset y q hq with ⟨rfl, rfl⟩ | ⟨-, hq⟩
        · exact h.weaken _ _ _ h3
        · exact hB y q hq)
      (by rw [hf1, h2.length]; exact hlo)
    rw [hf1] at g2 g3
    rw [h2.length] at g3
    refine ⟨c', sim', g1, h2.trans g2, fun y q hq => ⟨(g3 y q hq).1, fun hy => (g3 y q hq).2 ?_⟩⟩
    by_cases hyo : y ∈ order
    · exact .inl hyo
    · right
      intro q0 hq0
      rcases hset y q0 hq0 with ⟨rfl, rfl⟩ | ⟨hyx, hq0⟩
      · exact h3
      · rcases hy with hy | hy
        · rcases List.mem_cons.1 hy with hy | hy
          · exact absurd hy hyx
          · exact absurd hy hyo
        · exact hy q0 hq0

theorem Steady.reevaluation (h : Steady qsc N A B lo) (max : ℕ) (sim : Simulator R)
    (hN : sim.fbas.nodes.length ≤ N)
    (hB : ∀ y q, HasQSet sim.fbas y q → B sim.fbas.nodes.length y q)
    (hmax : 1 ≤ max ∨ ∀ y q, HasQSet sim.fbas y q → A sim.fbas.nodes.length y q)
    (hlo : lo ≤ sim.fbas.nodes.length := by exact Nat.zero_le _) :
    ∃ k sim', simulateGlobalReevaluation qsc max sim = .ok (k, sim') ∧ SameNames sim.fbas sim'.fbas ∧
      ∀ y q, HasQSet sim'.fbas y q → A sim.fbas.nodes.length y q := by
  have key : ∀ (remaining : ℕ) (stable : Bool) (next : ℕ) (order : List NodeId)
      (sim1 : Simulator R), SameNames sim.fbas sim1.fbas →
      order.Perm (List.range sim.fbas.nodes.length) →
      (∀ y q, HasQSet sim1.fbas y q → B sim.fbas.nodes.length y q) →
      ((1 ≤ remaining ∧ stable = false) ∨
        ∀ y q, HasQSet sim1.fbas y q → A sim.fbas.nodes.length y q) →
      ∃ k sim', reevaluationLoop qsc remaining stable next order sim1 = .ok (k, sim') ∧
        SameNames sim.fbas sim'.fbas ∧ ∀ y q, HasQSet sim'.fbas y q → A sim.fbas.nodes.length y q := by
    intro remaining
    induction remaining with
    | zero =>
      intro stable next order sim1 hn ho hb hr
      refine ⟨next, sim1, rfl, hn, ?_⟩
      rcases hr with ⟨hr, -⟩ | hr
      · omega
      · exact hr
    | succ remaining ih =>
      intro stable next order sim1 hn ho hb hr
      rw [reevaluationLoop]
      by_cases hst : stable = true
      · rw [if_pos hst]
        refine ⟨next, sim1, rfl, hn, ?_⟩
        rcases hr with ⟨-, hr⟩ | hr
        · rw [hr] at hst; cases hst
        · exact hr
      · rw [if_neg hst]
        have hp := R.shuffle_perm sim1.rng order
        dsimp only
        generalize R.shuffle sim1.rng order = p at hp ⊢
        obtain ⟨order', rng⟩ := p
        dsimp only at hp ⊢
        have hlen : sim1.fbas.nodes.length = sim.fbas.nodes.length := hn.length
        obtain ⟨c, sim2, h1, h2, h3⟩ := h.round order' .noChange
          (({ sim1 with rng } : Simulator R).registerEvent .startGlobalReevaluationRound)
          (by show sim1.fbas.nodes.length ≤ N; rw [hlen]; exact hN)
          (fun x hx => by
            show x < sim1.fbas.nodes.length
            rw [hlen]; exact List.mem_range.1 ((hp.trans ho).mem_iff.1 hx))
          (fun y q hq => by
            show B sim1.fbas.nodes.length y q
            rw [hlen]; exact hb y q hq)
          (by show lo ≤ sim1.fbas.nodes.length; rw [hlen]; exact hlo)
        have h2' : SameNames sim1.fbas sim2.fbas := h2
        have h3' : ∀ y q, HasQSet sim2.fbas y q → B sim1.fbas.nodes.length y q ∧
          (y ∈ order' ∨ (∀ q, HasQSet sim1.fbas y q → A sim1.fbas.nodes.length y q) →
            A sim1.fbas.nodes.length y q) := h3
        rw [hlen] at h3'
        have h1' : simulateGlobalReevaluationRound qsc order' { sim1 with rng } = .ok (c, sim2) := h1
        rw [h1']
        refine ih _ _ _ _ (hn.trans h2') (hp.trans ho) (fun y q hq => (h3' y q hq).1)
          (.inr (fun y q hq => (h3' y q hq).2 (.inl ?_)))
        rw [(hp.trans ho).mem_iff, List.mem_range, ← hlen, ← h2'.length]
        obtain ⟨node, hn', -⟩ := hq
        exact (List.getElem?_eq_some_iff.1 hn').1
  obtain ⟨k, sim', h1, h2, h3⟩ := key max false 0 (rangeFT 0 sim.fbas.nodes.length)
    (sim.registerEvent .startGlobalReevaluation) ⟨rfl, rfl⟩ (by rw [rangeFT_zero]) hB
    (hmax.imp (fun h => ⟨h, rfl⟩) id)
  refine ⟨k, sim'.registerEvent (.finishGlobalReevaluation k), ?_, h2, h3⟩
  unfold simulateGlobalReevaluation
  dsimp only
  rw [h1]

theorem Steady.growth (h : Steady qsc N A B lo) (k m : ℕ) (hN : m + k ≤ N) (sim : Simulator R)
    (hreg : RegistryOk sim.fbas)
    (hn : sim.fbas.nodes.map Node.publicKey = (List.range m).map (fun i => "n" ++ toString i))
    (hA : ∀ y q, HasQSet sim.fbas y q → A m y q) (hlo : lo ≤ m := by exact Nat.zero_le _) :
    ∃ sim', simulateGrowth qsc k sim = .ok sim' ∧ RegistryOk sim'.fbas ∧
      sim'.fbas.nodes.map Node.publicKey = (List.range (m + k)).map (fun i => "n" ++ toString i) ∧
      ∀ y q, HasQSet sim'.fbas y q → A (m + k) y q := by
  induction k generalizing m sim with
  | zero => exact ⟨sim, rfl, hreg, hn, hA⟩
  | succ k ih =>
    have hl : sim.fbas.nodes.length = m := by
      have := congrArg List.length hn; simpa using this
    obtain ⟨h1, h2⟩ := C40_add_generic_node sim.fbas hreg QuorumSet.empty
    cases hr : sim.fbas.addGenericNode QuorumSet.empty with
    | error e =>
      obtain ⟨n', hn', hp⟩ := h1.1 ⟨e, hr⟩
      have : n'.publicKey ∈ sim.fbas.nodes.map Node.publicKey := List.mem_map_of_mem hn'
      rw [hn] at this
      obtain ⟨i, hi, hi'⟩ := List.mem_map.1 this
      have := genericNodeName_inj (i := i) (j := sim.fbas.nodes.length) (hi'.trans hp)
      rw [List.mem_range] at hi
      omega
    | ok p =>
      obtain ⟨x, f⟩ := p
      obtain ⟨h3, h4, h5⟩ := h2 x f hr
      have h3' : m = x := by rw [h3, hl]
      subst h3'
      have hfl : f.nodes.length = m + 1 := by rw [h4]; simp [hl]
      have hfB : ∀ y q, HasQSet f y q → B (m + 1) y q := by
        rintro y q ⟨node, hnode, rfl⟩
        rw [h4] at hnode
        by_cases hy : y < m
        · rw [List.getElem?_append_left (by rw [hl]; exact hy)] at hnode
          exact h.grow _ _ _ (h.weaken _ _ _ (hA y _ ⟨node, hnode, rfl⟩))
        · rw [List.getElem?_append_right (by rw [hl]; exact Nat.le_of_not_lt hy)] at hnode
          rw [List.getElem?_singleton] at hnode
          split at hnode
          · rw [← Option.some.inj hnode]; exact h.empty _ _
          · cases hnode
      have hmf : m < f.nodes.length := by rw [hfl]; exact Nat.lt_succ_self m
      have hfN : f.nodes.length ≤ N := by rw [hfl]; omega
      obtain ⟨c, f', s', q', g1, g2, g3, g4⟩ := h.step f sim.rng m hmf
        ⟨by rw [hfl]; omega, hfN⟩ (by
        rw [hfl]; exact hfB)
      rw [hfl] at g3
      set sim1 : Simulator R := ({ sim with fbas := f', rng := s' } :
        Simulator R).registerEvent (.addNode m) with hsim1
      have hsf : sim1.fbas = f' := rfl
      have hl1 : sim1.fbas.nodes.length = m + 1 := by rw [hsf, g2.length, hfl]
      obtain ⟨k', sim2, e1, e2, e3⟩ := h.reevaluation sim1.fbas.numberOfNodes sim1
        (by rw [hl1]; omega) (fun y q hq => by
          rw [hl1]
          rw [hsf, ← getQuorumSet_iff, g4] at hq
          split at hq
          · rename_i hy
            rw [hy, ← Option.some.inj hq]; exact h.weaken _ _ _ g3
          · exact hfB y q (getQuorumSet_iff.1 hq))
        (.inl (by
          show 1 ≤ sim1.fbas.nodes.length
          rw [hl1]; omega))
        (by rw [hl1]; omega)
      rw [hl1] at e3
      obtain ⟨sim', s1, s2, s3, s4⟩ := ih (m + 1) (by omega) sim2
        (e2.registry (by rw [hsf]; exact g2.registry h5)) (by
          rw [e2.1, hsf, g2.1, h4, List.map_append, hn, hl, List.range_succ, List.map_append]; rfl)
        e3 (by omega)
      have hk : m + 1 + k = m + (k + 1) := by omega
      rw [hk] at s3 s4
      refine ⟨sim', ?_, s2, s3, s4⟩
      rw [simulateGrowth, hr]
      dsimp only
      rw [g1]
      dsimp only
      rw [← hsim1, e1]
      exact s1

/-- The simulation of `qsc_simulator`. -/
theorem Steady.simulate (h : Steady qsc N A B lo) (i g : ℕ) (hN : i + g ≤ N) (s : R.State)
    (hlo : lo ≤ i := by exact Nat.zero_le _) :
    ∃ f, QscSimulator.simulate qsc i g s = .ok f ∧ RegistryOk f ∧
      f.nodes.map Node.publicKey = (List.range (i + g)).map (fun i => "n" ++ toString i) ∧
      ∀ y q, HasQSet f y q → A (i + g) y q := by
  obtain ⟨f0, h1, h2, h3⟩ := C40_new_generic_unconfigured i
  have hl : f0.nodes.length = i := by rw [h2]; simp
  have hn0 : f0.nodes.map Node.publicKey = (List.range i).map (fun i => "n" ++ toString i) := by
    rw [h2, List.map_map]; rfl
  obtain ⟨k, sim1, g1, g2, g3⟩ := h.reevaluation i ⟨f0, [], s⟩
    (by show f0.nodes.length ≤ N; rw [hl]; omega)
    (by
      rintro y q ⟨node, hn, rfl⟩
      have := List.mem_of_getElem? hn
      rw [h2] at this
      obtain ⟨j, -, rfl⟩ := List.mem_map.1 this
      exact h.empty _ _)
    (by
      rcases Nat.eq_zero_or_pos i with hi | hi
      · right
        rintro y q ⟨node, hn, -⟩
        have := (List.getElem?_eq_some_iff.1 hn).1
        rw [hl, hi] at this
        exact absurd this (Nat.not_lt_zero _)
      · exact .inl hi)
    (by show lo ≤ f0.nodes.length; rw [hl]; exact hlo)
  have g3' : ∀ y q, HasQSet sim1.fbas y q → A f0.nodes.length y q := g3
  have g2' : SameNames f0 sim1.fbas := g2
  rw [hl] at g3'
  obtain ⟨sim2, e1, e2, e3, e4⟩ := h.growth g i hN sim1 (g2'.registry h3) (by rw [g2'.1, hn0]) g3' hlo
  refine ⟨sim2.fbas, ?_, e2, e3, e4⟩
  unfold QscSimulator.simulate
  rw [h1]
  dsimp only
  rw [g1]
  dsimp only
  rw [e1]

end FA
