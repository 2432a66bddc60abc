import Verif.Lemmas.Qsc
import Verif.Props.Simulation

/-!
# Growth with configurators that set each node once
-/

namespace FA
open Spec Simulator Props

theorem growth_oneShot {R : Rand} {qsc : Qsc R} {N : ℕ} {target : NodeId → QuorumSet}
    (hq : OneShot qsc N target) (k m : ℕ) (hN : m + k ≤ N) (sim : Simulator R)
    (hreg : RegistryOk sim.fbas)
    (hn : sim.fbas.nodes.map Node.publicKey = (List.range m).map (fun i => "n" ++ toString i))
    (hall : AllTarget sim.fbas target) :
    ∃ sim', simulateGrowth qsc k sim = .ok sim' ∧
      sim'.fbas.nodes.map Node.publicKey = (List.range (m + k)).map (fun i => "n" ++ toString i) ∧
      AllTarget sim'.fbas target := by
  induction k generalizing m sim with
  | zero => exact ⟨sim, rfl, hn, hall⟩
  | succ k ih =>
    have hl : sim.fbas.nodes.length = m := by
      have := congrArg List.length hn; simpa using this
    obtain ⟨h1, h2⟩ := C40_add_generic_node sim.fbas hreg QuorumSet.empty
    cases hr : sim.fbas.addGenericNode QuorumSet.empty with
    | error e =>
      obtain ⟨n', hn', hp⟩ := h1.1 ⟨e, hr⟩
      have : n'.publicKey ∈ sim.fbas.nodes.map Node.publicKey := List.mem_map_of_mem hn'
      rw [hn] at this
      obtain ⟨i, hi, hi'⟩ := List.mem_map.1 this
      have := genericNodeName_inj (i := i) (j := sim.fbas.nodes.length) (hi'.trans hp)
      rw [List.mem_range] at hi
      omega
    | ok p =>
      obtain ⟨x, f⟩ := p
      obtain ⟨h3, h4, h5⟩ := h2 x f hr
      have h3' : m = x := by rw [h3, hl]
      subst h3'
      have hfl : f.nodes.length = m + 1 := by rw [h4]; simp [hl]
      have hemp : HasQSet f m QuorumSet.empty := by
        refine ⟨⟨"n" ++ toString sim.fbas.nodes.length, QuorumSet.empty⟩, ?_, rfl⟩
        rw [h4, List.getElem?_append_right (by omega), hl]; simp
      obtain ⟨c, f', s', g1, g2, g3⟩ := (hq f sim.rng m (by rw [hfl]; exact Nat.lt_succ_self m)
        (Nat.lt_of_lt_of_le (Nat.lt_add_of_pos_right (Nat.succ_pos k)) hN)).1 hemp
      have hall' : AllTarget f' target := by
        intro y hy
        rw [g2.length, hfl] at hy
        rw [← getQuorumSet_iff, g3]
        split
        · rename_i h; rw [h]
        · rename_i h
          have hyx : y < m := by
            have : y ≠ m := h
            omega
          have := getQuorumSet_iff.2 (hall y (by rw [hl]; exact hyx))
          rw [← this]
          unfold Fbas.getQuorumSet
          rw [h4, List.getElem?_append_left (by rw [hl]; exact hyx)]
      set sim1 : Simulator R := ({ sim with fbas := f', rng := s' } :
        Simulator R).registerEvent (.addNode m) with hsim1
      have hsf : sim1.fbas = f' := rfl
      obtain ⟨k', sim2, e1, e2⟩ := reevaluation_oneShot hq sim1.fbas.numberOfNodes sim1
        (by rw [hsf, g2.length, hfl]; omega) hall'
      rw [hsf] at e2
      obtain ⟨sim', s1, s3, s4⟩ := ih (m + 1) (by omega) sim2 (by rw [e2]; exact g2.registry h5) (by
        rw [e2, g2.1, h4, List.map_append, hn, hl, List.range_succ, List.map_append]; rfl) (by
        rw [e2]; exact hall')
      refine ⟨sim', ?_, by rw [s3]; congr 2; omega, s4⟩
      rw [simulateGrowth, hr]
      dsimp only
      rw [g1]
      dsimp only
      rw [← hsim1, e1]
      exact s1

/-- Growth from an empty FBAS. -/
theorem growth_oneShot_from_empty {R : Rand} {qsc : Qsc R} {N : ℕ} {target : NodeId → QuorumSet}
    (hq : OneShot qsc N target) (n : ℕ) (hn : n ≤ N) (s : R.State) :
    ∃ sim', simulateGrowth qsc n ⟨Fbas.new, [], s⟩ = .ok sim' ∧
      sim'.fbas.nodes.map Node.publicKey = (List.range n).map (fun i => "n" ++ toString i) ∧
      AllTarget sim'.fbas target := by
  obtain ⟨sim', h1, h3, h4⟩ := growth_oneShot hq n 0 (by omega) ⟨Fbas.new, [], s⟩ (fun pk i => by
    constructor
    · intro h; cases h
    · rintro ⟨n, hn, -⟩; simp [Fbas.new] at hn) rfl (fun x hx => by simp [Fbas.new] at hx)
  rw [Nat.zero_add] at h3
  exact ⟨sim', h1, h3, h4⟩

theorem setQuorumSet_same {f : Fbas} {x : NodeId} {q : QuorumSet} (h : HasQSet f x q) :
    Qsc.setQuorumSet f x q = .ok f := by
  obtain ⟨n, hn, hq⟩ := h
  unfold Qsc.setQuorumSet Fbas.swapQuorumSet
  rw [hn]
  dsimp only [Except.map]
  congr 1
  have h1 : f.nodes.set x { n with quorumSet := q } = f.nodes := by
    apply List.ext_getElem?
    intro i
    by_cases hi : i = x
    · subst hi
      rw [List.getElem?_set_self (List.getElem?_eq_some_iff.1 hn).1, hn, ← hq]
    · rw [List.getElem?_set_ne (fun h => hi h.symm)]
  rw [h1]

end FA
