import Verif.Lemmas.RandomUniform
import Mathlib.Data.Set.Card

/-!
# C102: networks of random quorum sets are uniformly distributed
-/

namespace FA.Props
open FA Spec Simulator

attribute [local irreducible] Probability

/-- C102: the probability of each network that is possible with `Random`, also if there are fewer initial nodes than
wanted in quorum sets: then the first `size` nodes trust each other, and only the nodes added after them have a choice.
(If there are enough initial nodes, this is `C102_random`.) -/
theorem C102_random_all (L : ℕ) (hL : 0 < L) (i g size : ℕ) (hsize : 2 ≤ size)
    (hd : ∀ d, 0 < d → d ≤ i + g → d ∣ L) :
    ∃ N0, ∀ N, N0 ≤ N → ∀ V : NodeId → Finset NodeId, (∀ x < i + g, CanTrust size i (i + g) x (V x)) →
    Probability L N (fun r => ∃ f, QscSimulator.simulate (Qsc.random (lottery L) size none []) i g r = .ok f ∧
      ∀ x < i + g, ∃ q, HasQSet f x q ∧ q.validators.Nodup ∧ q.validators.toFinset = V x) =
      (1 / ((max i (min size (i + g)) - 1).choose (min size (i + g) - 1) : ℕ) : ℚ) ^ max i (min size (i + g)) *
        ∏ j ∈ Finset.range (i + g - max i (min size (i + g))),
          1 / (((max i (min size (i + g)) + j).choose (min size (i + g) - 1) : ℕ) : ℚ) :=
  simulate_probability_all hL hsize hd

/-- One initial node and three more, each trusting two others: the last one has three possibilities. -/
example : ∃ N0, ∀ N, N0 ≤ N →
    Probability 12 N (fun r => ∃ f, QscSimulator.simulate (Qsc.random (lottery 12) 3 none []) 1 3 r = .ok f ∧
      ∀ x < 1 + 3, ∃ q, HasQSet f x q ∧ q.validators.Nodup ∧
        q.validators.toFinset = ([{0, 1, 2}, {0, 1, 2}, {0, 1, 2}, {3, 0, 2}] : List (Finset ℕ)).getD x ∅) = 1 / 3 := by
  obtain ⟨N0, h⟩ := C102_random_all 12 (by decide) 1 3 3 (by decide)
    (fun d h1 h2 => (by decide : ∀ d < 5, 0 < d → d ∣ 12) d (Nat.lt_succ_of_le h2) h1)
  refine ⟨N0, fun N hN => (h N hN (fun x => ([{0, 1, 2}, {0, 1, 2}, {0, 1, 2}, {3, 0, 2}] : List (Finset ℕ)).getD x ∅)
    ?_).trans ?_⟩
  · have h : ∀ x < 4, x ∈ ([{0, 1, 2}, {0, 1, 2}, {0, 1, 2}, {3, 0, 2}] : List (Finset ℕ)).getD x ∅ ∧
        (([{0, 1, 2}, {0, 1, 2}, {0, 1, 2}, {3, 0, 2}] : List (Finset ℕ)).getD x ∅).card = 3 ∧
        ∀ v ∈ ([{0, 1, 2}, {0, 1, 2}, {0, 1, 2}, {3, 0, 2}] : List (Finset ℕ)).getD x ∅, v < max (x + 1) 3 := by decide
    exact fun x hx => ⟨(h x hx).1, (h x hx).2.1, (h x hx).2.2⟩
  · norm_num [Nat.choose]

/-- C102: the networks generated with `Random` are uniformly distributed: each condition on who trusts whom holds with
the probability that it has if one of the networks described by `CanTrust` is picked at random. -/
theorem C102_random_uniform (L : ℕ) (hL : 0 < L) (i g size : ℕ) (hsize : 2 ≤ size)
    (hd : ∀ d, 0 < d → d ≤ i + g → d ∣ L) :
    ∃ N0, ∀ N, N0 ≤ N → ∀ P : (Fin (i + g) → Finset NodeId) → Prop,
    Probability L N (fun r => ∃ (f : Fbas) (V : Fin (i + g) → Finset NodeId),
      QscSimulator.simulate (Qsc.random (lottery L) size none []) i g r = .ok f ∧
      (∀ x : Fin (i + g), ∃ q, HasQSet f x q ∧ q.validators.Nodup ∧ q.validators.toFinset = V x) ∧ P V) =
      ({V : Fin (i + g) → Finset NodeId | (∀ x : Fin (i + g), CanTrust size i (i + g) x (V x)) ∧ P V}.ncard : ℚ) /
        {V : Fin (i + g) → Finset NodeId | ∀ x : Fin (i + g), CanTrust size i (i + g) x (V x)}.ncard := by
  obtain ⟨N0, hN0⟩ := C102_random_all L hL i g size hsize hd
  refine ⟨N0, fun N hN P => ?_⟩
  classical
  obtain ⟨p, hp⟩ : ∃ p : ℚ, ∀ V : Fin (i + g) → Finset NodeId, (∀ x : Fin (i + g), CanTrust size i (i + g) x (V x)) →
      Probability L N (fun r => ∃ f, QscSimulator.simulate (Qsc.random (lottery L) size none []) i g r = .ok f ∧
        ∀ x : Fin (i + g), Chose f x (V x)) = p := by
    refine ⟨(1 / ((max i (min size (i + g)) - 1).choose (min size (i + g) - 1) : ℕ) : ℚ) ^
      max i (min size (i + g)) * ∏ j ∈ Finset.range (i + g - max i (min size (i + g))),
          1 / (((max i (min size (i + g)) + j).choose (min size (i + g) - 1) : ℕ) : ℚ), fun V hV => ?_⟩
    have h1 := hN0 N hN (fun x => if h : x < i + g then V ⟨x, h⟩ else ∅)
      (fun x hx => by rw [dif_pos hx]; exact hV ⟨x, hx⟩)
    rw [← h1]
    refine probability_congr (fun r _ _ => exists_congr (fun f => and_congr_right (fun _ => ?_)))
    constructor
    · intro h x hx
      rw [dif_pos hx]; exact h ⟨x, hx⟩
    · intro h x
      have := h x x.2
      rwa [dif_pos x.2] at this
  have hfin := CanTrust_finite size i (i + g)
  have huniq : ∀ (V W : Fin (i + g) → Finset NodeId) (r : List ℕ),
      (∃ f, QscSimulator.simulate (Qsc.random (lottery L) size none []) i g r = .ok f ∧
        ∀ x : Fin (i + g), Chose f x (V x)) →
      (∃ f, QscSimulator.simulate (Qsc.random (lottery L) size none []) i g r = .ok f ∧
        ∀ x : Fin (i + g), Chose f x (W x)) → V = W := by
    rintro V W r ⟨f, h1, h2⟩ ⟨f', h3, h4⟩
    rw [h1] at h3
    obtain rfl := Except.ok.inj h3
    funext x
    exact chose_unique (h2 x) (h4 x)
  have hcount : ∀ P : (Fin (i + g) → Finset NodeId) → Prop,
      Probability L N (fun r => ∃ (f : Fbas) (V : Fin (i + g) → Finset NodeId),
      QscSimulator.simulate (Qsc.random (lottery L) size none []) i g r = .ok f ∧
        (∀ x : Fin (i + g), ∃ q, HasQSet f x q ∧ q.validators.Nodup ∧ q.validators.toFinset = V x) ∧ P V) =
      ({V : Fin (i + g) → Finset NodeId | (∀ x : Fin (i + g), CanTrust size i (i + g) x (V x)) ∧ P V}.ncard : ℚ) * p := by
    intro P
    have hfin' : {V : Fin (i + g) → Finset NodeId | (∀ x : Fin (i + g), CanTrust size i (i + g) x (V x)) ∧ P V}.Finite :=
      hfin.subset (fun V hV => hV.1)
    have h1 := probability_sum (L := L) (N := N) hfin'.toFinset
      (Q := fun V r => ∃ f, QscSimulator.simulate (Qsc.random (lottery L) size none []) i g r = .ok f ∧
        ∀ x : Fin (i + g), Chose f x (V x)) (fun V _ W _ r h2 h3 => huniq V W r h2 h3)
    rw [Finset.sum_congr rfl (fun V hV => hp V ((Set.Finite.mem_toFinset hfin').1 hV).1), Finset.sum_const,
      nsmul_eq_mul] at h1
    rw [Set.ncard_eq_toFinset_card _ hfin', ← h1]
    refine probability_congr (fun r _ _ => ?_)
    constructor
    · rintro ⟨f, V, h2, h3, h4⟩
      refine ⟨V, (Set.Finite.mem_toFinset hfin').2 ⟨fun x => ?_, h4⟩, f, h2, h3⟩
      obtain ⟨f', h5, h6⟩ := random_total (lottery L) (i := i) (g := g) hsize r
      rw [h2] at h5
      obtain rfl := Except.ok.inj h5
      obtain ⟨T, h7, h8⟩ := h6 x x.2
      rw [chose_unique (h3 x) h8]
      exact h7
    · rintro ⟨V, h2, f, h3, h4⟩
      exact ⟨f, V, h3, h4, ((Set.Finite.mem_toFinset hfin').1 h2).2⟩
  have htot := hcount (fun _ => True)
  rw [probability_true hL (fun r _ _ => ?_)] at htot
  · have he : {V : Fin (i + g) → Finset NodeId | (∀ x : Fin (i + g), CanTrust size i (i + g) x (V x)) ∧ True} =
        {V : Fin (i + g) → Finset NodeId | ∀ x : Fin (i + g), CanTrust size i (i + g) x (V x)} :=
      Set.ext (fun V => and_iff_left trivial)
    rw [he] at htot
    have hne : ({V : Fin (i + g) → Finset NodeId | ∀ x : Fin (i + g), CanTrust size i (i + g) x (V x)}.ncard : ℚ) ≠ 0 := by
      intro h0
      rw [h0, zero_mul] at htot
      exact one_ne_zero htot
    rw [hcount P, eq_div_iff hne, mul_assoc, mul_comm p, ← htot, mul_one]
  · obtain ⟨f, h5, h6⟩ := random_total (lottery L) (i := i) (g := g) hsize r
    choose! V hV using h6
    exact ⟨f, fun x => V x, h5, fun x => (hV x x.2).2, trivial⟩

/-- Two initial nodes and a third one, each trusting one other node: there are two networks, and in one of them the last
node trusts node 0. -/
example : ∃ N0, ∀ N, N0 ≤ N → Probability 12 N (fun r => ∃ (f : Fbas) (V : Fin (2 + 1) → Finset NodeId),
      QscSimulator.simulate (Qsc.random (lottery 12) 2 none []) 2 1 r = .ok f ∧
      (∀ x : Fin (2 + 1), ∃ q, HasQSet f x q ∧ q.validators.Nodup ∧ q.validators.toFinset = V x) ∧ 0 ∈ V 2) = 1 / 2 := by
  obtain ⟨N0, h⟩ := C102_random_uniform 12 (by decide) 2 1 2 (by decide)
    (fun d h1 h2 => (by decide : ∀ d < 4, 0 < d → d ∣ 12) d (Nat.lt_succ_of_le h2) h1)
  refine ⟨N0, fun N hN => ?_⟩
  rw [h N hN (fun V => 0 ∈ V 2)]
  have hx : ∀ (V : Fin (2 + 1) → Finset ℕ), (∀ x : Fin (2 + 1), CanTrust 2 2 (2 + 1) x (V x)) ↔
      V ∈ (Fintype.piFinset (fun _ : Fin 3 => (Finset.range 3).powerset)).filter (fun V => ∀ x : Fin 3,
        (x : ℕ) ∈ V x ∧ (V x).card = 2 ∧ ∀ v ∈ V x, v < max ((x : ℕ) + 1) 2) := by
    intro V
    rw [Finset.mem_filter, Fintype.mem_piFinset]
    constructor
    · intro h
      refine ⟨fun x => Finset.mem_powerset.2 (fun v hv => Finset.mem_range.2 ?_),
        fun x => ⟨(h x).self, (h x).card, (h x).near⟩⟩
      have key : ∀ v x : ℕ, x < 3 → v < max (x + 1) 2 → v < 3 := fun v x h1 h2 => by omega
      exact key v x x.2 ((h x).near v hv)
    · exact fun h x => ⟨(h.2 x).1, (h.2 x).2.1, (h.2 x).2.2⟩
  have e1 : {V : Fin (2 + 1) → Finset NodeId | ∀ x : Fin (2 + 1), CanTrust 2 2 (2 + 1) x (V x)}.ncard = 2 := by
    rw [show {V : Fin (2 + 1) → Finset NodeId | ∀ x : Fin (2 + 1), CanTrust 2 2 (2 + 1) x (V x)} = _ from
      Set.ext (fun V => (hx V).trans Finset.mem_coe.symm), Set.ncard_coe_finset]
    decide +kernel
  have e2 : {V : Fin (2 + 1) → Finset NodeId | (∀ x : Fin (2 + 1), CanTrust 2 2 (2 + 1) x (V x)) ∧ 0 ∈ V 2}.ncard =
      1 := by
    rw [show {V : Fin (2 + 1) → Finset NodeId | (∀ x : Fin (2 + 1), CanTrust 2 2 (2 + 1) x (V x)) ∧ 0 ∈ V 2} =
      (((Fintype.piFinset (fun _ : Fin 3 => (Finset.range 3).powerset)).filter (fun V => ∀ x : Fin 3,
        (x : ℕ) ∈ V x ∧ (V x).card = 2 ∧ ∀ v ∈ V x, v < max ((x : ℕ) + 1) 2)).filter (fun V => 0 ∈ V 2) :
          Finset (Fin 3 → Finset ℕ)) from
      Set.ext (fun V => by rw [Finset.mem_coe, Finset.mem_filter]; exact and_congr_left' (hx V)),
      Set.ncard_coe_finset]
    decide +kernel
  rw [e1, e2]
  norm_num
#print axioms C102_random_all
#print axioms C102_random_uniform
end FA.Props
