import Verif.SpecSafetyChance
import Verif.Props.RandomSafety
import Verif.Props.RandomUniform

/-!
# C103: with which probability networks with random quorum sets are safe
-/

namespace FA
open Spec Simulator Props

/-- What a simulation with `Random` yields. -/
theorem simulate_random_spec (R : Rand) {i g size t : ℕ} (hsize : 2 ≤ size) (ht : ThresholdFor none (min size (i + g)) t)
    (s : R.State) : ∃ f, QscSimulator.simulate (Qsc.random R size none []) i g s = .ok f ∧
      f.nodes.map Node.publicKey = (List.range (i + g)).map (fun i => "n" ++ toString i) ∧
      Chosen size i (i + g) t f := by
  have hw : EnoughWeight size (max i (min size (i + g))) [] := by
    intro x hx
    have h3 : choosable (max i (min size (i + g))) [] [x] =
        (Finset.range (max i (min size (i + g)))).erase x := by
      ext y
      rw [mem_choosable, Finset.mem_erase, Finset.mem_range, List.mem_singleton]
      exact ⟨fun h => ⟨h.2.1, h.1⟩, fun h => ⟨h.2, h.1, by simp⟩⟩
    rw [h3, Finset.card_erase_of_mem (Finset.mem_range.2 hx), Finset.card_range]
    omega
  obtain ⟨f, h3, -, h4, h5⟩ := (gradual_random R (t := none) hw hsize).simulate g (Nat.le_refl _) s trivial
  refine ⟨f, h3, h4, names_length h4, fun x q hq => ?_⟩
  obtain ⟨-, h6⟩ := h5 x q hq
  have h7 := canTrust_of_near h6
  obtain ⟨t', vs, rfl, h8⟩ := wanted_random h6.1.1
  have e4 := h8.2.2.2.2.1 rfl
  have hlen : vs.length = min size (i + g) := by rw [← List.toFinset_card_of_nodup h8.1, h7.card]
  rw [hlen] at e4
  exact ⟨vs, by rw [thresholdFor_unique ht e4], h8.1, h7⟩

/-- Quorums are self-sufficient groups. -/
theorem isQuorum_iff_selfSufficient {size i n t : ℕ} {f : Fbas} (h : Chosen size i n t f) (h1 : 1 ≤ t)
    {V : Fin n → Finset NodeId} (hV : ∀ x : Fin n, Chose f x (V x)) {Q : NodeSet} :
    IsQuorum f Q ↔ SelfSufficient t V Q := by
  refine and_congr_right (fun _ => forall₂_congr (fun x _ => ?_))
  constructor
  · rintro ⟨q, hq, hsl⟩
    obtain ⟨vs, rfl, hnd, -⟩ := h.2 x q hq
    have hx : x < n := by rw [← h.1]; exact hasQSet_lt hq
    obtain ⟨q', g1, -, g2⟩ := hV ⟨x, hx⟩
    obtain rfl : _ = q' := Option.some.inj ((getQuorumSet_iff.2 hq).symm.trans (getQuorumSet_iff.2 g1))
    refine ⟨hx, ?_⟩
    rw [← g2]
    exact ((slice_card_iff hnd).1 hsl).2
  · rintro ⟨hx, hc⟩
    obtain ⟨q, g1, -, g2⟩ := hV ⟨x, hx⟩
    obtain ⟨vs, rfl, hnd, -⟩ := h.2 x q g1
    rw [← g2] at hc
    exact ⟨_, g1, (slice_card_iff hnd).2 ⟨h1, hc⟩⟩

theorem intersection_iff_allMeet {size i n t : ℕ} {f : Fbas} (h : Chosen size i n t f) (hin : i ≤ n) (hn : 1 ≤ n)
    (h1 : 1 ≤ t) (h2 : t ≤ min size n) {V : Fin n → Finset NodeId} (hV : ∀ x : Fin n, Chose f x (V x)) :
    QuorumIntersection f ↔ AllMeet t V := by
  have hq := @isQuorum_iff_selfSufficient size i n t f h h1 V hV
  constructor
  · intro hi A B hA hB
    exact hi.2 A B (hq.2 hA) (hq.2 hB)
  · intro hm
    exact ⟨⟨_, h.quorum hin hn h1 h2⟩, fun Q₁ Q₂ h3 h4 => hm Q₁ Q₂ (hq.1 h3) (hq.1 h4)⟩

end FA

namespace FA.Props
open FA Spec Simulator

attribute [local irreducible] Probability

/-- C103: the network that `qsc_simulator … random` prints has quorum intersection with the probability with which the
network does not split if each node picks whom it trusts at random: it is the fraction of the networks described by
`CanTrust` in which groups whose members trust at least `t` members of their group always meet. -/
theorem C103_probability (L : ℕ) (hL : 0 < L) (rnd : ℚ → ℚ) (i g size t : ℕ) (hsize : 2 ≤ size) (hpos : 1 ≤ i + g)
    (hfit : t < 2 ^ 64) (ht : ThresholdFor none (min size (i + g)) t) (hd : ∀ d, 0 < d → d ≤ i + g → d ∣ L) :
    ∃ N0, ∀ N, N0 ≤ N →
    Probability L N (fun r => ∃ doc f, QscSimulator.main (lottery L) rnd ⟨i, g, .random size⟩ r = .ok doc ∧
      Fbas.fromJson doc = .ok f ∧ QuorumIntersection f) =
      ({V : Fin (i + g) → Finset NodeId | (∀ x : Fin (i + g), CanTrust size i (i + g) x (V x)) ∧ AllMeet t V}.ncard : ℚ) /
        {V : Fin (i + g) → Finset NodeId | ∀ x : Fin (i + g), CanTrust size i (i + g) x (V x)}.ncard := by
  obtain ⟨N0, h⟩ := C102_random_uniform L hL i g size hsize hd
  refine ⟨N0, fun N hN => (probability_congr (fun r _ _ => ?_)).trans (h N hN (AllMeet t))⟩
  obtain ⟨b1, b2, -, -⟩ := thresholdFor_bounds ht (by omega)
  obtain ⟨f, h1, h2, h3⟩ := simulate_random_spec (lottery L) hsize ht (i := i) (g := g) r
  have hp : QscSimulator.parseQscConfig (lottery L) rnd (.random size) = .ok (Qsc.random (lottery L) size none [], 0) :=
    rfl
  obtain ⟨-, h4⟩ := main_simulates (args := ⟨i, g, .random size⟩) hp r
  have hi : initialSize ⟨i, g, .random size⟩ 0 = i := by
    unfold initialSize
    split
    · rename_i h; exact h.1.symm
    · rfl
  rw [hi] at h4
  change _ = Except.map _ (QscSimulator.simulate _ _ g _) at h4
  rw [h1] at h4
  change _ = Except.ok _ at h4
  obtain ⟨f', h5, h6⟩ := prints_read_back hfit
    (fun x q hxq => by obtain ⟨vs, e, -⟩ := h3.2 x q hxq; exact ⟨vs, e⟩) ⟨_, h2⟩
  have hmeet : ∀ V : Fin (i + g) → Finset NodeId, (∀ x : Fin (i + g), Chose f x (V x)) →
      (QuorumIntersection f' ↔ AllMeet t V) := fun V hV =>
    h6.trans (intersection_iff_allMeet h3 (Nat.le_add_right _ _) hpos b1 b2 hV)
  rw [h4]
  constructor
  · rintro ⟨doc, f'', e1, e2, e3⟩
    obtain rfl := Except.ok.inj e1
    rw [h5] at e2
    obtain rfl := Except.ok.inj e2
    have hex : ∀ x : Fin (i + g), ∃ T, Chose f x T := fun x => by
      obtain ⟨q, hq⟩ := hasQSet_of_lt (f := f) (x := x) (by rw [h3.1]; exact x.2)
      obtain ⟨vs, rfl, hnd, -⟩ := h3.2 x q hq
      exact ⟨vs.toFinset, _, hq, hnd, rfl⟩
    choose V hV using hex
    exact ⟨f, V, h1, hV, (hmeet V hV).1 e3⟩
  · rintro ⟨f2, V, e1, e2, e3⟩
    rw [h1] at e1
    obtain rfl := Except.ok.inj e1
    exact ⟨_, f', rfl, h5, (hmeet V e2).2 e3⟩

/-- C103: the network is safe with probability 1 if and only if there are fewer initial nodes than two quorum slices have
members. -/
theorem C103_certain (L : ℕ) (hL : 0 < L) (rnd : ℚ → ℚ) (i g size t : ℕ) (hsize : 2 ≤ size) (hpos : 1 ≤ i + g)
    (hfit : t < 2 ^ 64) (ht : ThresholdFor none (min size (i + g)) t) (hd : ∀ d, 0 < d → d ≤ i + g → d ∣ L) :
    ∃ N0, ∀ N, N0 ≤ N →
    (Probability L N (fun r => ∃ doc f, QscSimulator.main (lottery L) rnd ⟨i, g, .random size⟩ r = .ok doc ∧
      Fbas.fromJson doc = .ok f ∧ QuorumIntersection f) = 1 ↔ i < 2 * t) := by
  obtain ⟨N0, h⟩ := C103_probability L hL rnd i g size t hsize hpos hfit ht hd
  refine ⟨N0, fun N hN => ?_⟩
  have hle : i ≤ i + g := Nat.le_add_right _ _
  obtain ⟨b1, b2, b3, b4⟩ := thresholdFor_bounds ht (by omega)
  constructor
  · intro h1
    by_contra hi
    have hi : 2 * t ≤ i := Nat.le_of_not_lt hi
    have hmin : min size (i + g) = size := by omega
    rw [hmin] at b2 b3
    have hfin := CanTrust_finite size i (i + g)
    have hin : (fun x : Fin (i + g) => twoGroups size t x) ∈
        {V : Fin (i + g) → Finset NodeId | ∀ x : Fin (i + g), CanTrust size i (i + g) x (V x)} :=
      fun x => canTrust_twoGroups hle hsize b2 b3 hi x.2
    have hnot : (fun x : Fin (i + g) => twoGroups size t x) ∉
        {V : Fin (i + g) → Finset NodeId | (∀ x : Fin (i + g), CanTrust size i (i + g) x (V x)) ∧ AllMeet t V} := by
      intro hm
      obtain ⟨x, hx1, hx2⟩ := hm.2 (Finset.range t) (Finset.Ico t (2 * t))
        ⟨⟨0, Finset.mem_range.2 b1⟩, fun x hx => by
          have hx := Finset.mem_range.1 hx
          have key : ∀ x : ℕ, x < t → x < i + g := by omega
          refine ⟨key x hx, ?_⟩
          show t ≤ (twoGroups size t x ∩ _).card
          rw [twoGroups, if_pos hx, Finset.inter_eq_right.2 (Finset.range_subset_range.2 b2), Finset.card_range]⟩
        ⟨⟨t, Finset.mem_Ico.2 ⟨Nat.le_refl t, (by omega : t < 2 * t)⟩⟩, fun x hx => by
          have hx := Finset.mem_Ico.1 hx
          have key : ∀ x : ℕ, x < 2 * t → x < i + g := by omega
          refine ⟨key x hx.2, ?_⟩
          show t ≤ (twoGroups size t x ∩ _).card
          rw [twoGroups, if_neg (Nat.not_lt.2 hx.1), if_pos hx.2,
            Finset.inter_eq_right.2 (Finset.Ico_subset_Ico (by omega) (Nat.le_refl _)), Nat.card_Ico]
          omega⟩
      exact absurd (Finset.mem_range.1 hx1) (Nat.not_lt.2 (Finset.mem_Ico.1 hx2).1)
    have hlt := Set.ncard_lt_ncard (s := {V : Fin (i + g) → Finset NodeId |
        (∀ x : Fin (i + g), CanTrust size i (i + g) x (V x)) ∧ AllMeet t V})
      (t := {V : Fin (i + g) → Finset NodeId | ∀ x : Fin (i + g), CanTrust size i (i + g) x (V x)})
      ⟨fun V hV => hV.1, fun hsub => hnot (hsub hin)⟩ hfin
    rw [h N hN, div_eq_one_iff_eq (by
      have : 0 < {V : Fin (i + g) → Finset NodeId | ∀ x : Fin (i + g), CanTrust size i (i + g) x (V x)}.ncard := by omega
      exact_mod_cast this.ne')] at h1
    exact absurd (Nat.cast_injective h1) (Nat.ne_of_lt hlt)
  · intro hi
    refine probability_true hL (fun r _ _ => ?_)
    exact (C99_random rnd i g size t hsize hpos hfit ht).2 hi (lottery L) r

/-- Four nodes that choose one other node each: of the 81 networks, only the 3 that consist of two pairs split. -/
example : ∃ N0, ∀ N, N0 ≤ N →
    Probability 12 N (fun r => ∃ doc f, QscSimulator.main (lottery 12) id ⟨4, 0, .random 2⟩ r = .ok doc ∧
      Fbas.fromJson doc = .ok f ∧ QuorumIntersection f) = 78 / 81 := by
  obtain ⟨N0, h⟩ := C103_probability 12 (by decide) id 4 0 2 2 (by decide) (by decide) (by decide) (C81_threshold 2 none)
    (fun d h1 h2 => (by decide : ∀ d < 5, 0 < d → d ∣ 12) d (Nat.lt_succ_of_le h2) h1)
  refine ⟨N0, fun N hN => (h N hN).trans ?_⟩
  have hx : ∀ V : Fin (4 + 0) → Finset ℕ, (∀ x : Fin (4 + 0), CanTrust 2 4 (4 + 0) x (V x)) ↔
      V ∈ Fintype.piFinset (fun x : Fin 4 => ((Finset.range 4).erase x).image (fun y => ({(x : ℕ), y} : Finset ℕ))) := by
    intro V
    rw [Fintype.mem_piFinset]
    refine forall_congr' (fun x => ?_)
    have hxlt : (x : ℕ) < 4 := x.2
    constructor
    · intro hc
      obtain ⟨a, b, hab, hV⟩ := Finset.card_eq_two.1 hc.card
      have hn : ∀ v ∈ V x, v < 4 := fun v hv => by
        have key : ∀ v x : ℕ, x < 4 → v < max (x + 1) 4 → v < 4 := by omega
        exact key v x hxlt (hc.near v hv)
      have hs := hc.self
      rw [hV, Finset.mem_insert, Finset.mem_singleton] at hs
      rw [Finset.mem_image]
      rcases hs with hs | hs
      · exact ⟨b, Finset.mem_erase.2 ⟨by rw [hs]; exact hab.symm, Finset.mem_range.2 (hn b (by rw [hV]; simp))⟩, by
          rw [hV, hs]⟩
      · exact ⟨a, Finset.mem_erase.2 ⟨by rw [hs]; exact hab, Finset.mem_range.2 (hn a (by rw [hV]; simp))⟩, by
          rw [hV, hs, Finset.pair_comm]⟩
    · intro hm
      obtain ⟨y, hy, hV⟩ := Finset.mem_image.1 hm
      obtain ⟨hy1, hy2⟩ := Finset.mem_erase.1 hy
      refine ⟨by rw [← hV]; simp, by rw [← hV, Finset.card_pair hy1.symm]; rfl, fun v hv => ?_⟩
      rw [← hV, Finset.mem_insert, Finset.mem_singleton] at hv
      have hy3 := Finset.mem_range.1 hy2
      have key : ∀ v x y : ℕ, x < 4 → y < 4 → (v = x ∨ v = y) → v < max (x + 1) 4 := by omega
      exact key v x y hxlt hy3 hv
  have hs : ∀ (V : Fin (4 + 0) → Finset ℕ) (A : Finset ℕ), SelfSufficient 2 V A ↔ A ∈ (Finset.range 4).powerset ∧
      (A ≠ ∅ ∧ ∀ x : Fin 4, (x : ℕ) ∈ A → 2 ≤ (V x ∩ A).card) := by
    intro V A
    unfold SelfSufficient
    rw [Finset.nonempty_iff_ne_empty]
    constructor
    · rintro ⟨h1, h2⟩
      exact ⟨Finset.mem_powerset.2 (fun x hx => Finset.mem_range.2 (h2 x hx).1), h1, fun x hx => (h2 x hx).2⟩
    · rintro ⟨h1, h2, h3⟩
      exact ⟨h2, fun x hx => ⟨Finset.mem_range.1 (Finset.mem_powerset.1 h1 hx),
        h3 ⟨x, Finset.mem_range.1 (Finset.mem_powerset.1 h1 hx)⟩ hx⟩⟩
  have hm : ∀ V : Fin (4 + 0) → Finset ℕ, AllMeet 2 V ↔
      ∀ A ∈ (Finset.range 4).powerset, (A ≠ ∅ ∧ ∀ x : Fin 4, (x : ℕ) ∈ A → 2 ≤ (V x ∩ A).card) →
        ∀ B ∈ (Finset.range 4).powerset, (B ≠ ∅ ∧ ∀ x : Fin 4, (x : ℕ) ∈ B → 2 ≤ (V x ∩ B).card) →
          ∃ x ∈ A, x ∈ B := by
    intro V
    unfold AllMeet
    constructor
    · intro h A a1 a2 B b1 b2
      exact h A B ((hs V A).2 ⟨a1, a2⟩) ((hs V B).2 ⟨b1, b2⟩)
    · intro h A B hA hB
      obtain ⟨a1, a2⟩ := (hs V A).1 hA
      obtain ⟨b1, b2⟩ := (hs V B).1 hB
      exact h A a1 a2 B b1 b2
  have e1 : {V : Fin (4 + 0) → Finset NodeId | ∀ x : Fin (4 + 0), CanTrust 2 4 (4 + 0) x (V x)}.ncard = 81 := by
    rw [show {V : Fin (4 + 0) → Finset NodeId | ∀ x : Fin (4 + 0), CanTrust 2 4 (4 + 0) x (V x)} = _ from
      Set.ext (fun V => (hx V).trans Finset.mem_coe.symm), Set.ncard_coe_finset]
    decide +kernel
  have e2 : {V : Fin (4 + 0) → Finset NodeId | (∀ x : Fin (4 + 0), CanTrust 2 4 (4 + 0) x (V x)) ∧ AllMeet 2 V}.ncard =
      78 := by
    rw [show {V : Fin (4 + 0) → Finset NodeId | (∀ x : Fin (4 + 0), CanTrust 2 4 (4 + 0) x (V x)) ∧ AllMeet 2 V} =
      ((Fintype.piFinset (fun x : Fin 4 => ((Finset.range 4).erase x).image
          (fun y => ({(x : ℕ), y} : Finset ℕ)))).filter (fun V =>
        ∀ A ∈ (Finset.range 4).powerset, (A ≠ ∅ ∧ ∀ x : Fin 4, (x : ℕ) ∈ A → 2 ≤ (V x ∩ A).card) →
        ∀ B ∈ (Finset.range 4).powerset, (B ≠ ∅ ∧ ∀ x : Fin 4, (x : ℕ) ∈ B → 2 ≤ (V x ∩ B).card) →
          ∃ x ∈ A, x ∈ B) : Finset (Fin 4 → Finset ℕ)) from
      Set.ext (fun V => by rw [Finset.mem_coe, Finset.mem_filter]; exact and_congr (hx V) (hm V)),
      Set.ncard_coe_finset]
    decide +kernel
  rw [e1, e2]
  norm_num

#print axioms C103_probability
#print axioms C103_certain

end FA.Props
