import Verif.Props.SafetyChance
import Verif.Props.RandomWeighted
import Mathlib.Algebra.Order.BigOperators.Ring.Finset

/-!
# C103: when networks with weighted random quorum sets are safe with certainty
-/

namespace FA
open Spec Simulator Props

/-- What has the probability 1 happens with all random numbers. -/
theorem probability_one {L N : ℕ} (hL : 0 < L) {P : List ℕ → Prop} (h : Probability L N P = 1) {r : List ℕ}
    (hr : r.length = N) (hv : ∀ v ∈ r, v < L) : P r := by
  classical
  subst hr
  unfold Probability at h
  have hL' : (L : ℚ) ^ r.length ≠ 0 := pow_ne_zero _ (by exact_mod_cast hL.ne')
  rw [div_eq_one_iff_eq hL'] at h
  have hc : (Finset.univ.filter (fun r' : Fin r.length → Fin L => P (List.ofFn (fun i => (r' i : ℕ))))).card =
      Fintype.card (Fin r.length → Fin L) := by
    rw [Fintype.card_fun, Fintype.card_fin, Fintype.card_fin]
    exact_mod_cast h
  have hu := (Finset.card_eq_iff_eq_univ _).1 hc
  have hm := Finset.mem_univ (fun i : Fin r.length => (⟨r[i], hv _ (List.getElem_mem _)⟩ : Fin L))
  rw [← hu] at hm
  have h2 := (Finset.mem_filter.1 hm).2
  have e : List.ofFn (fun i : Fin r.length => r[i]) = r := List.ofFn_getElem
  rw [← e]
  exact h2

attribute [local irreducible] Probability

/-- What has a positive probability happens with some random numbers. -/
theorem exists_of_probability {L N : ℕ} {P : List ℕ → Prop} (h : 0 < Probability L N P) :
    ∃ r : List ℕ, r.length = N ∧ (∀ v ∈ r, v < L) ∧ P r := by
  by_contra hne
  have h0 : Probability L N P = 0 := probability_false (fun r h1 h2 h3 => hne ⟨r, h1, h2, h3⟩)
  rw [h0] at h
  exact lt_irrefl _ h

theorem inTurn_pos {w : ℕ → ℕ} {l js : List ℕ} (hj : js.Nodup) (hs : ∀ j ∈ js, j ∈ l) (hw : ∀ j ∈ js, 0 < w j) :
    0 < InTurn w l js := by
  induction js generalizing l with
  | nil => exact one_pos
  | cons j js ih =>
    obtain ⟨h1, h2⟩ := List.nodup_cons.1 hj
    have h3 : 0 < w j := hw j List.mem_cons_self
    have h4 : 0 < (l.map w).sum :=
      Nat.lt_of_lt_of_le h3 (List.single_le_sum (fun _ _ => Nat.zero_le _) _
        (List.mem_map.2 ⟨j, hs j List.mem_cons_self, rfl⟩))
    refine mul_pos (div_pos (by exact_mod_cast h3) (by exact_mod_cast h4)) (ih h2 (fun k hk => ?_)
      (fun k hk => hw k (List.mem_cons_of_mem _ hk)))
    exact (List.mem_erase_of_ne (fun e : k = j => h1 (e ▸ hk))).2 (hs k (List.mem_cons_of_mem _ hk))

/-- The weights of `FameWeightedRandom`. -/
theorem fame_degrees {R : Rand} {rnd : ℚ → ℚ} {size : ℕ} {t : Text} {th : Option ℕ} {G : Graph}
    (hG : Graph.fromAsRelString t = .ok G) :
    ∃ ds, QscSimulator.parseQscConfig R rnd (.fameWeightedRandom size t th) =
        .ok (Qsc.random R size th ds, G.outlinks.length) ∧
      (fun y : ℕ => ds.getD y 1) = (fun y => if y < G.outlinks.length then linksInto G y else 1) ∧
      ∀ m, EnoughTargets G size m → EnoughWeight size m ds := by
  obtain ⟨ds, h1, h2, h3⟩ := C52_in_degrees G (fromAsRel_spec hG).1
  have hwt : (fun y : ℕ => ds.getD y 1) = (fun y => if y < G.outlinks.length then linksInto G y else 1) := by
    funext y
    rw [List.getD_eq_getElem?_getD]
    by_cases hy : y < G.outlinks.length
    · rw [h3 y hy, if_pos hy]; rfl
    · rw [List.getElem?_eq_none (by rw [h2]; exact Nat.le_of_not_lt hy), if_neg hy]; rfl
  refine ⟨ds, by dsimp only [QscSimulator.parseQscConfig]; exact withGraph_ok hG (by rw [h1]), hwt, fun m he x hx => ?_⟩
  have hset : {y : ℕ | y < m ∧ y ≠ x ∧ (y < G.outlinks.length → 1 ≤ linksInto G y)} = ↑(choosable m ds [x]) := by
    ext y
    rw [Set.mem_ofPred_eq, Finset.mem_coe, mem_choosable, List.mem_singleton]
    refine and_congr Iff.rfl (and_congr Iff.rfl ?_)
    have e := congrFun hwt y
    rw [e]
    split <;> rename_i hy
    · exact ⟨fun h => h hy, fun h _ => h⟩
    · exact ⟨fun _ => Nat.one_pos, fun _ h => absurd h hy⟩
  have h4 := he x hx
  rw [hset, Set.ncard_coe_finset] at h4
  exact h4

/-- Networks of nodes with positive weights arise with some random numbers. -/
theorem weighted_possible {L : ℕ} (hL : 0 < L) {i g n size N : ℕ} {t : Option ℕ} {w : List ℕ} (hsize : 2 ≤ size)
    (hi : size ≤ i) (hig : i + g = n)
    (hd : ∀ d, 0 < d → d ≤ ((List.range n).map (fun y => w.getD y 1)).sum → d ∣ L) (hN : n * (n + size) ≤ N)
    {V : NodeId → Finset NodeId} (hV : ∀ x < n, CanTrust size i n x (V x))
    (hw : ∀ x < n, ∀ v ∈ V x, v ≠ x → 0 < w.getD v 1) :
    ∃ r : List ℕ, r.length = N ∧ (∀ v ∈ r, v < L) ∧
      ∃ f, QscSimulator.simulate (Qsc.random (lottery L) size t w) i g r = .ok f ∧
        ∀ x < n, ∃ q, HasQSet f x q ∧ q.validators = x :: ((V x).erase x).toList := by
  subst hig
  have hmin : min size (i + g) = size := by omega
  have hmax : max i (min size (i + g)) = i := by omega
  have hJ : ∀ x < i + g, Lists size (max i x) (fun x => ((V x).erase x).toList) x := by
    intro x hx
    have hc := hV x hx
    refine ⟨Finset.nodup_toList _, ?_, fun j hj => ?_⟩
    · rw [Finset.length_toList, Finset.card_erase_of_mem hc.self, hc.card, hmin]
    · obtain ⟨h1, h2⟩ := Finset.mem_erase.1 (Finset.mem_toList.1 hj)
      have h3 := hc.near j h2
      rw [hmax] at h3
      have key : ∀ a b c : ℕ, a ≠ b → a < max (b + 1) c → a < max c b := by omega
      exact ⟨key j x i h1 h3, h1⟩
  have hpos : ∀ x < i + g, ∀ j ∈ ((V x).erase x).toList, 0 < w.getD j 1 := by
    intro x hx j hj
    obtain ⟨h1, h2⟩ := Finset.mem_erase.1 (Finset.mem_toList.1 hj)
    exact hw x hx j h2 h1
  have hprob := simulate_weighted hL (t := t) hsize hi hd hJ (N := N) hN
  exact exists_of_probability (L := L) (N := N) (hprob ▸ mul_pos
    (Finset.prod_pos (fun x hx => by
      have hx := Finset.mem_range.1 hx
      have hx2 : x < i + g := Nat.lt_of_lt_of_le hx (Nat.le_add_right _ _)
      obtain ⟨h1, -, h3⟩ := hJ x hx2
      refine inTurn_pos h1 (fun j hj => ?_) (hpos x hx2)
      obtain ⟨h4, h5⟩ := h3 j hj
      rw [Nat.max_eq_left (Nat.le_of_lt hx)] at h4
      exact (List.mem_erase_of_ne h5).2 (List.mem_range.2 h4)))
    (Finset.prod_pos (fun j hj => by
      have hx2 : i + j < i + g := Nat.add_lt_add_left (Finset.mem_range.1 hj) _
      obtain ⟨h1, -, h3⟩ := hJ (i + j) hx2
      refine inTurn_pos h1 (fun k hk => ?_) (hpos (i + j) hx2)
      obtain ⟨h4, h5⟩ := h3 k hk
      rw [Nat.max_eq_right (Nat.le_add_right _ _)] at h4
      exact List.mem_range.2 h4)))

end FA

namespace FA.Props
open FA Spec Simulator

attribute [local irreducible] Probability

/-- C103: with `FameWeightedRandom`, the network is safe with probability 1 if and only if there are enough targets of
links to choose from, but, among the initial nodes, fewer than two quorum slices have members. -/
theorem C103_fame (L : ℕ) (hL : 0 < L) (rnd : ℚ → ℚ) (i g size th N : ℕ) (t : Text) (G : Graph)
    (hG : Graph.fromAsRelString t = .ok G) (hsize : 2 ≤ size) :
    let args : QscSimulator.Cli := ⟨i, g, .fameWeightedRandom size t none⟩
    let n := wantedSize args G.outlinks.length
    let i0 := initialSize args G.outlinks.length
    2 ≤ n → th < 2 ^ 64 → ThresholdFor none (min size n) th →
    (∀ d, 0 < d → d ≤ ((List.range n).map (fun y => if y < G.outlinks.length then linksInto G y else 1)).sum → d ∣ L) →
    n * (n + size) ≤ N →
    (Probability L N (fun r => ∃ doc f, QscSimulator.main (lottery L) rnd args r = .ok doc ∧
        Fbas.fromJson doc = .ok f ∧ QuorumIntersection f) = 1 ↔
      EnoughTargets G size (max i0 (min size n)) ∧
      ((Finset.range (max i0 (min size n))).filter (fun v => v < G.outlinks.length → 1 ≤ linksInto G v)).card <
        2 * th) := by
  intro args n i0 hn hfit ht hd hN
  obtain ⟨b1, b2, b3, b4⟩ := thresholdFor_bounds ht (by omega)
  have hiff := C99_fame_iff rnd i g size th t G hG hsize hn hfit ht
  constructor
  · intro h
    have he : EnoughTargets G size (max i0 (min size n)) := by
      by_contra hne
      obtain ⟨e, he⟩ := (C71_fame (lottery L) rnd i g size t none G hG hsize (List.replicate N 0)).2.2 hne
      obtain ⟨doc, f, h1, -⟩ := probability_one hL h (r := List.replicate N 0) List.length_replicate
        (fun v hv => by rw [List.eq_of_mem_replicate hv]; exact hL)
      rw [he] at h1; cases h1
    refine ⟨he, ?_⟩
    by_contra hP
    obtain ⟨ds, hp, hwt, hw⟩ := fame_degrees (R := lottery L) (rnd := rnd) (size := size) (th := none) hG
    have hsim := fun r => main_simulates (args := args) hp r
    have hig : i0 + g = n := (hsim []).1
    have hle : i0 ≤ n := by omega
    have hPr : ∀ v ∈ (Finset.range (max i0 (min size n))).filter
        (fun v => v < G.outlinks.length → 1 ≤ linksInto G v), v < max i0 (min size n) :=
      fun v hv => Finset.mem_range.1 (Finset.mem_filter.1 hv).1
    obtain ⟨A, B, V, a1, a2, a3, a4, a5, a6, a7⟩ := two_famous_groups (i := i0) (n := n) hle hsize ht hPr
      (Nat.le_of_not_lt hP)
    have hcard := Finset.card_filter_le (Finset.range (max i0 (min size n)))
      (fun v => v < G.outlinks.length → 1 ≤ linksInto G v)
    rw [Finset.card_range] at hcard
    have hi : size ≤ i0 := by omega
    obtain ⟨r, hr1, hr2, f, hf1, hf2⟩ := weighted_possible hL (t := none) hsize hi hig (by rw [hwt]; exact hd) hN a6
      (fun x hx v hv hne => by
        have h3 := (Finset.mem_filter.1 ((a7 x hx v hv).resolve_left hne)).2
        have e := congrFun hwt v
        rw [e]
        split <;> rename_i hy
        · exact h3 hy
        · exact Nat.one_pos)
    have hw' := hw _ he
    rw [← hig] at hw'
    obtain ⟨f2, h3, -, h4, h5⟩ := (gradual_random (lottery L) (t := none) hw' hsize).simulate g (Nat.le_refl _) r trivial
    rw [h3] at hf1
    obtain rfl := Except.ok.inj hf1
    rw [hig] at h4 h5
    have hl : f2.nodes.length = n := names_length h4
    have hq : ∀ x q, HasQSet f2 x q → ∃ vs, q = ⟨th, vs, []⟩ ∧ vs.Nodup ∧ vs.toFinset = V x := by
      intro x q hxq
      have hx : x < n := by rw [← hl]; exact hasQSet_lt hxq
      obtain ⟨-, h6⟩ := h5 x q hxq
      have h7 := canTrust_of_near h6
      obtain ⟨t', vs, rfl, h8⟩ := wanted_random h6.1.1
      obtain ⟨q', g1, g2⟩ := hf2 x hx
      obtain rfl : _ = q' := Option.some.inj ((getQuorumSet_iff.2 hxq).symm.trans (getQuorumSet_iff.2 g1))
      have g2 : vs = x :: ((V x).erase x).toList := g2
      have e4 := h8.2.2.2.2.1 rfl
      have hlen : vs.length = min size n := by rw [← List.toFinset_card_of_nodup h8.1, h7.card]
      rw [hlen] at e4
      refine ⟨vs, by rw [thresholdFor_unique ht e4], h8.1, ?_⟩
      rw [g2, List.toFinset_cons, Finset.toList_toFinset, Finset.insert_erase (a6 x hx).self]
    obtain ⟨f', h6, h7⟩ := prints_read_back hfit
      (fun x q hxq => by obtain ⟨vs, e, -⟩ := hq x q hxq; exact ⟨vs, e⟩) ⟨_, h4⟩
    obtain ⟨doc, f'', e1, e2, e3⟩ := probability_one hL h hr1 hr2
    have hm := (hsim r).2
    change _ = Except.map _ (QscSimulator.simulate (Qsc.random (lottery L) size none ds) i0 g r) at hm
    rw [h3] at hm
    rw [hm] at e1
    obtain rfl := Except.ok.inj e1
    rw [h6] at e2
    obtain rfl := Except.ok.inj e2
    obtain ⟨x, hx1, hx2⟩ := (h7.1 e3).2 A B (group_quorum hl b1 a1 a4 hq) (group_quorum hl b1 a2 a5 hq)
    exact Finset.disjoint_left.1 a3 hx1 hx2
  · rintro ⟨he, hP⟩
    refine probability_true hL (fun r _ _ => ?_)
    obtain ⟨f, h1, -⟩ := (C71_fame (lottery L) rnd i g size t none G hG hsize r).1 he
    obtain ⟨f', h2, h3⟩ := hiff.2 hP (lottery L) r _ h1
    exact ⟨_, f', h1, h2, h3⟩

/-- C103: the same for a given threshold. -/
theorem C103_fame_threshold (L : ℕ) (hL : 0 < L) (rnd : ℚ → ℚ) (i g size u N : ℕ) (t : Text) (G : Graph)
    (hG : Graph.fromAsRelString t = .ok G) (hsize : 2 ≤ size) :
    let args : QscSimulator.Cli := ⟨i, g, .fameWeightedRandom size t (some u)⟩
    let n := wantedSize args G.outlinks.length
    let i0 := initialSize args G.outlinks.length
    2 ≤ n → u < 2 ^ 64 →
    (∀ d, 0 < d → d ≤ ((List.range n).map (fun y => if y < G.outlinks.length then linksInto G y else 1)).sum → d ∣ L) →
    n * (n + size) ≤ N →
    (Probability L N (fun r => ∃ doc f, QscSimulator.main (lottery L) rnd args r = .ok doc ∧
        Fbas.fromJson doc = .ok f ∧ QuorumIntersection f) = 1 ↔
      EnoughTargets G size (max i0 (min size n)) ∧ u ≤ min size n ∧
      ((Finset.range (max i0 (min size n))).filter (fun v => v < G.outlinks.length → 1 ≤ linksInto G v)).card <
        2 * u) := by
  intro args n i0 hn hfit hd hN
  constructor
  · intro h
    have hv0 : ∀ v ∈ List.replicate N 0, v < L := fun v hv => by rw [List.eq_of_mem_replicate hv]; exact hL
    have he : EnoughTargets G size (max i0 (min size n)) := by
      by_contra hne
      obtain ⟨e, he⟩ := (C71_fame (lottery L) rnd i g size t (some u) G hG hsize (List.replicate N 0)).2.2 hne
      obtain ⟨doc, f, h1, -⟩ := probability_one hL h List.length_replicate hv0
      rw [he] at h1; cases h1
    refine ⟨he, ?_⟩
    obtain ⟨ds, hp, hwt, hw⟩ := fame_degrees (R := lottery L) (rnd := rnd) (size := size) (th := some u) hG
    have hsim := fun r => main_simulates (args := args) hp r
    have hig : i0 + g = n := (hsim []).1
    have hle : i0 ≤ n := by omega
    have hk := enoughTargets_card hsize hn hle he
    have hw' := hw _ he
    rw [← hig] at hw'
    have hrun : ∀ r : List ℕ, r.length = N → (∀ v ∈ r, v < L) → ∃ f,
        QscSimulator.simulate (Qsc.random (lottery L) size (some u) ds) i0 g r = .ok f ∧ Chosen size i0 n u f ∧
        QuorumIntersection f := by
      intro r hr1 hr2
      obtain ⟨f, h3, -, h4, h5⟩ :=
        (gradual_random (lottery L) (t := some u) hw' hsize).simulate g (Nat.le_refl _) r trivial
      rw [hig] at h4 h5
      have hc : Chosen size i0 n u f := by
        refine ⟨names_length h4, fun x q hxq => ?_⟩
        obtain ⟨-, h6⟩ := h5 x q hxq
        have h7 := canTrust_of_near h6
        obtain ⟨t', vs, rfl, h8⟩ := wanted_random h6.1.1
        exact ⟨vs, by rw [h8.2.2.2.2.2 u rfl], h8.1, h7⟩
      obtain ⟨f', h6, h7⟩ := prints_read_back hfit
        (fun x q hxq => by obtain ⟨vs, e, -⟩ := hc.2 x q hxq; exact ⟨vs, e⟩) ⟨_, h4⟩
      obtain ⟨doc, f'', e1, e2, e3⟩ := probability_one hL h hr1 hr2
      have hm := (hsim r).2
      change _ = Except.map _ (QscSimulator.simulate (Qsc.random (lottery L) size (some u) ds) i0 g r) at hm
      rw [h3] at hm
      rw [hm] at e1
      obtain rfl := Except.ok.inj e1
      rw [h6] at e2
      obtain rfl := Except.ok.inj e2
      exact ⟨f, h3, hc, h7.1 e3⟩
    obtain ⟨f0, -, hc0, hqi0⟩ := hrun _ List.length_replicate hv0
    have hu : 1 ≤ u ∧ u ≤ min size n := by
      obtain ⟨Q, ⟨x, hx⟩, hQ⟩ := hqi0.1
      obtain ⟨q, hxq, hs⟩ := hQ x hx
      obtain ⟨vs, rfl, e3, e4⟩ := hc0.2 x q hxq
      obtain ⟨s1, s2⟩ := (slice_card_iff e3).1 hs
      exact ⟨s1, s2.trans ((Finset.card_le_card Finset.inter_subset_left).trans (Nat.le_of_eq e4.card))⟩
    refine ⟨hu.2, ?_⟩
    by_contra hP
    by_cases hi : size ≤ i0
    · obtain ⟨A, B, V, a1, a2, a3, a4, a5, a6, a7⟩ := two_groups_among (i := i0) (n := n) hle hsize hu.2 hk
        (fun v hv => Finset.mem_range.1 (Finset.mem_filter.1 hv).1) (Nat.le_of_not_lt hP)
      obtain ⟨r, hr1, hr2, f, hf1, hf2⟩ := weighted_possible hL (t := some u) hsize hi hig (by rw [hwt]; exact hd) hN a6
        (fun x hx v hv hne => by
          have h3 := (Finset.mem_filter.1 ((a7 x hx v hv).resolve_left hne)).2
          have e := congrFun hwt v
          rw [e]
          split <;> rename_i hy
          · exact h3 hy
          · exact Nat.one_pos)
      obtain ⟨f2, h3, hc, hqi⟩ := hrun r hr1 hr2
      rw [h3] at hf1
      obtain rfl := Except.ok.inj hf1
      have hq : ∀ x q, HasQSet f2 x q → ∃ vs, q = ⟨u, vs, []⟩ ∧ vs.Nodup ∧ vs.toFinset = V x := by
        intro x q hxq
        have hx : x < n := by rw [← hc.1]; exact hasQSet_lt hxq
        obtain ⟨vs, rfl, e1, -⟩ := hc.2 x q hxq
        obtain ⟨q', g1, g2⟩ := hf2 x hx
        obtain rfl : _ = q' := Option.some.inj ((getQuorumSet_iff.2 hxq).symm.trans (getQuorumSet_iff.2 g1))
        have g2 : vs = x :: ((V x).erase x).toList := g2
        refine ⟨vs, rfl, e1, ?_⟩
        rw [g2, List.toFinset_cons, Finset.toList_toFinset, Finset.insert_erase (a6 x hx).self]
      obtain ⟨x, hx1, hx2⟩ := hqi.2 A B (group_quorum hc.1 hu.1 a1 a4 hq) (group_quorum hc.1 hu.1 a2 a5 hq)
      exact Finset.disjoint_left.1 a3 hx1 hx2
    · have hcard := Finset.card_filter_le (Finset.range (max i0 (min size n)))
        (fun v => v < G.outlinks.length → 1 ≤ linksInto G v)
      rw [Finset.card_range] at hcard
      have hmax : max i0 (min size n) = min size n := by omega
      have hquo : ∀ A : Finset ℕ, A ⊆ Finset.range (min size n) → A.card = u → IsQuorum f0 A := by
        intro A hA hAc
        refine ⟨Finset.card_pos.1 (by omega), fun x hx => ?_⟩
        have hxk : x < min size n := Finset.mem_range.1 (hA hx)
        obtain ⟨q, hq⟩ := hasQSet_of_lt (f := f0) (x := x) (by
          rw [hc0.1]; exact Nat.lt_of_lt_of_le hxk (Nat.min_le_right _ _))
        obtain ⟨vs, rfl, hnd, hct⟩ := hc0.2 x q hq
        refine ⟨_, hq, (slice_card_iff hnd).2 ⟨hu.1, ?_⟩⟩
        have hsub : vs.toFinset ⊆ Finset.range (min size n) := fun v hv => by
          have h3 := hct.near v hv
          rw [hmax] at h3
          have key : ∀ a b c : ℕ, b < c → a < max (b + 1) c → a < c := by omega
          exact Finset.mem_range.2 (key v x _ hxk h3)
        rw [Finset.eq_of_subset_of_card_le hsub (by rw [Finset.card_range, hct.card]),
          Finset.inter_eq_right.2 hA, hAc]
      obtain ⟨x, hx1, hx2⟩ := hqi0.2 (Finset.range u) (Finset.Ico u (2 * u))
        (hquo _ (Finset.range_subset_range.2 hu.2) (Finset.card_range _))
        (hquo _ (fun x hx => Finset.mem_range.2 (Nat.lt_of_lt_of_le (Finset.mem_Ico.1 hx).2 (by omega)))
          (by rw [Nat.card_Ico]; omega))
      exact absurd (Finset.mem_range.1 hx1) (Nat.not_lt.2 (Finset.mem_Ico.1 hx2).1)
  · rintro ⟨he, hP⟩
    refine probability_true hL (fun r _ _ => ?_)
    obtain ⟨f, h1, -⟩ := (C71_fame (lottery L) rnd i g size t (some u) G hG hsize r).1 he
    obtain ⟨f', h2, h3⟩ := (C99_fame_threshold rnd i g size u t G hG hsize hn hfit he).2 hP (lottery L) r _ h1
    exact ⟨_, f', h1, h2, h3⟩

/-- The networks of the example of `C99_fame_iff`: those with two nodes that everybody chooses are safe with probability
1, those with two pairs of peers are not. -/
example : Probability 60 24 (fun r => ∃ doc f, QscSimulator.main (lottery 60) id
      ⟨0, 0, .fameWeightedRandom 2 "0|2|-1\n1|2|-1\n1|0|0\n0|3|-1\n".toList none⟩ r = .ok doc ∧
      Fbas.fromJson doc = .ok f ∧ QuorumIntersection f) = 1 ∧
    Probability 60 24 (fun r => ∃ doc f, QscSimulator.main (lottery 60) id
      ⟨0, 0, .fameWeightedRandom 2 "0|1|0\n2|3|0\n".toList none⟩ r = .ok doc ∧
      Fbas.fromJson doc = .ok f ∧ QuorumIntersection f) ≠ 1 := by
  have hg : ∀ (t : Text) (l : List (List NodeId)), (Graph.fromAsRelString t).map Graph.outlinks = .ok l →
      Graph.fromAsRelString t = .ok ⟨l⟩ := by
    intro t l h
    cases hg : Graph.fromAsRelString t with
    | error e => rw [hg] at h; cases h
    | ok G => rw [hg] at h; obtain rfl := Except.ok.inj h; rfl
  have g1 := hg "0|2|-1\n1|2|-1\n1|0|0\n0|3|-1\n".toList [[1], [0], [0, 1], [0]] (Ref.ok_of (by decide +kernel))
  have g2 := hg "0|1|0\n2|3|0\n".toList [[1], [0], [3], [2]] (Ref.ok_of (by decide +kernel))
  have hdiv : ∀ d < 6, 0 < d → d ∣ 60 := by decide
  refine ⟨(C103_fame 60 (by decide) id 0 0 2 2 24 _ _ g1 (Nat.le_refl _) (by decide) (by decide) (C81_threshold 2 none)
    (fun d h1 h2 => hdiv d (Nat.lt_succ_of_le (h2.trans (by decide))) h1) (by decide)).2 ⟨?_, by decide⟩, fun h => ?_⟩
  · by_contra h
    obtain ⟨e, he⟩ := (C71_fame busyRand id 0 0 2 _ none _ g1 (Nat.le_refl _) (0 : ℕ)).2.2 h
    have hok : (QscSimulator.main busyRand id ⟨0, 0, .fameWeightedRandom 2
        "0|2|-1\n1|2|-1\n1|0|0\n0|3|-1\n".toList none⟩ (0 : ℕ)).toOption.isSome = true := by decide +kernel
    rw [he] at hok
    cases hok
  · exact absurd ((C103_fame 60 (by decide) id 0 0 2 2 24 _ _ g2 (Nat.le_refl _) (by decide) (by decide)
      (C81_threshold 2 none) (fun d h1 h2 => hdiv d (Nat.lt_succ_of_le (h2.trans (by decide))) h1) (by decide)).1 h).2
      (by decide)

/-- `C103_fame_threshold`: of the thresholds below 4, only 2 makes the networks of two nodes that are chosen by three safe
with probability 1. -/
example : ∀ u < 4, Probability 12 15 (fun r => ∃ doc f, QscSimulator.main (lottery 12) id
      ⟨0, 0, .fameWeightedRandom 2 unfamous (some u)⟩ r = .ok doc ∧
      Fbas.fromJson doc = .ok f ∧ QuorumIntersection f) = 1 ↔ u = 2 := by
  have he : EnoughTargets ⟨[[1], [0], [0, 1]]⟩ 2 3 := by
    by_contra h
    obtain ⟨e, he⟩ := (C71_fame busyRand id 0 0 2 unfamous none _ unfamous_graph (Nat.le_refl _) (0 : ℕ)).2.2 h
    have hok : (QscSimulator.main busyRand id ⟨0, 0, .fameWeightedRandom 2 unfamous none⟩
        (0 : ℕ)).toOption.isSome = true := by decide +kernel
    rw [he] at hok
    cases hok
  have hsum : ((List.range 3).map (fun y => if y < 3 then linksInto ⟨[[1], [0], [0, 1]]⟩ y else 1)).sum ≤ 4 := by decide
  intro u hu
  refine (C103_fame_threshold 12 (by decide) id 0 0 2 u 15 unfamous _ unfamous_graph (Nat.le_refl _)
    (show 2 ≤ 3 by decide) (by omega) (fun d h1 h2 => (by decide : ∀ d < 5, 0 < d → d ∣ 12) d
      (Nat.lt_succ_of_le (h2.trans hsum)) h1) (show 3 * (3 + 2) ≤ 15 by decide)).trans ?_
  exact (and_iff_right he).trans ((by decide : ∀ u < 4, (u ≤ 2 ∧ ((Finset.range 3).filter (fun v => v < 3 →
    1 ≤ linksInto ⟨[[1], [0], [0, 1]]⟩ v)).card < 2 * u) ↔ u = 2) u hu)

#print axioms C103_fame
#print axioms C103_fame_threshold

end FA.Props
