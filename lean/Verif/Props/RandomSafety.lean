import Verif.Lemmas.RandomSafety
import Verif.Props.RandomRange
import Verif.Props.Pipeline

/-!
# C99: when networks with random quorum sets are safe
-/

namespace FA
open Spec Simulator Props

theorem thresholdFor_unique {k t t' : ℕ} (h : ThresholdFor none k t) (h' : ThresholdFor none k t') : t' = t :=
  Nat.le_antisymm ((h' t).2 ((h t).1 (Nat.le_refl _))) ((h t').2 ((h' t').1 (Nat.le_refl _)))

theorem intersection_congr {f f' : Fbas} (h : ∀ Q, IsQuorum f' Q ↔ IsQuorum f Q) :
    QuorumIntersection f' ↔ QuorumIntersection f := by
  unfold QuorumIntersection
  simp only [h]

/-- Networks with flat quorum sets and small thresholds can be read back. -/
theorem prints_read_back {f : Fbas} {t : ℕ} (ht : t < 2 ^ 64)
    (hq : ∀ x q, HasQSet f x q → ∃ vs, q = ⟨t, vs, []⟩)
    (hn : ∃ n, f.nodes.map Node.publicKey = (List.range n).map (fun i => "n" ++ toString i)) :
    ∃ f', Fbas.fromJson f.toJson = .ok f' ∧ (QuorumIntersection f' ↔ QuorumIntersection f) := by
  obtain ⟨n, hn⟩ := hn
  have hfits : ∀ v ∈ f.nodes, FitsQ v.quorumSet := by
    intro v hv
    obtain ⟨k, hk⟩ := List.mem_iff_getElem?.1 hv
    obtain ⟨vs, hvs⟩ := hq k v.quorumSet ⟨v, hk, rfl⟩
    rw [hvs]
    exact .intro ht (fun q hq => by cases hq)
  obtain ⟨-, h2⟩ := generic_read_back hn
  exact ⟨_, C63_save_load f hfits, intersection_congr h2⟩

end FA

namespace FA.Props
open FA Spec Simulator Tool

/-- C99: `qsc_simulator … random` yields a network with quorum intersection, whatever the random choices, if and only
if there are fewer initial nodes than two quorum slices have members. -/
theorem C99_random (rnd : ℚ → ℚ) (i g size t : ℕ) (hsize : 2 ≤ size) (hpos : 1 ≤ i + g) (hfit : t < 2 ^ 64)
    (ht : ThresholdFor none (min size (i + g)) t) :
    (∀ (R : Rand) (s : R.State), ∃ doc f, QscSimulator.main R rnd ⟨i, g, .random size⟩ s = .ok doc ∧
      Fbas.fromJson doc = .ok f ∧ QuorumIntersection f) ↔ i < 2 * t := by
  have hle : i ≤ i + g := Nat.le_add_right _ _
  obtain ⟨b1, b2, b3, b4⟩ := thresholdFor_bounds ht (by omega)
  constructor
  · intro h
    by_contra hi
    have hi : 2 * t ≤ i := Nat.le_of_not_lt hi
    have hmin : min size (i + g) = size := by omega
    rw [hmin] at ht b2 b3
    obtain ⟨R, s, f, h1, h2, h3⟩ := C98_random_possible rnd i g size hsize (twoGroups size t)
      (fun x hx => canTrust_twoGroups hle hsize b2 b3 hi hx)
    have hq : ∀ x q, HasQSet f x q → ∃ vs, q = ⟨t, vs, []⟩ ∧ vs.Nodup ∧ vs.toFinset = twoGroups size t x := by
      intro x q hxq
      obtain ⟨t', vs, rfl, e1, e2, e3⟩ := h3 x q hxq
      have hx : x < i + g := by rw [← names_length h2]; exact hasQSet_lt hxq
      have hlen : vs.length = size := by
        rw [← List.toFinset_card_of_nodup e1, e2, (canTrust_twoGroups hle hsize b2 b3 hi hx).card, hmin]
      rw [hlen] at e3
      exact ⟨vs, by rw [thresholdFor_unique ht e3], e1, e2⟩
    obtain ⟨Q₁, Q₂, q1, q2, hd⟩ := twoGroups_split (names_length h2) hle b1 b2 b3 hi hq
    obtain ⟨f', h4, h5⟩ := prints_read_back hfit
      (fun x q hxq => by obtain ⟨vs, e, -⟩ := hq x q hxq; exact ⟨vs, e⟩) ⟨_, h2⟩
    obtain ⟨doc, f'', e1, e2, e3⟩ := h R s
    rw [h1] at e1
    obtain rfl := Except.ok.inj e1
    rw [h4] at e2
    obtain rfl := Except.ok.inj e2
    obtain ⟨x, hx1, hx2⟩ := (h5.1 e3).2 Q₁ Q₂ q1 q2
    exact hd x hx1 hx2
  · intro hi R s
    obtain ⟨f, h1, h2, h3⟩ := C98_random_only R rnd i g size hsize s
    have hq : ∀ x q, HasQSet f x q →
        ∃ vs, q = ⟨t, vs, []⟩ ∧ vs.Nodup ∧ CanTrust size i (i + g) x vs.toFinset := by
      intro x q hxq
      obtain ⟨t', vs, rfl, e1, e2, e3⟩ := h3 x q hxq
      have hlen : vs.length = min size (i + g) := by rw [← List.toFinset_card_of_nodup e1, e2.card]
      rw [hlen] at e3
      exact ⟨vs, by rw [thresholdFor_unique ht e3], e1, e2⟩
    have hc : Chosen size i (i + g) t f := ⟨names_length h2, hq⟩
    obtain ⟨f', h4, h5⟩ := prints_read_back hfit
      (fun x q hxq => by obtain ⟨vs, e, -⟩ := hq x q hxq; exact ⟨vs, e⟩) ⟨_, h2⟩
    exact ⟨_, f', h1, h4, h5.2 (hc.intersection hle hpos hsize ht hi)⟩

/-- With four nodes per quorum set three are required. So five initial nodes are safe, but not six. -/
example : ThresholdFor none (min 4 (5 + 7)) 3 ∧ 5 < 2 * 3 ∧ ThresholdFor none (min 4 (6 + 0)) 3 ∧ ¬ 6 < 2 * 3 :=
  ⟨C81_threshold 4 none, by decide, C81_threshold 4 none, by decide⟩

/-- C99: in particular, all networks are safe that grow from at most as many nodes as are wanted per quorum set. -/
theorem C99_random_grown (R : Rand) (rnd : ℚ → ℚ) (i g size : ℕ) (s : R.State) (hsize : 2 ≤ size)
    (hpos : 1 ≤ i + g) (hi : i ≤ size) (hfit : size < 2 ^ 64) :
    ∃ doc f, QscSimulator.main R rnd ⟨i, g, .random size⟩ s = .ok doc ∧
      Fbas.fromJson doc = .ok f ∧ QuorumIntersection f := by
  have ht := C81_threshold (min size (i + g)) none
  obtain ⟨b1, b2, b3, b4⟩ := thresholdFor_bounds ht (by omega)
  exact (C99_random rnd i g size _ hsize hpos (by omega) ht).2 (by omega) R s

/-- C99: the verdict that `qsc_simulator … random | fbas_analyzer -i` prints is `true` for all random choices if there
are fewer initial nodes than two quorum slices have members. -/
theorem C99_random_verdict {env : Env} {order : List String → List String} {opts : Options} {f : Fbas}
    {gr : Option Groupings} {gs : List Grouping} {lines : List Line} (R : Rand) (rnd : ℚ → ℚ) (i g size t : ℕ)
    (s : R.State) (hsize : 2 ≤ size) (hpos : 1 ≤ i + g) (hfit : t < 2 ^ 64)
    (ht : ThresholdFor none (min size (i + g)) t) (hi : i < 2 * t)
    (h : QscSimulator.main R rnd ⟨i, g, .random size⟩ s = .ok opts.nodes)
    (hr : Run env order opts f gr gs lines) (hd : DisjointGroups gs) (j : Json)
    (hj : ("has_quorum_intersection", j) ∈ results lines) : j = .bool true := by
  obtain ⟨doc, f', e1, e2, e3⟩ := (C99_random rnd i g size t hsize hpos hfit ht).2 hi R s
  rw [h] at e1
  obtain rfl := Except.ok.inj e1
  have h4 := hr.nodes
  rw [e2] at h4
  obtain rfl := Except.ok.inj h4
  obtain ⟨b, rfl, hb⟩ := (C95_exact R rnd _ s h hr hd e3.1 j).2.1 hj
  rw [hb.2 e3]

/-- C99: the same condition suffices for `FameWeightedRandom` without a given threshold, if the tool does not
panic. -/
theorem C99_fame (R : Rand) (rnd : ℚ → ℚ) (i g size th : ℕ) (t : Text) (G : Graph)
    (hG : Graph.fromAsRelString t = .ok G) (hsize : 2 ≤ size) (s : R.State) (doc : Json)
    (h : QscSimulator.main R rnd ⟨i, g, .fameWeightedRandom size t none⟩ s = .ok doc) :
    let args : QscSimulator.Cli := ⟨i, g, .fameWeightedRandom size t none⟩
    let n := wantedSize args G.outlinks.length
    1 ≤ n → th < 2 ^ 64 → ThresholdFor none (min size n) th → initialSize args G.outlinks.length < 2 * th →
    ∃ f, Fbas.fromJson doc = .ok f ∧ QuorumIntersection f := by
  intro args n hpos hfit ht hi
  obtain ⟨f, h1, h2, h3⟩ := C98_fame_only R rnd i g size t none G hG hsize s doc h
  obtain rfl := Except.ok.inj h1
  have hle : initialSize args G.outlinks.length ≤ n := by
    obtain ⟨ds, hp, -⟩ := fame_config (R := R) (rnd := rnd) (size := size) (th := none) hG
    obtain ⟨e, -⟩ := main_simulates (args := args) hp s
    exact (Nat.le_add_right _ _).trans_eq e
  have hq : ∀ x q, HasQSet f x q → ∃ vs, q = ⟨th, vs, []⟩ ∧ vs.Nodup ∧
      CanTrust size (initialSize args G.outlinks.length) n x vs.toFinset := by
    intro x q hxq
    obtain ⟨t', vs, rfl, e1, e2, -, e3, -⟩ := h3 x q hxq
    have hlen : vs.length = min size n := by rw [← List.toFinset_card_of_nodup e1, e2.card]
    have e4 := e3 rfl
    rw [hlen] at e4
    exact ⟨vs, by rw [thresholdFor_unique ht e4], e1, e2⟩
  have hc : Chosen size (initialSize args G.outlinks.length) n th f := ⟨names_length h2, hq⟩
  obtain ⟨f', h4, h5⟩ := prints_read_back hfit
    (fun x q hxq => by obtain ⟨vs, e, -⟩ := hq x q hxq; exact ⟨vs, e⟩) ⟨_, h2⟩
  exact ⟨f', h4, h5.2 (hc.intersection hle hpos hsize ht hi)⟩

/-- Three nodes with two nodes per quorum set. -/
example : ∃ doc f, QscSimulator.main busyRand id ⟨0, 0, .fameWeightedRandom 2 unfamous none⟩ (0 : ℕ) = .ok doc ∧
    Fbas.fromJson doc = .ok f ∧ QuorumIntersection f := by
  have hok : (QscSimulator.main busyRand id ⟨0, 0, .fameWeightedRandom 2 unfamous none⟩
      (0 : ℕ)).toOption.isSome = true := by decide +kernel
  cases h : QscSimulator.main busyRand id ⟨0, 0, .fameWeightedRandom 2 unfamous none⟩ (0 : ℕ) with
  | error e => rw [h] at hok; cases hok
  | ok doc =>
    obtain ⟨f, h1, h2⟩ := C99_fame busyRand id 0 0 2 2 unfamous _ unfamous_graph (Nat.le_refl _) (0 : ℕ) doc h
      (by decide) (by decide) (C81_threshold 2 none) (by decide)
    exact ⟨doc, f, rfl, h1, h2⟩

/-- C99: exactly, if links lead to `p` of the initial nodes (nodes outside of the graph count, too), the networks that
`FameWeightedRandom` can yield without a given threshold all have quorum intersection if and only if `p` is smaller than
two quorum slices have members: nodes that are not the target of a link are not chosen by anyone. -/
theorem C99_fame_iff (rnd : ℚ → ℚ) (i g size th : ℕ) (t : Text) (G : Graph)
    (hG : Graph.fromAsRelString t = .ok G) (hsize : 2 ≤ size) :
    let args : QscSimulator.Cli := ⟨i, g, .fameWeightedRandom size t none⟩
    let n := wantedSize args G.outlinks.length
    let i0 := initialSize args G.outlinks.length
    2 ≤ n → th < 2 ^ 64 → ThresholdFor none (min size n) th →
    ((∀ (R : Rand) (s : R.State) (doc : Json), QscSimulator.main R rnd args s = .ok doc →
        ∃ f, Fbas.fromJson doc = .ok f ∧ QuorumIntersection f) ↔
      ((Finset.range (max i0 (min size n))).filter (fun v => v < G.outlinks.length → 1 ≤ linksInto G v)).card <
        2 * th) := by
  intro args n i0 hn hfit ht
  obtain ⟨b1, b2, b3, b4⟩ := thresholdFor_bounds ht (by omega)
  have hle : i0 ≤ n := by
    obtain ⟨ds, hp, -⟩ := fame_config (R := busyRand) (rnd := rnd) (size := size) (th := none) hG
    obtain ⟨e, -⟩ := main_simulates (args := args) hp (0 : ℕ)
    exact (Nat.le_add_right _ _).trans_eq e
  constructor
  · intro h
    by_contra hP
    obtain ⟨A, B, V, a1, a2, a3, a4, a5, a6, a7⟩ := two_famous_groups (i := i0) (n := n) hle hsize ht
      (fun v hv => Finset.mem_range.1 (Finset.mem_filter.1 hv).1) (Nat.le_of_not_lt hP)
    obtain ⟨R, s, f, h1, h2, h3⟩ := C98_fame_possible rnd i g size t none G hG hsize V a6
      (fun x hx v hv => (a7 x hx v hv).imp id (fun h => (Finset.mem_filter.1 h).2))
    have hl : f.nodes.length = n := names_length h2
    have hq : ∀ x q, HasQSet f x q → ∃ vs, q = ⟨th, vs, []⟩ ∧ vs.Nodup ∧ vs.toFinset = V x := by
      intro x q hxq
      obtain ⟨t', vs, rfl, e1, e2, e3, -⟩ := h3 x q hxq
      have hx : x < n := by rw [← hl]; exact hasQSet_lt hxq
      have hlen : vs.length = min size n := by rw [← List.toFinset_card_of_nodup e1, e2, (a6 x hx).card]
      have e4 := e3 rfl
      rw [hlen] at e4
      exact ⟨vs, by rw [thresholdFor_unique ht e4], e1, e2⟩
    obtain ⟨f', h4, h5⟩ := prints_read_back hfit
      (fun x q hxq => by obtain ⟨vs, e, -⟩ := hq x q hxq; exact ⟨vs, e⟩) ⟨_, h2⟩
    obtain ⟨f'', e1, e2⟩ := h R s _ h1
    rw [h4] at e1
    obtain rfl := Except.ok.inj e1
    obtain ⟨x, hx1, hx2⟩ := (h5.1 e2).2 A B (group_quorum hl b1 a1 a4 hq) (group_quorum hl b1 a2 a5 hq)
    exact Finset.disjoint_left.1 a3 hx1 hx2
  · intro hP R s doc h
    obtain ⟨f, h1, h2, h3⟩ := C98_fame_only R rnd i g size t none G hG hsize s doc h
    obtain rfl := Except.ok.inj h1
    have hq : ∀ x q, HasQSet f x q → ∃ vs, q = ⟨th, vs, []⟩ ∧ vs.Nodup ∧ CanTrust size i0 n x vs.toFinset := by
      intro x q hxq
      obtain ⟨t', vs, rfl, e1, e2, -, e3, -⟩ := h3 x q hxq
      have hlen : vs.length = min size n := by rw [← List.toFinset_card_of_nodup e1, e2.card]
      have e4 := e3 rfl
      rw [hlen] at e4
      exact ⟨vs, by rw [thresholdFor_unique ht e4], e1, e2⟩
    have hc : Chosen size i0 n th f := ⟨names_length h2, hq⟩
    obtain ⟨f', h4, h5⟩ := prints_read_back hfit
      (fun x q hxq => by obtain ⟨vs, e, -⟩ := hq x q hxq; exact ⟨vs, e⟩) ⟨_, h2⟩
    refine ⟨f', h4, h5.2 (hc.intersectionFamous hle hn hsize ht (fun x q hxq v hv hne hlt => ?_) hP)⟩
    obtain ⟨t', vs, rfl, -, -, e1, -⟩ := h3 x q hxq
    exact Finset.mem_filter.2 ⟨Finset.mem_range.2 hlt, (e1 v hv).resolve_left hne⟩

/-- The nodes that can be chosen are at least as many as are wanted in quorum sets. -/
theorem enoughTargets_card {G : Graph} {size n i0 : ℕ} (hsize : 2 ≤ size) (hn : 2 ≤ n) (hle : i0 ≤ n)
    (he : EnoughTargets G size (max i0 (min size n))) : min size n ≤
      ((Finset.range (max i0 (min size n))).filter (fun v => v < G.outlinks.length → 1 ≤ linksInto G v)).card := by
  have hm : min size (max i0 (min size n)) = min size n := by omega
  have hset : ∀ x, {y : ℕ | y < max i0 (min size n) ∧ y ≠ x ∧ (y < G.outlinks.length → 1 ≤ linksInto G y)} =
      ↑(((Finset.range (max i0 (min size n))).filter (fun v => v < G.outlinks.length → 1 ≤ linksInto G v)).erase x) := by
    intro x
    ext y
    rw [Finset.mem_coe, Finset.mem_erase, Finset.mem_filter, Finset.mem_range, Set.mem_ofPred_eq]
    exact ⟨fun h => ⟨h.2.1, h.1, h.2.2⟩, fun h => ⟨h.2.1, h.1, h.2.2⟩⟩
  have he' : ∀ x < max i0 (min size n), min size n ≤ 1 + (((Finset.range (max i0 (min size n))).filter
      (fun v => v < G.outlinks.length → 1 ≤ linksInto G v)).erase x).card := by
    intro x hx
    have h := he x hx
    rwa [hm, hset, Set.ncard_coe_finset] at h
  obtain ⟨y, hy⟩ : (((Finset.range (max i0 (min size n))).filter
      (fun v => v < G.outlinks.length → 1 ≤ linksInto G v)).erase 0).Nonempty := by
    rw [← Finset.card_pos]
    have h := he' 0 (by omega)
    omega
  have hy := Finset.mem_of_mem_erase hy
  have h := he' y (Finset.mem_range.1 (Finset.mem_filter.1 hy).1)
  have hc := Finset.card_pos.2 ⟨y, hy⟩
  rw [Finset.card_erase_of_mem hy] at h
  omega

/-- C99: with `FameWeightedRandom` and a given threshold, if there are enough targets of links so that the tool does not
panic: the networks are all safe if and only if the threshold is at most the size of the quorum sets and more than half
of the number of initial nodes that can be chosen. -/
theorem C99_fame_threshold (rnd : ℚ → ℚ) (i g size u : ℕ) (t : Text) (G : Graph)
    (hG : Graph.fromAsRelString t = .ok G) (hsize : 2 ≤ size) :
    let args : QscSimulator.Cli := ⟨i, g, .fameWeightedRandom size t (some u)⟩
    let n := wantedSize args G.outlinks.length
    let i0 := initialSize args G.outlinks.length
    2 ≤ n → u < 2 ^ 64 → EnoughTargets G size (max i0 (min size n)) →
    ((∀ (R : Rand) (s : R.State) (doc : Json), QscSimulator.main R rnd args s = .ok doc →
        ∃ f, Fbas.fromJson doc = .ok f ∧ QuorumIntersection f) ↔
      u ≤ min size n ∧
      ((Finset.range (max i0 (min size n))).filter (fun v => v < G.outlinks.length → 1 ≤ linksInto G v)).card <
        2 * u) := by
  intro args n i0 hn hfit he
  have hle : i0 ≤ n := by
    obtain ⟨ds, hp, -⟩ := fame_config (R := busyRand) (rnd := rnd) (size := size) (th := some u) hG
    obtain ⟨e, -⟩ := main_simulates (args := args) hp (0 : ℕ)
    exact (Nat.le_add_right _ _).trans_eq e
  have hk := enoughTargets_card hsize hn hle he
  constructor
  · intro h
    have hu : 1 ≤ u ∧ u ≤ min size n := by
      obtain ⟨f, h1, h2, h3⟩ := (C71_fame busyRand rnd i g size t (some u) G hG hsize (0 : ℕ)).1 he
      have hq : ∀ x q, HasQSet f x q → ∃ vs, q = ⟨u, vs, []⟩ ∧ vs.Nodup ∧ vs.length = min size n := by
        intro x q hxq
        obtain ⟨t', vs, rfl, e1, -, -, e2, -, e3, -⟩ := h3 x q hxq
        exact ⟨vs, by rw [e3 u rfl], e1, e2⟩
      obtain ⟨f', h4, h5⟩ := prints_read_back hfit
        (fun x q hxq => by obtain ⟨vs, e, -⟩ := hq x q hxq; exact ⟨vs, e⟩) ⟨_, h2⟩
      obtain ⟨f'', e1, e2⟩ := h busyRand (0 : ℕ) _ h1
      rw [h4] at e1
      obtain rfl := Except.ok.inj e1
      obtain ⟨Q, ⟨x, hx⟩, hQ⟩ := (h5.1 e2).1
      obtain ⟨q, hxq, hs⟩ := hQ x hx
      obtain ⟨vs, rfl, e3, e4⟩ := hq x q hxq
      obtain ⟨s1, s2⟩ := (slice_card_iff e3).1 hs
      refine ⟨s1, s2.trans ((Finset.card_le_card Finset.inter_subset_left).trans ?_)⟩
      rw [List.toFinset_card_of_nodup e3, e4]
    refine ⟨hu.2, ?_⟩
    by_contra hP
    obtain ⟨A, B, V, a1, a2, a3, a4, a5, a6, a7⟩ := two_groups_among (i := i0) (n := n) hle hsize hu.2 hk
      (fun v hv => Finset.mem_range.1 (Finset.mem_filter.1 hv).1) (Nat.le_of_not_lt hP)
    obtain ⟨R, s, f, h1, h2, h3⟩ := C98_fame_possible rnd i g size t (some u) G hG hsize V a6
      (fun x hx v hv => (a7 x hx v hv).imp id (fun h => (Finset.mem_filter.1 h).2))
    have hl : f.nodes.length = n := names_length h2
    have hq : ∀ x q, HasQSet f x q → ∃ vs, q = ⟨u, vs, []⟩ ∧ vs.Nodup ∧ vs.toFinset = V x := by
      intro x q hxq
      obtain ⟨t', vs, rfl, e1, e2, -, e3⟩ := h3 x q hxq
      exact ⟨vs, by rw [e3 u rfl], e1, e2⟩
    obtain ⟨f', h4, h5⟩ := prints_read_back hfit
      (fun x q hxq => by obtain ⟨vs, e, -⟩ := hq x q hxq; exact ⟨vs, e⟩) ⟨_, h2⟩
    obtain ⟨f'', e1, e2⟩ := h R s _ h1
    rw [h4] at e1
    obtain rfl := Except.ok.inj e1
    obtain ⟨x, hx1, hx2⟩ := (h5.1 e2).2 A B (group_quorum hl hu.1 a1 a4 hq) (group_quorum hl hu.1 a2 a5 hq)
    exact Finset.disjoint_left.1 a3 hx1 hx2
  · rintro ⟨hu, hP⟩ R s doc h
    obtain ⟨f, h1, h2, h3⟩ := C98_fame_only R rnd i g size t (some u) G hG hsize s doc h
    obtain rfl := Except.ok.inj h1
    have hq : ∀ x q, HasQSet f x q → ∃ vs, q = ⟨u, vs, []⟩ ∧ vs.Nodup ∧ CanTrust size i0 n x vs.toFinset := by
      intro x q hxq
      obtain ⟨t', vs, rfl, e1, e2, -, -, e3⟩ := h3 x q hxq
      exact ⟨vs, by rw [e3 u rfl], e1, e2⟩
    have hc : Chosen size i0 n u f := ⟨names_length h2, hq⟩
    obtain ⟨f', h4, h5⟩ := prints_read_back hfit
      (fun x q hxq => by obtain ⟨vs, e, -⟩ := hq x q hxq; exact ⟨vs, e⟩) ⟨_, h2⟩
    refine ⟨f', h4, h5.2 (hc.intersectionAmong hle hn hsize hu (by omega) (fun x q hxq v hv hne hlt => ?_) hP)⟩
    obtain ⟨t', vs, rfl, -, -, e1, -⟩ := h3 x q hxq
    exact Finset.mem_filter.2 ⟨Finset.mem_range.2 hlt, (e1 v hv).resolve_left hne⟩

/-- C99: under the same conditions, the verdict that `qsc_simulator … fame_weighted_random | fbas_analyzer -i` prints is
`true` for all random choices. -/
theorem C99_fame_verdict {env : Env} {order : List String → List String} {opts : Options} {f : Fbas}
    {gr : Option Groupings} {gs : List Grouping} {lines : List Line} (R : Rand) (rnd : ℚ → ℚ) (i g size : ℕ)
    (th : Option ℕ) (t : Text) (G : Graph) (hG : Graph.fromAsRelString t = .ok G) (hsize : 2 ≤ size) (s : R.State)
    (h : QscSimulator.main R rnd ⟨i, g, .fameWeightedRandom size t th⟩ s = .ok opts.nodes)
    (hr : Run env order opts f gr gs lines) (hd : DisjointGroups gs) (j : Json)
    (hj : ("has_quorum_intersection", j) ∈ results lines) :
    let args : QscSimulator.Cli := ⟨i, g, .fameWeightedRandom size t th⟩
    let n := wantedSize args G.outlinks.length
    let i0 := initialSize args G.outlinks.length
    2 ≤ n → ∀ u < 2 ^ 64, (th = none ∧ ThresholdFor none (min size n) u ∨ th = some u ∧ u ≤ min size n) →
    ((Finset.range (max i0 (min size n))).filter (fun v => v < G.outlinks.length → 1 ≤ linksInto G v)).card < 2 * u →
    j = .bool true := by
  intro args n i0 hn u hfit hu hP
  obtain ⟨f', e2, e3⟩ : ∃ f, Fbas.fromJson opts.nodes = .ok f ∧ QuorumIntersection f := by
    rcases hu with ⟨rfl, ht⟩ | ⟨rfl, hu⟩
    · exact (C99_fame_iff rnd i g size u t G hG hsize hn hfit ht).2 hP R s _ h
    · have he : EnoughTargets G size (max i0 (min size n)) := by
        by_contra hne
        obtain ⟨e, he⟩ := (C71_fame R rnd i g size t (some u) G hG hsize s).2.2 hne
        rw [h] at he; cases he
      exact (C99_fame_threshold rnd i g size u t G hG hsize hn hfit he).2 ⟨hu, hP⟩ R s _ h
  have h4 := hr.nodes
  rw [e2] at h4
  obtain rfl := Except.ok.inj h4
  obtain ⟨b, rfl, hb⟩ := (C95_exact R rnd _ s h hr hd e3.1 j).2.1 hj
  rw [hb.2 e3]

/-- Two nodes are peers and the providers of two others, which nobody chooses. All networks with two nodes per quorum set
are safe, although there are `2 * 2` initial nodes. With two pairs of peers, they are not. -/
example : (∀ (R : Rand) (s : R.State) (doc : Json), QscSimulator.main R id
      ⟨0, 0, .fameWeightedRandom 2 "0|2|-1\n1|2|-1\n1|0|0\n0|3|-1\n".toList none⟩ s = .ok doc →
      ∃ f, Fbas.fromJson doc = .ok f ∧ QuorumIntersection f) ∧
    ¬ ∀ (R : Rand) (s : R.State) (doc : Json), QscSimulator.main R id
      ⟨0, 0, .fameWeightedRandom 2 "0|1|0\n2|3|0\n".toList none⟩ s = .ok doc →
      ∃ f, Fbas.fromJson doc = .ok f ∧ QuorumIntersection f := by
  have hg : ∀ (t : Text) (l : List (List NodeId)), (Graph.fromAsRelString t).map Graph.outlinks = .ok l →
      Graph.fromAsRelString t = .ok ⟨l⟩ := by
    intro t l h
    cases hg : Graph.fromAsRelString t with
    | error e => rw [hg] at h; cases h
    | ok G => rw [hg] at h; obtain rfl := Except.ok.inj h; rfl
  refine ⟨(C99_fame_iff id 0 0 2 2 "0|2|-1\n1|2|-1\n1|0|0\n0|3|-1\n".toList ⟨[[1], [0], [0, 1], [0]]⟩
    (hg _ _ (Ref.ok_of (by decide +kernel))) (Nat.le_refl _) (by decide) (by decide) (C81_threshold 2 none)).2 (by decide), fun h => ?_⟩
  exact absurd ((C99_fame_iff id 0 0 2 2 "0|1|0\n2|3|0\n".toList ⟨[[1], [0], [3], [2]]⟩
    (hg _ _ (Ref.ok_of (by decide +kernel))) (Nat.le_refl _) (by decide) (by decide) (C81_threshold 2 none)).1 h) (by decide)

/-- `C99_fame_threshold`: two nodes are chosen by three, in pairs. With the threshold 2, all networks are safe. With the
threshold 1 or 3, they are not. -/
example : ∀ u < 4, (∀ (R : Rand) (s : R.State) (doc : Json), QscSimulator.main R id
      ⟨0, 0, .fameWeightedRandom 2 unfamous (some u)⟩ s = .ok doc →
      ∃ f, Fbas.fromJson doc = .ok f ∧ QuorumIntersection f) ↔ u = 2 := by
  have he : EnoughTargets ⟨[[1], [0], [0, 1]]⟩ 2 3 := by
    by_contra h
    obtain ⟨e, he⟩ := (C71_fame busyRand id 0 0 2 unfamous none _ unfamous_graph (Nat.le_refl _) (0 : ℕ)).2.2 h
    have hok : (QscSimulator.main busyRand id ⟨0, 0, .fameWeightedRandom 2 unfamous none⟩
        (0 : ℕ)).toOption.isSome = true := by decide +kernel
    rw [he] at hok
    cases hok
  intro u hu
  refine (C99_fame_threshold id 0 0 2 u unfamous _ unfamous_graph (Nat.le_refl _)
    (show 2 ≤ 3 by decide) (by omega) he).trans ?_
  exact (by decide : ∀ u < 4, (u ≤ 2 ∧ ((Finset.range 3).filter (fun v => v < 3 →
    1 ≤ linksInto ⟨[[1], [0], [0, 1]]⟩ v)).card < 2 * u) ↔ u = 2) u hu

/-- `C99_fame_verdict`: two nodes that can be chosen, with the default threshold 2 and the same threshold given. -/
example : ThresholdFor none (min 2 3) 2 ∧ ((Finset.range (max 3 (min 2 3))).filter (fun v => v < 3 →
      1 ≤ linksInto ⟨[[1], [0], [0, 1]]⟩ v)).card < 2 * 2 ∧
    (QscSimulator.main busyRand id ⟨0, 0, .fameWeightedRandom 2 unfamous none⟩ (0 : ℕ)).toOption.isSome = true ∧
    (QscSimulator.main busyRand id ⟨0, 0, .fameWeightedRandom 2 unfamous (some 2)⟩ (0 : ℕ)).toOption.isSome = true :=
  ⟨C81_threshold 2 none, by decide, by decide +kernel, by decide +kernel⟩

/-- `C99_random_verdict`: five initial nodes and three per slice. -/
example : ThresholdFor none (min 4 (5 + 1)) 3 ∧ 5 < 2 * 3 ∧
    (QscSimulator.main busyRand id ⟨5, 1, .random 4⟩ (0 : ℕ)).toOption.isSome = true :=
  ⟨C81_threshold 4 none, by decide, by decide +kernel⟩

#print axioms C99_random
#print axioms C99_random_grown
#print axioms C99_random_verdict
#print axioms C99_fame
#print axioms C99_fame_iff
#print axioms C99_fame_threshold
#print axioms C99_fame_verdict

end FA.Props
