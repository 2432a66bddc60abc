import Verif.Lemmas.RandomRange
import Verif.Props.SimulatorTools
import Verif.Props.RandomGraph
import Verif.Props.Graph
import Verif.SpecRange

/-!
# C98: what random choices can lead to
-/

namespace FA
open Spec Simulator Props

theorem wishes_of_canTrust {size i n : ℕ} {w : List ℕ} {V : NodeId → Finset NodeId}
    (h : ∀ x < n, CanTrust size i n x (V x)) (hw : ∀ x < n, ∀ v ∈ V x, v ≠ x → 0 < w.getD v 1) :
    Wishes size i n w V :=
  ⟨fun x hx => (h x hx).self, fun x hx => (h x hx).near, fun x hx => (h x hx).card, hw⟩

theorem wished_validators {size n : ℕ} {t : Option ℕ} {V : NodeId → Finset NodeId} {x : NodeId}
    {q : QuorumSet} (h : RandomTarget size t n x q) (hV : ∀ v ∈ q.validators, v ∈ V x)
    (hc : (V x).card = min size n) : q.validators.toFinset = V x := by
  obtain ⟨vs, rfl, h1, -, -, h2⟩ := h
  refine Finset.eq_of_subset_of_card_le (fun v hv => hV v (List.mem_toFinset.1 hv)) ?_
  show (V x).card ≤ vs.toFinset.card
  rw [List.toFinset_card_of_nodup h1, h2, hc]

theorem canTrust_of_near {size i n : ℕ} {t : Option ℕ} {w : List ℕ} {x : NodeId} {q : QuorumSet}
    (h : NearTarget size t w i n x q) : CanTrust size i n x q.validators.toFinset := by
  obtain ⟨⟨⟨vs, rfl, h1, h2, -, h3⟩, -⟩, h4⟩ := h
  exact ⟨List.mem_toFinset.2 h2, by rw [List.toFinset_card_of_nodup h1, h3],
    fun v hv => h4 v (List.mem_toFinset.1 hv)⟩

theorem fame_weights {R : Rand} {rnd : ℚ → ℚ} {size : ℕ} {t : Text} {th : Option ℕ} {G : Graph}
    (hG : Graph.fromAsRelString t = .ok G) :
    ∃ ds, QscSimulator.parseQscConfig R rnd (.fameWeightedRandom size t th) =
        .ok (Qsc.random R size th ds, G.outlinks.length) ∧
      ∀ y : ℕ, (y < G.outlinks.length → 1 ≤ linksInto G y) → 0 < ds.getD y 1 := by
  obtain ⟨ds, h1, h2, h3⟩ := C52_in_degrees G (fromAsRel_spec hG).1
  refine ⟨ds, by dsimp only [QscSimulator.parseQscConfig]; exact withGraph_ok hG (by rw [h1]),
    fun y hy => ?_⟩
  rw [List.getD_eq_getElem?_getD]
  by_cases hyG : y < G.outlinks.length
  · rw [h3 y hyG]; exact hy hyG
  · rw [List.getElem?_eq_none (by rw [h2]; exact Nat.le_of_not_lt hyG)]
    exact Nat.one_pos

end FA

namespace FA.Props
open FA Spec Simulator

/-! ## Policies with random quorum sets -/

/-- C98: with `Random`, every node has a quorum set as described by `CanTrust`. -/
theorem C98_random_only (R : Rand) (rnd : ℚ → ℚ) (i g size : ℕ) (hsize : 2 ≤ size) (s : R.State) :
    Prints (QscSimulator.main R rnd ⟨i, g, .random size⟩ s) (i + g)
      (fun x q => ∃ t vs, q = ⟨t, vs, []⟩ ∧ vs.Nodup ∧ CanTrust size i (i + g) x vs.toFinset ∧
        ThresholdFor none vs.length t) := by
  have hp : QscSimulator.parseQscConfig R rnd (.random size) = .ok (Qsc.random R size none [], 0) := rfl
  obtain ⟨h1, h2⟩ := main_simulates (args := ⟨i, g, .random size⟩) hp s
  have hi : initialSize ⟨i, g, .random size⟩ 0 = i := by
    unfold initialSize
    split
    · rename_i h; exact h.1.symm
    · rfl
  rw [hi] at h2
  have hw : EnoughWeight size (max i (min size (i + g))) [] := by
    intro x hx
    have h3 : choosable (max i (min size (i + g))) [] [x] =
        (Finset.range (max i (min size (i + g)))).erase x := by
      ext y
      rw [mem_choosable, Finset.mem_erase, Finset.mem_range, List.mem_singleton]
      exact ⟨fun h => ⟨h.2.1, h.1⟩, fun h => ⟨h.2, h.1, by simp⟩⟩
    rw [h3, Finset.card_erase_of_mem (Finset.mem_range.2 hx), Finset.card_range]
    omega
  obtain ⟨f, h3, -, h4, h5⟩ := (gradual_random R (t := none) hw hsize).simulate g (Nat.le_refl _) s trivial
  refine ⟨f, ?_, h4, fun x q hq => ?_⟩
  · rw [h2]
    change Except.map _ (QscSimulator.simulate _ _ g s) = _
    rw [h3]; rfl
  · obtain ⟨-, h6⟩ := h5 x q hq
    have h7 := canTrust_of_near h6
    obtain ⟨t', vs, rfl, h8⟩ := wanted_random h6.1.1
    exact ⟨t', vs, rfl, h8.1, h7, h8.2.2.2.2.1 rfl⟩

/-- C98: with `Random`, all networks in which every node has a quorum set as described by `CanTrust` are possible,
i.e. `qsc_simulator` prints them for some random choices. -/
theorem C98_random_possible (rnd : ℚ → ℚ) (i g size : ℕ) (hsize : 2 ≤ size)
    (V : NodeId → Finset NodeId) (hV : ∀ x < i + g, CanTrust size i (i + g) x (V x)) :
    ∃ (R : Rand) (s : R.State), Prints (QscSimulator.main R rnd ⟨i, g, .random size⟩ s) (i + g)
      (fun x q => ∃ t vs, q = ⟨t, vs, []⟩ ∧ vs.Nodup ∧ vs.toFinset = V x ∧
        ThresholdFor none vs.length t) := by
  refine ⟨wishing V, ((0, 0) : NodeId × ℕ), ?_⟩
  have hp : QscSimulator.parseQscConfig (wishing V) rnd (.random size) =
    .ok (Qsc.random (wishing V) size none [], 0) := rfl
  obtain ⟨h1, h2⟩ := main_simulates (args := ⟨i, g, .random size⟩) hp ((0, 0) : NodeId × ℕ)
  have hi : initialSize ⟨i, g, .random size⟩ 0 = i := by
    unfold initialSize
    split
    · rename_i h; exact h.1.symm
    · rfl
  rw [hi] at h2
  obtain ⟨f, h3, -, h4, h5⟩ := (gradual_wishing (t := none)
    (wishes_of_canTrust (w := []) hV (fun x _ v _ _ => by simp)) hsize).simulate g (Nat.le_refl _)
    ((0, 0) : NodeId × ℕ) (.inr rfl)
  refine ⟨f, ?_, h4, fun x q hq => ?_⟩
  · rw [h2]
    change Except.map _ (QscSimulator.simulate _ _ g _) = _
    rw [h3]; rfl
  · obtain ⟨-, h6, h7⟩ := h5 x q hq
    have hx : x < i + g := by rw [← names_length h4]; exact hasQSet_lt hq
    have h9 := wished_validators h6 h7 (hV x hx).card
    obtain ⟨t', vs, rfl, h8⟩ := wanted_random h6
    exact ⟨t', vs, rfl, h8.1, h9, h8.2.2.2.2.1 rfl⟩

/-- Two initial nodes and three more: the first three nodes trust each other, and later nodes can choose anybody who
is already there. Node 3 can trust nodes 0 and 2, but not node 4. -/
example : (∀ x < 2 + 3, CanTrust 3 2 (2 + 3) x
      ([{0, 1, 2}, {0, 1, 2}, {0, 1, 2}, {0, 2, 3}, {1, 3, 4}] : List (Finset NodeId))[x]!) ∧
    ¬ CanTrust 3 2 (2 + 3) 3 {0, 3, 4} := by
  refine ⟨fun x hx => ?_, fun h => absurd (h.near 4 (by decide)) (by decide)⟩
  have h : ∀ x < 5, x ∈ ([{0, 1, 2}, {0, 1, 2}, {0, 1, 2}, {0, 2, 3}, {1, 3, 4}] : List (Finset ℕ))[x]! ∧
      (([{0, 1, 2}, {0, 1, 2}, {0, 1, 2}, {0, 2, 3}, {1, 3, 4}] : List (Finset ℕ))[x]!).card = 3 ∧
      ∀ v ∈ ([{0, 1, 2}, {0, 1, 2}, {0, 1, 2}, {0, 2, 3}, {1, 3, 4}] : List (Finset ℕ))[x]!,
        v < max (x + 1) 3 := by decide
  exact ⟨(h x hx).1, (h x hx).2.1, (h x hx).2.2⟩

/-- C98: with `FameWeightedRandom`, if the tool does not panic, every node has a quorum set as described by
`CanTrust`, and chooses only targets of links. -/
theorem C98_fame_only (R : Rand) (rnd : ℚ → ℚ) (i g size : ℕ) (t : Text) (th : Option ℕ) (G : Graph)
    (hG : Graph.fromAsRelString t = .ok G) (hsize : 2 ≤ size) (s : R.State) (doc : Json)
    (h : QscSimulator.main R rnd ⟨i, g, .fameWeightedRandom size t th⟩ s = .ok doc) :
    let args : QscSimulator.Cli := ⟨i, g, .fameWeightedRandom size t th⟩
    let n := wantedSize args G.outlinks.length
    Prints (.ok doc) n
      (fun x q => ∃ t' vs, q = ⟨t', vs, []⟩ ∧ vs.Nodup ∧
        CanTrust size (initialSize args G.outlinks.length) n x vs.toFinset ∧
        (∀ v ∈ vs, v = x ∨ (v < G.outlinks.length → 1 ≤ linksInto G v)) ∧
        (th = none → ThresholdFor none vs.length t') ∧ ∀ u, th = some u → t' = u) := by
  intro args n
  obtain ⟨ds, hp, hw, hds⟩ := fame_config (R := R) (rnd := rnd) (size := size) (th := th) hG
  obtain ⟨h1, h2⟩ := main_simulates (args := args) hp s
  change initialSize args G.outlinks.length + g = n at h1
  have he : EnoughTargets G size (max (initialSize args G.outlinks.length) (min size n)) := by
    by_contra hne
    obtain ⟨e, he⟩ := (C71_fame R rnd i g size t th G hG hsize s).2.2 hne
    rw [h] at he; cases he
  have hw' := (hw _).2 he
  rw [← h1] at hw'
  obtain ⟨f, h3, -, h4, h5⟩ := (gradual_random R (t := th) hw' hsize).simulate g (Nat.le_refl _) s trivial
  rw [h1] at h4 h5
  refine ⟨f, ?_, h4, fun x q hq => ?_⟩
  · rw [← h, h2]
    change Except.map _ (QscSimulator.simulate _ _ g s) = _
    rw [h3]; rfl
  · obtain ⟨-, h6⟩ := h5 x q hq
    have h7 := canTrust_of_near h6
    have h9 := h6.1.2
    obtain ⟨t', vs, rfl, h8⟩ := wanted_random h6.1.1
    exact ⟨t', vs, rfl, h8.1, h7, fun v hv => (h9 v hv).imp id (fun h hG => (hds v hG).1 h),
      h8.2.2.2.2.1, h8.2.2.2.2.2⟩

/-- C98: with `FameWeightedRandom`, all networks in which every node has a quorum set as described by `CanTrust` and
chooses only targets of links are possible. -/
theorem C98_fame_possible (rnd : ℚ → ℚ) (i g size : ℕ) (t : Text) (th : Option ℕ) (G : Graph)
    (hG : Graph.fromAsRelString t = .ok G) (hsize : 2 ≤ size) (V : NodeId → Finset NodeId) :
    let args : QscSimulator.Cli := ⟨i, g, .fameWeightedRandom size t th⟩
    let n := wantedSize args G.outlinks.length
    (∀ x < n, CanTrust size (initialSize args G.outlinks.length) n x (V x)) →
    (∀ x < n, ∀ v ∈ V x, v = x ∨ (v < G.outlinks.length → 1 ≤ linksInto G v)) →
    ∃ (R : Rand) (s : R.State), Prints (QscSimulator.main R rnd args s) n
      (fun x q => ∃ t' vs, q = ⟨t', vs, []⟩ ∧ vs.Nodup ∧ vs.toFinset = V x ∧
        (th = none → ThresholdFor none vs.length t') ∧ ∀ u, th = some u → t' = u) := by
  intro args n hV hl
  obtain ⟨ds, hp, hds⟩ := fame_weights (R := wishing V) (rnd := rnd) (size := size) (th := th) hG
  refine ⟨wishing V, ((0, 0) : NodeId × ℕ), ?_⟩
  obtain ⟨h1, h2⟩ := main_simulates (args := args) hp ((0, 0) : NodeId × ℕ)
  change initialSize args G.outlinks.length + g = n at h1
  have hW : Wishes size (initialSize args G.outlinks.length) n ds V := by
    exact wishes_of_canTrust hV (fun x hx v hv hne => hds v ((hl x hx v hv).resolve_left hne))
  rw [← h1] at hW
  obtain ⟨f, h3, -, h4, h5⟩ := (gradual_wishing (t := th) hW hsize).simulate g (Nat.le_refl _)
    ((0, 0) : NodeId × ℕ) (.inr rfl)
  rw [h1] at h4 h5
  refine ⟨f, ?_, h4, fun x q hq => ?_⟩
  · rw [h2]
    change Except.map _ (QscSimulator.simulate _ _ g _) = _
    rw [h3]; rfl
  · obtain ⟨-, h6, h7⟩ := h5 x q hq
    have hx : x < n := by rw [← names_length h4]; exact hasQSet_lt hq
    have h9 := wished_validators h6 h7 (hV x hx).card
    obtain ⟨t', vs, rfl, h8⟩ := wanted_random h6
    exact ⟨t', vs, rfl, h8.1, h9, h8.2.2.2.2⟩

/-! ## Graphs -/

/-- C98: the graphs that `new_random_scale_free` can generate are exactly the simple undirected graphs in which the
first `m0` nodes are connected with each other, and every other node with `m` earlier nodes. -/
theorem C98_scale_free (n m0 m : ℕ) (h2 : 2 ≤ m0) (hn : m0 ≤ n) (hm : 1 ≤ m) (hmm : m ≤ m0)
    (E : NodeId → NodeId → Prop) :
    (∃ (R : Rand) (s : R.State) (g : Graph) (s' : R.State),
      Graph.newRandomScaleFree R s n m0 m = .ok (g, s') ∧ ∀ x y, Link g x y ↔ E x y) ↔
    ScaleFreeLinks n m0 m E := by
  constructor
  · rintro ⟨R, s, g, s', h, hE⟩
    obtain ⟨g1, s1, h1, h3, h4, h5, ⟨h6, h6'⟩, h7, h8, -⟩ := C48_scale_free R s n m0 m h2 hn hm hmm
    rw [h] at h1
    obtain ⟨rfl, rfl⟩ := Prod.mk.inj (Except.ok.inj h1)
    have hr : ∀ x y, E x y → x < n ∧ y < n := by
      intro x y hxy
      rw [← hE] at hxy
      have e1 := h4 x y hxy
      have e2 := h4 y x (h5 x y hxy)
      rw [h3] at e1 e2
      exact ⟨e2, e1⟩
    refine ⟨hr, fun x y hxy => (hE y x).1 (h5 x y ((hE x y).2 hxy)), fun x hx => h6 x ((hE x x).2 hx),
      fun x hx y hy hne => (hE x y).1 (h7 x hx y hy hne), fun x hx hxn => ?_⟩
    obtain ⟨l, hl⟩ : ∃ l, g.outlinks[x]? = some l :=
      ⟨_, List.getElem?_eq_getElem (by rw [h3]; exact hxn)⟩
    rw [← h8 x hx l hl, ← List.toFinset_card_of_nodup ((h6' x l hl).filter _), ← Set.ncard_coe_finset]
    congr 1
    ext y
    rw [Finset.mem_coe, List.mem_toFinset, List.mem_filter, decide_eq_true_eq]
    change y < x ∧ E x y ↔ y ∈ l ∧ y < x
    rw [← hE]
    constructor
    · rintro ⟨h1, l', hl', h2⟩
      rw [hl] at hl'
      rw [Option.some.inj hl']
      exact ⟨h2, h1⟩
    · rintro ⟨h1, h2⟩
      exact ⟨h2, l, hl, h1⟩
  · intro hE
    obtain ⟨o, s', h1, h3⟩ := scaleFree_scripted h2 hn hm hmm hE
    exact ⟨_, _, ⟨o⟩, s', h1, fun x y => link_row.trans (h3 x y)⟩

/-- The path with four nodes can be generated from two nodes, with one link per further node. -/
example : ScaleFreeLinks 4 2 1 (fun x y => x < 4 ∧ y < 4 ∧ (x = y + 1 ∨ y = x + 1)) where
  range := fun x y h => ⟨h.1, h.2.1⟩
  symm := fun x y h => ⟨h.2.1, h.1, h.2.2.symm⟩
  loop := fun x h => by
    have key : ∀ a : ℕ, ¬ (a = a + 1 ∨ a = a + 1) := by omega
    exact key x h.2.2
  first := fun x hx y hy hne => by
    have key : ∀ a b : ℕ, a < 2 → b < 2 → a ≠ b → a < 4 ∧ b < 4 ∧ (a = b + 1 ∨ b = a + 1) := by omega
    exact key x y hx hy hne
  later := fun x hx hn => by
    rw [Set.ncard_eq_one]
    refine ⟨x - 1, Set.ext fun y => ?_⟩
    have key : ∀ a b : ℕ, 2 ≤ a → a < 4 →
        (b < a ∧ a < 4 ∧ b < 4 ∧ (a = b + 1 ∨ b = a + 1) ↔ b = a - 1) := by omega
    exact key x y hx hn

/-- C98: the graphs that `shuffled` can return are exactly those that result from renaming the nodes. -/
theorem C98_shuffled (g g' : Graph) (hg : LinksInRange g) :
    (∃ (R : Rand) (s s' : R.State), g.shuffled R s = .ok (g', s')) ↔
    g'.outlinks.length = g.outlinks.length ∧
      ∃ π : ℕ → ℕ, (∀ i < g.outlinks.length, π i < g.outlinks.length) ∧
        (∀ i < g.outlinks.length, ∀ j < g.outlinks.length, π i = π j → i = j) ∧
        ∀ i < g.outlinks.length, g'.outlinks[π i]? = (g.outlinks[i]?).map (·.map π) := by
  constructor
  · rintro ⟨R, s, s', h⟩
    obtain ⟨g1, s1, π, h1, h2, -, h3, h4, -, h5, -⟩ := C50_isomorphic R s g hg
    rw [h] at h1
    obtain ⟨rfl, -⟩ := Prod.mk.inj (Except.ok.inj h1)
    exact ⟨h2, π, h3, h4, h5⟩
  · rintro ⟨hlen, π, h3, h4, h5⟩
    have hnd : ((List.range g.outlinks.length).map π).Nodup :=
      List.Nodup.map_on (fun i hi j hj e => h4 i (List.mem_range.1 hi) j (List.mem_range.1 hj) e)
        List.nodup_range
    have hperm : ((List.range g.outlinks.length).map π).Perm (List.range g.outlinks.length) := by
      refine (List.subperm_of_subset hnd (fun y hy => ?_)).perm_of_length_le (by simp)
      obtain ⟨i, hi, rfl⟩ := List.mem_map.1 hy
      exact List.mem_range.2 (h3 i (List.mem_range.1 hi))
    obtain ⟨g1, s1, π', e1, e2, e3, -, -, e6, e5, -⟩ := C50_isomorphic
      (scripted ((List.range g.outlinks.length).map π)) ([] : List NodeId) g hg
    have hπ : ∀ i < g.outlinks.length, π' i = π i := by
      intro i hi
      have h := e3 i hi
      have hs : ((scripted ((List.range g.outlinks.length).map π)).shuffle ([] : List NodeId)
          (List.range g.outlinks.length)).1 = (List.range g.outlinks.length).map π := by
        unfold scripted
        dsimp only
        rw [if_pos (List.isPerm_iff.2 hperm)]
      rw [hs, List.getElem?_map, List.getElem?_range hi] at h
      exact (Option.some.inj h).symm
    refine ⟨_, _, s1, e1.trans ?_⟩
    have : g1 = g' := by
      obtain ⟨o1⟩ := g1
      obtain ⟨o'⟩ := g'
      congr 1
      refine List.ext_getElem? (fun k => ?_)
      by_cases hk : k < g.outlinks.length
      · obtain ⟨i, hi, rfl⟩ := e6 k hk
        have h6 := e5 i hi
        have h7 := h5 i hi
        rw [← hπ i hi] at h7
        change o1[π' i]? = _ at h6
        change o'[π' i]? = _ at h7
        rw [h6, h7]
        cases hl : g.outlinks[i]? with
        | none => rfl
        | some l =>
          show some (l.map π') = some (l.map π)
          rw [List.map_congr_left (fun j hj => hπ j (hg i j ⟨l, hl, hj⟩))]
      · rw [List.getElem?_eq_none (by rw [show o1.length = g.outlinks.length from e2]; omega),
          List.getElem?_eq_none (by rw [show o'.length = g.outlinks.length from hlen]; omega)]
    rw [this]

/-- The path 0, 1, 2 can become the path 1, 0, 2. -/
example : ∃ π : ℕ → ℕ, (∀ i < 3, π i < 3) ∧ (∀ i < 3, ∀ j < 3, π i = π j → i = j) ∧
    ∀ i < 3, ([[1, 2], [0], [0]] : List (List ℕ))[π i]? = ([[1], [0, 2], [1]] : List (List ℕ))[i]?.map (·.map π) :=
  ⟨fun i => [1, 0, 2].getD i 0, by decide, by decide, by decide⟩

end FA.Props

#print axioms FA.Props.C98_random_only
#print axioms FA.Props.C98_random_possible
#print axioms FA.Props.C98_fame_only
#print axioms FA.Props.C98_fame_possible
#print axioms FA.Props.C98_scale_free
#print axioms FA.Props.C98_shuffled
