import Verif.Lemmas.Rank
import Verif.Lemmas.Float
import Verif.Lemmas.Growth
import Verif.Props.Graph
import Verif.Props.Qsc

/-!
# C41 (rounding), C46 (growth), C66-C68: rank scores and graph based configurators
-/

namespace FA.Props
open FA Spec Simulator

/-! ## C41 -/

/-- C41: rounding to the nearest number with 53 significant bits has the properties used in
`C41_float`. -/
theorem C41_round : NearestF64 F64.round where
  int x z hz := by
    have := F64.round_nearest x z 0 hz
    simpa [F64.pow2] using this
  half x z hz := by
    have := F64.round_nearest x z (-1) hz
    have h : F64.pow2 (-1) = 1 / 2 := by rw [F64.pow2_eq]; norm_num
    rw [h, mul_one_div] at this
    exact this

/-- C41: `F64.round` is the rounding of IEEE 754 without limits for the exponent: the result has 53
significant bits, no other such number is nearer, half way between two neighbouring ones the even one is
chosen, and the sign does not matter. -/
theorem C41_rounding (x : ℚ) :
    (∃ m k : ℤ, |m| ≤ 2 ^ 53 ∧ F64.round x = m * (2 : ℚ) ^ k) ∧
    (∀ m k : ℤ, |m| ≤ 2 ^ 53 → |F64.round x - x| ≤ |(m : ℚ) * (2 : ℚ) ^ k - x|) ∧
    (∀ m k : ℤ, 2 ^ 52 ≤ m → m < 2 ^ 53 → x = (m + 1 / 2) * (2 : ℚ) ^ k →
      F64.round x = (if m % 2 = 0 then m else m + 1 : ℤ) * (2 : ℚ) ^ k) ∧
    F64.round (-x) = - F64.round x := by
  refine ⟨?_, ?_, ?_, F64.round_neg x⟩
  · obtain ⟨m, k, h1, h2⟩ := F64.round_representable x
    exact ⟨m, k, h1, by rw [h2, F64.pow2_eq]⟩
  · intro m k hm
    rw [← F64.pow2_eq]
    exact F64.round_nearest x m k hm
  · rintro m k h1 h2 rfl
    rw [← F64.pow2_eq]
    exact F64.round_tie m k h1 h2

/-- Concrete case: ties above and below. -/
example : F64.round (2 ^ 53 + 1) = 2 ^ 53 ∧ F64.round (2 ^ 53 + 3) = 2 ^ 53 + 4 ∧
    F64.round (-(2 ^ 53 + 3)) = -(2 ^ 53 + 4) := by decide +kernel

#print axioms C41_round
#print axioms C41_rounding

/-! ## C46: growth -/

/-- The configuration that `AllNeighborsQsc` chooses for `x`. -/
def neighborsTarget (g : Graph) (rel : Option ℚ) (x : NodeId) : QuorumSet :=
  if x ∈ g.getConnectedNodes then
    let l := g.outlinks.getD x []
    let vs := sortIds (if x ∈ l then l else l ++ [x])
    ⟨Qsc.calculateThreshold vs.length rel, vs, []⟩
  else QuorumSet.empty

theorem neighbors_oneShot (R : Rand) (g : Graph) (rel : Option ℚ) :
    OneShot (Qsc.allNeighbors R g rel) g.outlinks.length (neighborsTarget g rel) := by
  intro f s x hx hxg
  have hl : g.outlinks[x]? = some (g.outlinks.getD x []) := by
    rw [List.getElem?_eq_getElem hxg]; simp [hxg]
  constructor
  · intro he
    obtain ⟨-, hex⟩ := existing_eq he
    by_cases hc : x ∈ g.getConnectedNodes
    · obtain ⟨f', g1, g2, g3⟩ := swap_spec hx (neighborsTarget g rel x)
      refine ⟨.change, f', s, ?_, g2, g3⟩
      unfold Qsc.allNeighbors
      dsimp only
      rw [hex]
      dsimp only
      rw [if_pos ⟨hc, rfl⟩, hl]
      dsimp only
      have : neighborsTarget g rel x = { QuorumSet.empty with
          threshold := Qsc.calculateThreshold (sortIds (if x ∈ g.outlinks.getD x [] then
            g.outlinks.getD x [] else g.outlinks.getD x [] ++ [x])).length rel,
          validators := QuorumSet.empty.validators ++ sortIds (if x ∈ g.outlinks.getD x [] then
            g.outlinks.getD x [] else g.outlinks.getD x [] ++ [x]) } := by
        unfold neighborsTarget; rw [if_pos hc]; rfl
      rw [← this, g1]
    · refine ⟨.noChange, f, s, ?_, ⟨rfl, rfl⟩, fun y => ?_⟩
      · exact C46_no_change R g rel f s x _ he (.inr (fun h => hc (mem_getConnectedNodes.2 h)))
      · have : neighborsTarget g rel x = QuorumSet.empty := by unfold neighborsTarget; rw [if_neg hc]
        rw [this]
        split
        · rename_i h; rw [h]; exact getQuorumSet_iff.2 he
        · rfl
  · intro ht
    by_cases hc : x ∈ g.getConnectedNodes
    · refine ⟨.noChange, s, C46_no_change R g rel f s x _ ht (.inl fun h => ?_)⟩
      have h2 : x ∈ (neighborsTarget g rel x).validators := by
        unfold neighborsTarget; rw [if_pos hc]
        show x ∈ sortIds _
        rw [mem_sortIds]
        split
        · assumption
        · simp
      rw [h] at h2
      cases h2
    · exact ⟨.noChange, s,
        C46_no_change R g rel f s x _ ht (.inr (fun h => hc (mem_getConnectedNodes.2 h)))⟩

/-- C46: growing an FBAS with `AllNeighborsQsc` up to the size of the graph never panics. Whatever the
random choices, the result is determined by the graph: every node with links trusts itself and the nodes
that it links to; other nodes stay unconfigured. -/
theorem C46_growth (R : Rand) (g : Graph) (rel : Option ℚ) (n : ℕ) (hn : n ≤ g.outlinks.length)
    (s : R.State) :
    ∃ sim', simulateGrowth (Qsc.allNeighbors R g rel) n ⟨Fbas.new, [], s⟩ = .ok sim' ∧
      sim'.fbas.nodes.map Node.publicKey = (List.range n).map (fun i => "n" ++ toString i) ∧
      ∀ x < n,
        (((∃ j, Link g x j) ∨ ∃ i, Link g i x) → ∃ vs, HasQSet sim'.fbas x ⟨Qsc.calculateThreshold vs.length rel, vs, []⟩ ∧
          vs.Pairwise (· ≤ ·) ∧ (∀ y, y ∈ vs ↔ y = x ∨ Link g x y) ∧
          ((∀ l, g.outlinks[x]? = some l → l.Nodup) → vs.Nodup)) ∧
        (¬ ((∃ j, Link g x j) ∨ ∃ i, Link g i x) → HasQSet sim'.fbas x QuorumSet.empty) := by
  obtain ⟨sim', h1, h2, h3⟩ := growth_oneShot_from_empty (neighbors_oneShot R g rel) n hn s
  refine ⟨sim', h1, h2, fun x hx => ?_⟩
  have hlen : sim'.fbas.nodes.length = n := by
    have := congrArg List.length h2; simpa using this
  have hq := h3 x (by rw [hlen]; exact hx)
  constructor
  · intro hc
    refine ⟨_, ?_, List.pairwise_insertionSort _ (if x ∈ g.outlinks.getD x [] then
            g.outlinks.getD x [] else g.outlinks.getD x [] ++ [x]), fun y => ?_, fun hnd => ?_⟩
    · unfold neighborsTarget at hq
      rw [if_pos (mem_getConnectedNodes.2 hc)] at hq
      cases rel <;> exact hq
    · rw [link_iff]
      show y ∈ sortIds _ ↔ _
      rw [mem_sortIds]
      split
      · rename_i hxl
        exact ⟨.inr, fun h => h.elim (fun h => h ▸ hxl) id⟩
      · rw [List.mem_append, List.mem_singleton, or_comm]
    · have hxg : x < g.outlinks.length := Nat.lt_of_lt_of_le hx hn
      have hlnd := hnd (g.outlinks.getD x []) (by
        rw [List.getElem?_eq_getElem hxg]; simp [hxg])
      show (sortIds _).Nodup
      unfold sortIds
      rw [(List.perm_insertionSort _ _).nodup_iff]
      split
      · exact hlnd
      · rename_i hxl
        rw [List.nodup_append']
        exact ⟨hlnd, by simp, fun a ha ha' => hxl (by rw [List.mem_singleton.1 ha'] at ha; exact ha)⟩
  · intro hc
    unfold neighborsTarget at hq
    rwa [if_neg (fun h => hc (mem_getConnectedNodes.1 h))] at hq

/-- C46: on a full mesh, growing with `AllNeighborsQsc` gives the same quorum sets as growing with
`IdealQsc`. -/
theorem C46_like_ideal (R R' : Rand) (n : ℕ) (hn : 2 ≤ n) (s : R.State) (s' : R'.State) :
    ∃ sim sim', simulateGrowth (Qsc.allNeighbors R (Graph.newFullMesh n) none) n
        ⟨Fbas.new, [], s⟩ = .ok sim ∧
      simulateGrowth (Qsc.ideal R') n ⟨Fbas.new, [], s'⟩ = .ok sim' ∧
      sim.fbas.nodes = sim'.fbas.nodes := by
  obtain ⟨hl, hlink, -⟩ := C47_full_mesh n
  obtain ⟨sim, h1, h2, h3⟩ := C46_growth R (Graph.newFullMesh n) none n (by rw [hl]) s
  obtain ⟨sim', g1, -, g3, g4⟩ := growth_targets (qsc := Qsc.ideal R')
    (cand := fun n => ⟨Qsc.calculate67pThreshold n, rangeFT 0 n, []⟩)
    (fun x st => rfl) n 0 ⟨Fbas.new, [], s'⟩ (fun pk i => by
      constructor
      · intro h; cases h
      · rintro ⟨n, hn, -⟩; simp [Fbas.new] at hn) rfl (fun x hx => by simp [Fbas.new] at hx)
  rw [Nat.zero_add] at g3 g4
  refine ⟨sim, sim', h1, g1, ?_⟩
  have hlen : sim.fbas.nodes.length = n := by
    have := congrArg List.length h2; simpa using this
  have hlen' : sim'.fbas.nodes.length = n := by
    have := congrArg List.length g3; simpa using this
  apply List.ext_getElem?
  intro x
  by_cases hx : x < n
  · obtain ⟨j, hj⟩ : ∃ j, Link (Graph.newFullMesh n) x j := by
      by_cases h0 : x = 0
      · exact ⟨(1 : ℕ), (hlink x 1).2 ⟨hx, hn, by rw [h0]; decide⟩⟩
      · exact ⟨(0 : ℕ), (hlink x 0).2 ⟨hx, Nat.lt_of_lt_of_le (by decide) hn, h0⟩⟩
    obtain ⟨vs, ⟨nd, a1, a2⟩, e2, e3, e4⟩ := (h3 x hx).1 (.inl ⟨j, hj⟩)
    obtain ⟨nd', b1, b2⟩ := g4 x (by rw [hlen']; exact hx)
    -- the validators are all nodes
    have hnd : vs.Nodup := e4 (fun l hl' =>
      nodup_of_sorted ((C47_full_mesh n).2.2 l (List.mem_of_getElem? hl')))
    have hvs : vs = rangeFT 0 n := by
      refine List.Perm.eq_of_pairwise (le := (· ≤ ·)) (fun a b _ _ h h' => Nat.le_antisymm h h') e2
        ((sorted_rangeFT 0 n).imp (fun h => Nat.le_of_lt h)) ?_
      rw [List.perm_ext_iff_of_nodup hnd (nodup_rangeFT _ _)]
      intro y
      rw [e3, hlink, mem_rangeFT]
      constructor
      · rintro (rfl | ⟨-, h, -⟩)
        · exact ⟨Nat.zero_le _, hx⟩
        · exact ⟨Nat.zero_le _, h⟩
      · rintro ⟨-, h⟩
        by_cases hy : y = x
        · exact .inl hy
        · exact .inr ⟨hx, h, fun h => hy h.symm⟩
    have hk : nd.publicKey = nd'.publicKey := by
      have k1 := congrArg (fun l => l[x]?) h2
      have k2 := congrArg (fun l => l[x]?) g3
      beta_reduce at k1 k2
      rw [← k2, List.getElem?_map, List.getElem?_map, a1, b1] at k1
      exact Option.some.inj k1
    rw [a1, b1]
    obtain ⟨pk, q⟩ := nd
    obtain ⟨pk', q'⟩ := nd'
    dsimp only at a2 b2 hk
    rw [hk, a2, b2, hvs]
    simp [Qsc.calculateThreshold]
  · rw [List.getElem?_eq_none (by omega), List.getElem?_eq_none (by omega)]

#print axioms C46_growth
#print axioms C46_like_ideal

/-! ## C66 -/

/-- C66: `get_rank_scores` panics iff some link leads to a node that does not exist (for any rounding);
otherwise there is a score for every node. -/
theorem C66_panics_iff (rnd : ℚ → ℚ) (g : Graph) :
    ((∃ e, g.getRankScores rnd = .error e) ↔ ¬ LinksInRange g) ∧
      ∀ sc, g.getRankScores rnd = .ok sc → sc.length = g.outlinks.length := by
  obtain ⟨r, ε, v, h⟩ := getRankScores_eq (rnd := rnd) (g := g)
  rw [h]
  by_cases hg : LinksInRange g
  · obtain ⟨sc, h1, h2⟩ := rankLoop_ok rnd hg ε (r + 1) (List.replicate g.outlinks.length v) (by simp)
    rw [h1]
    refine ⟨⟨?_, fun h => absurd hg h⟩, fun sc' h => by rw [← Except.ok.inj h]; exact h2⟩
    rintro ⟨e, he⟩; cases he
  · have : ∃ e, g.rankLoop rnd ε (r + 1) (List.replicate g.outlinks.length v) = .error e := by
      rw [Graph.rankLoop]
      cases hr : g.rankRun rnd (List.replicate g.outlinks.length v) with
      | error e => exact ⟨e, rfl⟩
      | ok sc => exact absurd (rankRun_ok_inRange hr) hg
    obtain ⟨e, he⟩ := this
    rw [he]
    exact ⟨⟨fun _ => hg, fun _ => ⟨e, rfl⟩⟩, fun sc h => by cases h⟩

/-- C66: with exact arithmetic, the scores are those after `k` steps of page rank without dampening,
where `k` is the first step that changes all scores by less than the documented epsilon, or the maximum
number of steps. -/
theorem C66_scores (g : Graph) (hg : LinksInRange g) :
    ∃ sc k, g.getRankScores id = .ok sc ∧ sc.length = g.outlinks.length ∧
      (∀ j < g.outlinks.length, sc[j]? = some (ranks g k j)) ∧
      1 ≤ k ∧ k ≤ max (2 * g.outlinks.length) 1000 ∧
      (k = max (2 * g.outlinks.length) 1000 ∨
        Settled g (max (1 / (g.outlinks.length : ℚ) ^ 2) (1 / 100000)) k) ∧
      ∀ i, 1 ≤ i → i < k → ¬ Settled g (max (1 / (g.outlinks.length : ℚ) ^ 2) (1 / 100000)) i := by
  obtain ⟨sc, k, h1, h2, h3, h4, h5, h6, h7⟩ := rankLoop_exact hg
    (max (1 / (g.outlinks.length : ℚ) ^ 2) (1 / 100000)) (max (2 * g.outlinks.length) 1000)
    (List.replicate g.outlinks.length (1 / (g.outlinks.length : ℚ))) 0 (by simp)
    (fun j hj => by simp [hj, ranks])
  rw [Nat.zero_add] at h5 h6
  have hk : 1 ≤ k := by
    rcases h6 with h6 | h6
    · have : 1000 ≤ max (2 * g.outlinks.length) 1000 := le_max_right _ _
      omega
    · omega
  refine ⟨sc, k, ?_, h2, fun j hj => ?_, hk, h5, h6.imp_right And.right, h7⟩
  · unfold Graph.getRankScores
    dsimp only [id]
    rw [← h1]
    congr 2
    rw [div_div, sq]
  · have := h3 j hj
    rw [← this]
    simp [h2, hj]

/-- C66: scores are never negative and their sum is at most 1; it is exactly 1 if every node has a
link. -/
theorem C66_distribution (g : Graph) (sc : List ℚ) (h : g.getRankScores id = .ok sc) :
    (∀ x ∈ sc, 0 ≤ x) ∧ sc.sum ≤ 1 ∧
      (g.outlinks ≠ [] → (∀ l ∈ g.outlinks, l ≠ []) → sc.sum = 1) := by
  have hg : LinksInRange g := by
    by_contra hg
    obtain ⟨e, he⟩ := (C66_panics_iff id g).1.2 hg
    rw [he] at h; cases h
  obtain ⟨sc', k, h1, h2, h3, -⟩ := C66_scores g hg
  rw [h1] at h
  obtain rfl := Except.ok.inj h
  have hsc : sc' = (List.range g.outlinks.length).map (ranks g k) := by
    apply List.ext_getElem?
    intro j
    by_cases hj : j < g.outlinks.length
    · rw [h3 j hj]; simp [hj]
    · rw [List.getElem?_eq_none (by omega), List.getElem?_eq_none (by simpa using hj)]
  have hsum : sc'.sum = ∑ j ∈ Finset.range g.outlinks.length, ranks g k j := by
    rw [hsc]; rfl
  refine ⟨fun x hx => ?_, ?_, fun hne hall => ?_⟩
  · rw [hsc] at hx
    obtain ⟨j, -, rfl⟩ := List.mem_map.1 hx
    exact ranks_nonneg g k j
  · rw [hsum]
    have hle : ∀ k, ∑ j ∈ Finset.range g.outlinks.length, ranks g k j ≤ 1 := by
      intro k
      induction k with
      | zero =>
        by_cases hn : g.outlinks.length = 0
        · rw [hn]; simp
        · exact (sum_ranks_zero hn).le
      | succ k ih => exact le_trans (sum_ranks_le hg k) ih
    exact hle k
  · rw [hsum]
    have hn : g.outlinks.length ≠ 0 := by simpa using hne
    have hd : ∀ i < g.outlinks.length, outDegree g i ≠ 0 := by
      intro i hi h0
      unfold outDegree at h0
      have : g.outlinks.getD i [] = g.outlinks[i] := by simp [hi]
      rw [this] at h0
      exact hall _ (List.getElem_mem hi) (List.length_eq_zero_iff.1 h0)
    have heq : ∀ k, ∑ j ∈ Finset.range g.outlinks.length, ranks g k j = 1 := by
      intro k
      induction k with
      | zero => exact sum_ranks_zero hn
      | succ k ih => rw [sum_ranks_eq hg hd k]; exact ih
    exact heq k

/-- C66: if every node has `d` links and `d` links lead to every node, then all scores are equal, for any
rounding. With exact arithmetic they are `1/n` (for `d > 0`). -/
theorem C66_regular (g : Graph) (hg : LinksInRange g) (d : ℕ)
    (hout : ∀ l ∈ g.outlinks, l.length = d) (hin : ∀ j < g.outlinks.length, linksInto g j = d) :
    (∀ rnd, ∃ v, g.getRankScores rnd = .ok (List.replicate g.outlinks.length v)) ∧
      (d ≠ 0 → g.getRankScores id =
        .ok (List.replicate g.outlinks.length (1 / (g.outlinks.length : ℚ)))) := by
  constructor
  · intro rnd
    exact rankLoop_regular rnd hg ⟨hout, hin⟩ _ _ _
  · intro hd
    obtain ⟨sc, k, h1, h2, h3, -⟩ := C66_scores g hg
    rw [h1]
    congr 1
    apply List.ext_getElem?
    intro j
    by_cases hj : j < g.outlinks.length
    · rw [h3 j hj, ranks_regular ⟨hout, hin⟩ hd k j hj]; simp [hj]
    · rw [List.getElem?_eq_none (by omega), List.getElem?_eq_none (by simpa using hj)]

/-- The full mesh is such a graph. -/
theorem fullMesh_regular (n : ℕ) : (∀ l ∈ (Graph.newFullMesh n).outlinks, l.length = n - 1) ∧
    ∀ j < n, linksInto (Graph.newFullMesh n) j = n - 1 := by
  have hout : ∀ l ∈ (Graph.newFullMesh n).outlinks, l.length = n - 1 := by
    intro l hl
    obtain ⟨i, hi, rfl⟩ := List.mem_map.1 hl
    rw [List.mem_range] at hi
    simp [rangeFT]; omega
  refine ⟨hout, fun j hj => ?_⟩
  have hlen := length_fullMesh n
  obtain ⟨ds, h1, h2, h3⟩ := C52_in_degrees (Graph.newFullMesh n) (fullMesh_inRange n)
  have h4 := C52_degrees_undirected (Graph.newFullMesh n) (fullMesh_inRange n)
    (fun a b h => by
      obtain ⟨ha, hb, hab⟩ := link_newFullMesh.1 h
      exact link_newFullMesh.2 ⟨hb, ha, fun h => hab h.symm⟩)
    (fun l hl => nodup_of_sorted ((C47_full_mesh n).2.2 l hl))
  rw [h4] at h1
  obtain rfl := Except.ok.inj h1
  have h5 := h3 j (by rw [hlen]; exact hj)
  have hj' : j < (Graph.newFullMesh n).outlinks.length := by rw [hlen]; exact hj
  rw [(C52_out_degrees (Graph.newFullMesh n)).2 j _ (List.getElem?_eq_getElem hj')] at h5
  rw [← Option.some.inj h5]
  exact hout _ (List.getElem_mem hj')

/-- C66: with exact arithmetic, the scores of a shuffled graph are the shuffled scores. -/
theorem C66_renaming (R : Rand) (s : R.State) (g : Graph) (hg : LinksInRange g) :
    ∃ g' s' sc sc', g.shuffled R s = .ok (g', s') ∧ g.getRankScores id = .ok sc ∧
      g'.getRankScores id = .ok sc' ∧ sc'.length = sc.length ∧
      ∀ (i : ℕ) (π : ℕ), (R.shuffle s (List.range g.outlinks.length)).1[i]? = some π →
        sc'[π]? = sc[i]? := by
  obtain ⟨g', s', π, h1, h2, h3, h4, h5, h6, h7, h8⟩ := C50_isomorphic R s g hg
  have hg' : LinksInRange g' := by
    intro a b hab
    have ha := hab.lt
    rw [h2] at ha ⊢
    obtain ⟨i, hi, rfl⟩ := h6 a ha
    obtain ⟨l, hl, hb⟩ := hab
    rw [h7 i hi, List.getElem?_eq_getElem hi] at hl
    obtain rfl := Option.some.inj hl
    obtain ⟨j, hj, rfl⟩ := List.mem_map.1 hb
    exact h4 j (hg i j ⟨_, List.getElem?_eq_getElem hi, hj⟩)
  obtain ⟨sc, k, a1, a2, a3, a4, a5, a6, a7⟩ := C66_scores g hg
  obtain ⟨sc', k', b1, b2, b3, b4, b5, b6, b7⟩ := C66_scores g' hg'
  have hr := ranks_iso (g := g) (g' := g') (π := π) hg h2 h4 h5 h6 h7
  have hset : ∀ ε i, Settled g' ε i ↔ Settled g ε i := by
    intro ε i
    unfold Settled
    rw [h2]
    constructor
    · intro h j hj
      have := h (π j) (h4 j hj)
      rwa [hr i j hj, hr (i - 1) j hj] at this
    · intro h j hj
      obtain ⟨m, hm, rfl⟩ := h6 j hj
      rw [hr i m hm, hr (i - 1) m hm]
      exact h m hm
  rw [h2] at b5 b6 b7
  have hk : k' = k := by
    rcases Nat.lt_trichotomy k' k with h | h | h
    · exfalso
      rcases b6 with b6 | b6
      · omega
      · exact a7 k' b4 h ((hset _ _).1 b6)
    · exact h
    · exfalso
      rcases a6 with a6 | a6
      · omega
      · exact b7 k a4 h ((hset _ _).2 a6)
  subst hk
  refine ⟨g', s', sc, sc', h1, a1, b1, by rw [a2, b2, h2], fun i p hp => ?_⟩
  have hi : i < g.outlinks.length := by
    have := (List.getElem?_eq_some_iff.1 hp).1
    have hl := (R.shuffle_perm s (List.range g.outlinks.length)).length_eq
    rw [List.length_range] at hl
    omega
  rw [h3 i hi] at hp
  obtain rfl := Option.some.inj hp
  rw [a3 i hi, b3 (π i) (by rw [h2]; exact h4 i hi), hr k' i hi]

/-- Concrete case: two nodes link to node 0, which links back to the first one. -/
example : LinksInRange (Graph.mk [[1], [0], [0]]) ∧
    (∃ sc, (Graph.mk [[1], [0], [0]]).getRankScores id = .ok sc ∧ sc.sum = 1) := by
  have hg : LinksInRange (Graph.mk [[1], [0], [0]]) := by
    rintro i j ⟨l, hl, hj⟩
    have : ∀ l ∈ ([[1], [0], [0]] : List (List ℕ)), ∀ j ∈ l, j < 3 := by decide
    exact this l (List.mem_of_getElem? hl) j hj
  refine ⟨hg, ?_⟩
  obtain ⟨sc, k, h1, -⟩ := C66_scores _ hg
  exact ⟨sc, h1, (C66_distribution _ sc h1).2.2 (by decide) (by decide)⟩

#print axioms C66_panics_iff
#print axioms C66_scores
#print axioms C66_distribution
#print axioms C66_regular
#print axioms C66_renaming

/-! ## C67 -/

theorem ne_nil_iff {α : Type} {l : List α} : l ≠ [] ↔ ∃ x, x ∈ l :=
  ⟨List.exists_mem_of_ne_nil l, fun ⟨_, h⟩ => List.ne_nil_of_mem h⟩

/-- C67: with exact arithmetic, the "top tier" of `GlobalRankQsc` consists of exactly the nodes with an
above-average score, in ascending order. -/
theorem C67_top_tier (g : Graph) (sc : List ℚ) (h : g.getRankScores id = .ok sc) :
    ∃ T, Qsc.topTierNodes id g = .ok T ∧ T.Pairwise (· < ·) ∧
      ∀ i, i ∈ T ↔ ∃ x, sc[i]? = some x ∧ sc.sum / sc.length < x := by
  have hlen := (C66_panics_iff id g).2 sc h
  have hm : ∃ l, mapE (fun i => getE sc i) (rangeFT 0 g.outlinks.length) = .ok l := by
    refine ⟨_, mapE_ok (h := fun i => sc.getD i 0) fun i hi => ?_⟩
    rw [mem_rangeFT, ← hlen] at hi
    unfold getE
    rw [List.getElem?_eq_getElem hi.2]
    simp [hi.2]
  obtain ⟨l, hl⟩ := hm
  refine ⟨(rangeFT 0 g.outlinks.length).filter (fun i => sc.sum / sc.length < sc.getD i 0), ?_,
    (sorted_rangeFT _ _).filter _, fun i => ?_⟩
  · unfold Qsc.topTierNodes
    dsimp only
    rw [h]
    dsimp only
    rw [hl]
    dsimp only [id]
    have : sc.foldl (fun a x => a + x) 0 = sc.sum := by
      have := rsum_id 0 sc
      rw [zero_add] at this
      exact this
    rw [hlen]
    simp only [this]
  · rw [List.mem_filter, mem_rangeFT, decide_eq_true_eq, ← hlen]
    constructor
    · rintro ⟨⟨-, hi⟩, hx⟩
      refine ⟨sc[i], List.getElem?_eq_getElem hi, ?_⟩
      simpa [hi] using hx
    · rintro ⟨x, hx, hlt⟩
      obtain ⟨hi, rfl⟩ := List.getElem?_eq_some_iff.1 hx
      exact ⟨⟨Nat.zero_le _, hi⟩, by simpa [hi] using hlt⟩

theorem exists_le_average {l : List ℚ} (h : l ≠ []) : ∃ x ∈ l, x ≤ l.sum / l.length := by
  by_contra hc
  push Not at hc
  have hpos : (0 : ℚ) < l.length := by
    have := List.length_pos_iff.2 h; exact_mod_cast this
  have key : ∀ (l : List ℚ) (a : ℚ), (∀ x ∈ l, a < x) → l ≠ [] → l.length * a < l.sum := by
    intro l a
    induction l with
    | nil => intro _ h; exact absurd rfl h
    | cons y l ih =>
      intro h1 _
      rw [List.sum_cons, List.length_cons]
      push_cast
      have hy := h1 y List.mem_cons_self
      by_cases hl : l = []
      · subst hl; simp; linarith
      · have := ih (fun x hx => h1 x (List.mem_cons_of_mem _ hx)) hl
        linarith
  have := key l _ hc h
  rw [mul_div_cancel₀ _ hpos.ne'] at this
  exact lt_irrefl _ this

/-- C67: the top tier never contains all nodes (of a graph with nodes), and it is empty iff all scores
are equal. -/
theorem C67_empty_iff (g : Graph) (sc : List ℚ) (h : g.getRankScores id = .ok sc)
    (T : List NodeId) (hT : Qsc.topTierNodes id g = .ok T) :
    (sc ≠ [] → T.length < g.outlinks.length) ∧
      (T = [] ↔ ∀ x ∈ sc, ∀ y ∈ sc, x = y) := by
  have hlen := (C66_panics_iff id g).2 sc h
  obtain ⟨T', h1, h2, h3⟩ := C67_top_tier g sc h
  rw [h1] at hT
  obtain rfl := Except.ok.inj hT
  constructor
  · intro hne
    obtain ⟨x, hx, hle⟩ := exists_le_average hne
    obtain ⟨i, hi, rfl⟩ := List.getElem_of_mem hx
    have hsub : T' ⊆ (List.range g.outlinks.length).erase i := by
      intro j hj
      obtain ⟨y, hy, hlt⟩ := (h3 j).1 hj
      obtain ⟨hj', rfl⟩ := List.getElem?_eq_some_iff.1 hy
      rw [List.nodup_range.mem_erase_iff, List.mem_range]
      refine ⟨?_, by omega⟩
      rintro rfl
      exact absurd hlt (not_lt.2 hle)
    have := (List.subperm_of_subset (nodup_of_sorted h2) hsub).length_le
    rw [List.length_erase_of_mem (List.mem_range.2 (by omega)), List.length_range] at this
    omega
  · constructor
    · intro he x hx y hy
      -- nobody is above average, so nobody is below
      have hle : ∀ x ∈ sc, x ≤ sc.sum / sc.length := by
        intro x hx
        obtain ⟨i, hi, rfl⟩ := List.getElem_of_mem hx
        by_contra hlt
        have := (h3 i).2 ⟨sc[i], List.getElem?_eq_getElem hi, not_le.1 hlt⟩
        rw [he] at this; cases this
      have hpos : (0 : ℚ) < sc.length := by
        have := List.length_pos_of_mem hx; exact_mod_cast this
      have key : ∀ (l : List ℚ) (a : ℚ), (∀ x ∈ l, x ≤ a) → l.sum ≤ l.length * a ∧
          ∀ x ∈ l, l.sum ≤ l.length * a - (a - x) := by
        intro l a
        induction l with
        | nil => intro _; simp
        | cons y l ih =>
          intro h1
          obtain ⟨i1, i2⟩ := ih (fun x hx => h1 x (List.mem_cons_of_mem _ hx))
          have hy := h1 y List.mem_cons_self
          rw [List.sum_cons, List.length_cons]
          push_cast
          refine ⟨by linarith, fun x hx => ?_⟩
          rcases List.mem_cons.1 hx with rfl | hx
          · linarith
          · have := i2 x hx; linarith
      have heq : ∀ x ∈ sc, x = sc.sum / sc.length := by
        intro x hx
        have := (key sc _ hle).2 x hx
        rw [mul_div_cancel₀ _ hpos.ne'] at this
        exact le_antisymm (hle x hx) (by linarith)
      rw [heq x hx, heq y hy]
    · intro hall
      rw [List.eq_nil_iff_forall_not_mem]
      intro i hi
      obtain ⟨x, hx, hlt⟩ := (h3 i).1 hi
      have hx' := List.mem_of_getElem? hx
      obtain ⟨y, hy, hle⟩ := exists_le_average (List.ne_nil_of_mem hx')
      rw [hall y hy x hx'] at hle
      exact absurd hlt (not_lt.2 hle)

/-- C67: in a graph where every node has `d` links in and out (e.g. a full mesh), nobody is above average
with exact arithmetic; with rounding, it is either nobody or everybody. -/
theorem C67_regular (g : Graph) (hg : LinksInRange g) (d : ℕ)
    (hout : ∀ l ∈ g.outlinks, l.length = d) (hin : ∀ j < g.outlinks.length, linksInto g j = d) :
    Qsc.topTierNodes id g = .ok [] ∧
      ∀ rnd, Qsc.topTierNodes rnd g = .ok [] ∨
        Qsc.topTierNodes rnd g = .ok (List.range g.outlinks.length) := by
  have hreg := (C66_regular g hg d hout hin).1
  constructor
  · obtain ⟨v, hv⟩ := hreg id
    obtain ⟨T, h1, -⟩ := C67_top_tier g _ hv
    rw [h1, ((C67_empty_iff g _ hv T h1).2).2 (fun x hx y hy => by
      rw [List.eq_of_mem_replicate hx, List.eq_of_mem_replicate hy])]
  · intro rnd
    obtain ⟨v, hv⟩ := hreg rnd
    unfold Qsc.topTierNodes
    dsimp only
    rw [hv]
    dsimp only
    have hm : mapE (fun i => getE (List.replicate g.outlinks.length v) i)
        (rangeFT 0 g.outlinks.length) = .ok ((rangeFT 0 g.outlinks.length).map (fun _ => v)) := by
      refine mapE_ok (h := fun _ => v) fun i hi => ?_
      rw [mem_rangeFT] at hi
      unfold getE
      simp [hi.2]
    rw [hm]
    dsimp only
    generalize rnd (_ / _) = a
    have hf : ∀ i ∈ rangeFT 0 g.outlinks.length,
        decide (a < (List.replicate g.outlinks.length v).getD i 0) = decide (a < v) := by
      intro i hi
      rw [mem_rangeFT] at hi
      simp [hi.2]
    rw [List.filter_congr hf]
    by_cases h : a < v
    · right; simp [h]
    · left; simp [h]

/-- C67: a full mesh is such a graph, so `GlobalRankQsc` is not "like ideal" with exact arithmetic, in
contrast to the test `global_rank_qsc_can_be_like_ideal`. With `f64` it depends on rounding errors: in a
full mesh of 10 nodes (as in the test) all nodes are "above average", in a full mesh of 11 nodes none
is. -/
theorem C67_counterexample :
    (∀ n, Qsc.topTierNodes id (Graph.newFullMesh n) = .ok []) ∧
    Qsc.topTierNodes F64.round (Graph.newFullMesh 10) = .ok [0, 1, 2, 3, 4, 5, 6, 7, 8, 9] ∧
    Qsc.topTierNodes F64.round (Graph.newFullMesh 11) = .ok [] := by
  refine ⟨fun n => ?_, Ref.ok_of (by decide +kernel), Ref.ok_of (by decide +kernel)⟩
  have h := fullMesh_regular n
  exact (C67_regular (Graph.newFullMesh n) (fullMesh_inRange n) (n - 1) h.1
    (by rw [length_fullMesh]; exact h.2)).1

/-- C67: an unconfigured node with links gets the top tier as validators, with the 67% threshold (or the
relative one); all other nodes are left alone. -/
theorem C67_configure (R : Rand) (g : Graph) (T : List NodeId) (rel : Option ℚ) (f : Fbas)
    (s : R.State) (x : NodeId) (q : QuorumSet) (hx : HasQSet f x q) (hxg : x < g.outlinks.length) :
    (q = QuorumSet.empty → (∃ j, Link g x j) →
      ∃ f', Qsc.globalRank R g T rel x (f, s) = .ok (.change, f', s) ∧
        HasQSet f' x ⟨Qsc.calculateThreshold T.length rel, T, []⟩ ∧
        (∀ y q', y ≠ x → (HasQSet f' y q' ↔ HasQSet f y q')) ∧
        f'.nodes.map Node.publicKey = f.nodes.map Node.publicKey ∧ f'.pkToId = f.pkToId) ∧
    (q ≠ QuorumSet.empty ∨ (¬ ∃ j, Link g x j) →
      Qsc.globalRank R g T rel x (f, s) = .ok (.noChange, f, s)) := by
  obtain ⟨hxn, hex⟩ := existing_eq hx
  have hl : g.outlinks[x]? = some g.outlinks[x] := List.getElem?_eq_getElem hxg
  have hlink : (∃ j, Link g x j) ↔ g.outlinks[x] ≠ [] := by
    rw [ne_nil_iff]
    constructor
    · rintro ⟨j, l, h1, h2⟩
      rw [hl] at h1
      exact ⟨j, by rwa [Option.some.inj h1]⟩
    · rintro ⟨j, hj⟩
      exact ⟨j, _, hl, hj⟩
  have hget : getE g.outlinks x = .ok g.outlinks[x] := by unfold getE; rw [hl]
  constructor
  · rintro rfl hj
    obtain ⟨f', g1, g2, g3⟩ := swap_spec hxn
      { QuorumSet.empty with threshold := Qsc.calculateThreshold T.length rel, validators := T }
    refine ⟨f', ?_, ?_, ?_, g2.1, g2.2⟩
    · unfold Qsc.globalRank
      dsimp only
      rw [hex]
      dsimp only
      rw [if_pos rfl, hget]
      dsimp only
      rw [if_pos (hlink.1 hj), g1]
    · rw [← getQuorumSet_iff, g3, if_pos rfl]
      cases rel <;> rfl
    · intro y q' hy
      rw [← getQuorumSet_iff, ← getQuorumSet_iff, g3, if_neg hy]
  · intro h
    unfold Qsc.globalRank
    dsimp only
    rw [hex]
    dsimp only
    by_cases hq : q = QuorumSet.empty
    · rw [if_pos hq, hget]
      dsimp only
      rw [if_neg]
      rcases h with h | h
      · exact absurd hq h
      · exact fun h' => h (hlink.2 h')
    · rw [if_neg hq]

/-- The configuration that `GlobalRankQsc` chooses for `x`. -/
def rankTarget (g : Graph) (T : List NodeId) (rel : Option ℚ) (x : NodeId) : QuorumSet :=
  if g.outlinks.getD x [] ≠ [] then ⟨Qsc.calculateThreshold T.length rel, T, []⟩
  else QuorumSet.empty

theorem rank_oneShot (R : Rand) (g : Graph) (T : List NodeId) (rel : Option ℚ) :
    OneShot (Qsc.globalRank R g T rel) g.outlinks.length (rankTarget g T rel) := by
  intro f s x hx hxg
  have hlink : (∃ j, Link g x j) ↔ g.outlinks.getD x [] ≠ [] := by
    rw [ne_nil_iff]
    simp only [link_iff]
  have hget : getE g.outlinks x = .ok (g.outlinks.getD x []) := by
    unfold getE; rw [List.getElem?_eq_getElem hxg]; simp [hxg]
  constructor
  · intro he
    obtain ⟨-, hex⟩ := existing_eq he
    by_cases hc : g.outlinks.getD x [] ≠ []
    · obtain ⟨f', g1, g2, g3⟩ := swap_spec hx (rankTarget g T rel x)
      refine ⟨.change, f', s, ?_, g2, g3⟩
      unfold Qsc.globalRank
      dsimp only
      rw [hex]
      dsimp only
      rw [if_pos rfl, hget]
      dsimp only
      rw [if_pos hc]
      have : rankTarget g T rel x = { QuorumSet.empty with
          threshold := Qsc.calculateThreshold T.length rel, validators := T } := by
        unfold rankTarget; rw [if_pos hc]; rfl
      rw [← this, g1]
    · refine ⟨.noChange, f, s,
        (C67_configure R g T rel f s x _ he hxg).2 (.inr (fun h => hc (hlink.1 h))),
        ⟨rfl, rfl⟩, fun y => ?_⟩
      have : rankTarget g T rel x = QuorumSet.empty := by unfold rankTarget; rw [if_neg hc]
      rw [this]
      split
      · rename_i h; rw [h]; exact getQuorumSet_iff.2 he
      · rfl
  · intro ht
    by_cases hq : rankTarget g T rel x = QuorumSet.empty
    · by_cases hc : g.outlinks.getD x [] ≠ []
      · have ht' := ht
        rw [hq] at ht
        obtain ⟨-, hex⟩ := existing_eq ht
        refine ⟨.change, s, ?_⟩
        unfold Qsc.globalRank
        dsimp only
        rw [hex]
        dsimp only
        rw [if_pos rfl, hget]
        dsimp only
        rw [if_pos hc]
        have : rankTarget g T rel x = { QuorumSet.empty with
            threshold := Qsc.calculateThreshold T.length rel, validators := T } := by
          unfold rankTarget; rw [if_pos hc]; rfl
        rw [← this, setQuorumSet_same ht']
      · exact ⟨.noChange, s,
          (C67_configure R g T rel f s x _ ht hxg).2 (.inr (fun h => hc (hlink.1 h)))⟩
    · exact ⟨.noChange, s, (C67_configure R g T rel f s x _ ht hxg).2 (.inl hq)⟩

/-- C67: growing an FBAS with `GlobalRankQsc` up to the size of the graph never panics. The quorums of
the result are exactly the non-empty sets of nodes with links that contain enough top tier nodes (at
least 67%, for `relative_threshold = None`), whatever the random choices. -/
theorem C67_growth (R : Rand) (g : Graph) (T : List NodeId) (hT : T.Nodup) (n : ℕ)
    (hn : n ≤ g.outlinks.length) (s : R.State) :
    ∃ sim', simulateGrowth (Qsc.globalRank R g T none) n ⟨Fbas.new, [], s⟩ = .ok sim' ∧
      sim'.fbas.nodes.map Node.publicKey = (List.range n).map (fun i => "n" ++ toString i) ∧
      ∀ Q : NodeSet, IsQuorum sim'.fbas Q ↔
        Q.Nonempty ∧ T ≠ [] ∧ (∀ x ∈ Q, x < n ∧ ∃ j, Link g x j) ∧
          2 * T.length + 1 ≤ 3 * (T.filter (· ∈ Q)).length := by
  obtain ⟨sim', h1, h2, h3⟩ := growth_oneShot_from_empty (rank_oneShot R g T none) n hn s
  refine ⟨sim', h1, h2, fun Q => ?_⟩
  have hlen : sim'.fbas.nodes.length = n := by
    have := congrArg List.length h2; simpa using this
  have hlink : ∀ x, (∃ j, Link g x j) ↔ g.outlinks.getD x [] ≠ [] := by
    intro x
    rw [ne_nil_iff]
    simp only [link_iff]
  have hslice : ∀ x, Slice Q (rankTarget g T none x) ↔
      (∃ j, Link g x j) ∧ T ≠ [] ∧ 2 * T.length + 1 ≤ 3 * (T.filter (· ∈ Q)).length := by
    intro x
    rw [hlink]
    unfold rankTarget
    by_cases hc : g.outlinks.getD x [] ≠ []
    · rw [if_pos hc]
      classical
      rw [slice_iff_count]
      simp only [List.filter_nil, List.length_nil, Nat.add_zero]
      show 1 ≤ Qsc.calculate67pThreshold T.length ∧ Qsc.calculate67pThreshold T.length ≤ _ ↔ _
      by_cases hTe : T = []
      · subst hTe
        constructor
        · rintro ⟨h, -⟩; exact absurd h (by decide)
        · rintro ⟨-, h, -⟩; exact absurd rfl h
      · have hpos := List.length_pos_iff.2 hTe
        rw [C41_least _ hpos]
        exact ⟨fun h => ⟨hc, hTe, h.2⟩, fun h => ⟨(C41_bounds _ hpos).1, h.2.2⟩⟩
    · rw [if_neg hc]
      constructor
      · rintro ⟨_, _, _, _, _, _, _, h, _⟩
        exact absurd h (by decide)
      · rintro ⟨h, -⟩; exact absurd h hc
  constructor
  · rintro ⟨hne, hall⟩
    have key : ∀ x ∈ Q, x < n ∧ (∃ j, Link g x j) ∧ T ≠ [] ∧
        2 * T.length + 1 ≤ 3 * (T.filter (· ∈ Q)).length := by
      intro x hx
      obtain ⟨q, hq, hs⟩ := hall x hx
      have hxn : x < n := by
        obtain ⟨nd, hnd, -⟩ := hq
        rw [← hlen]; exact (List.getElem?_eq_some_iff.1 hnd).1
      have hq' := h3 x (by rw [hlen]; exact hxn)
      have : q = rankTarget g T none x := by
        obtain ⟨a, a1, a2⟩ := hq
        obtain ⟨b, b1, b2⟩ := hq'
        rw [a1] at b1
        rw [← a2, ← b2, Option.some.inj b1]
      rw [this] at hs
      exact ⟨hxn, (hslice x).1 hs⟩
    obtain ⟨x, hx⟩ := hne
    exact ⟨⟨x, hx⟩, (key x hx).2.2.1, fun y hy => ⟨(key y hy).1, (key y hy).2.1⟩, (key x hx).2.2.2⟩
  · rintro ⟨hne, hTe, hall, hc⟩
    exact ⟨hne, fun x hx => ⟨_, h3 x (by rw [hlen]; exact (hall x hx).1),
      (hslice x).2 ⟨(hall x hx).2, hTe, hc⟩⟩⟩

/-- C67: the quorums of the result pairwise intersect; there is a quorum (so that the result enjoys
quorum intersection) iff enough of the top tier nodes have been created and have links. -/
theorem C67_quorum_intersection (R : Rand) (g : Graph) (T : List NodeId) (hT : T.Nodup) (n : ℕ)
    (hn : n ≤ g.outlinks.length) (s : R.State) (sim' : Simulator R)
    (h : simulateGrowth (Qsc.globalRank R g T none) n ⟨Fbas.new, [], s⟩ = .ok sim') :
    (∀ Q Q', IsQuorum sim'.fbas Q → IsQuorum sim'.fbas Q' → ∃ x, x ∈ Q ∧ x ∈ Q') ∧
    (QuorumIntersection sim'.fbas ↔
      ∃ A ⊆ T.toFinset, (∀ x ∈ A, x < n ∧ ∃ j, Link g x j) ∧ 2 * T.length + 1 ≤ 3 * A.card) := by
  obtain ⟨sim'', h1, -, h2⟩ := C67_growth R g T hT n hn s
  rw [h1] at h
  obtain rfl := Except.ok.inj h
  have hint : ∀ Q Q', IsQuorum sim''.fbas Q → IsQuorum sim''.fbas Q' → ∃ x, x ∈ Q ∧ x ∈ Q' := by
    intro Q Q' hQ hQ'
    obtain ⟨-, hTe, -, hc⟩ := (h2 Q).1 hQ
    obtain ⟨-, -, -, hc'⟩ := (h2 Q').1 hQ'
    by_contra hdis
    have hlen : (T.filter (· ∈ Q)).length + (T.filter (· ∈ Q')).length ≤ T.length := by
      have hle : (T.filter (· ∈ Q')).length ≤ (T.filter (fun x => !decide (x ∈ Q))).length := by
        apply List.Sublist.length_le
        apply List.monotone_filter_right
        intro x hx
        simp only [decide_eq_true_eq, Bool.not_eq_true', decide_eq_false_iff_not] at hx ⊢
        intro hxQ
        exact hdis ⟨x, hxQ, hx⟩
      have := List.length_eq_length_filter_add (l := T) (fun x => decide (x ∈ Q))
      exact (Nat.add_le_add_left hle _).trans this.ge
    have hpos := List.length_pos_iff.2 hTe
    have hc2 : 2 * T.length + 1 ≤ 3 * (T.filter (· ∈ Q)).length := hc
    have hc2' : 2 * T.length + 1 ≤ 3 * (T.filter (· ∈ Q')).length := hc'
    omega
  refine ⟨hint, ?_⟩
  constructor
  · rintro ⟨⟨Q, hQ⟩, -⟩
    obtain ⟨-, hTe, hall, hc⟩ := (h2 Q).1 hQ
    refine ⟨(T.filter (· ∈ Q)).toFinset, ?_, ?_, ?_⟩
    · intro x hx
      rw [List.mem_toFinset, List.mem_filter] at hx
      exact List.mem_toFinset.2 hx.1
    · intro x hx
      rw [List.mem_toFinset, List.mem_filter] at hx
      exact hall x (by simpa using hx.2)
    · rw [List.toFinset_card_of_nodup (hT.filter _)]
      exact hc
  · rintro ⟨A, hA, hall, hc⟩
    refine ⟨⟨A, (h2 A).2 ⟨?_, ?_, hall, ?_⟩⟩, hint⟩
    · rw [← Finset.card_pos]; omega
    · rintro rfl
      have : A = ∅ := Finset.subset_empty.1 hA
      subst this
      simp at hc
    · have hle : A.card ≤ (T.filter (· ∈ A)).length := by
        rw [← List.toFinset_card_of_nodup (hT.filter _)]
        apply Finset.card_le_card
        intro x hx
        rw [List.mem_toFinset, List.mem_filter]
        exact ⟨List.mem_toFinset.1 (hA hx), by simpa using hx⟩
      exact hc.trans (Nat.mul_le_mul_left 3 hle)

/-- Concrete case: the graph of the test `global_rank_qsc` (tiers of 2, 3 and 1 nodes) with `f64`. -/
example : (Graph.newTieredFullMesh [2, 3, 1]).bind (Qsc.topTierNodes F64.round) = .ok [0, 1] :=
  Ref.ok_of (by decide +kernel)

/-- Nodes 0 and 1 link to each other, the other nodes to both of them. -/
def twoHubs : Graph := ⟨[[1], [0], [0, 1], [0, 1]]⟩

theorem twoHubs_inRange : LinksInRange twoHubs := by
  rintro i j ⟨l, hl, hj⟩
  have : ∀ l ∈ twoHubs.outlinks, ∀ j ∈ l, j < twoHubs.outlinks.length := by decide
  exact this l (List.mem_of_getElem? hl) j hj

/-- Concrete case of `C46_growth`: nodes 2 and 3 trust themselves and both hubs. -/
example (R : Rand) (s : R.State) : ∃ sim' vs,
    simulateGrowth (Qsc.allNeighbors R twoHubs none) 4 ⟨Fbas.new, [], s⟩ = .ok sim' ∧
      HasQSet sim'.fbas 2 ⟨Qsc.calculateThreshold vs.length none, vs, []⟩ ∧ 0 ∈ vs ∧ 1 ∈ vs ∧ 2 ∈ vs := by
  obtain ⟨sim', h1, -, h2⟩ := C46_growth R twoHubs none 4 (le_refl 4) s
  obtain ⟨vs, a1, -, a2, -⟩ := (h2 2 (by decide)).1 (.inl ⟨0, _, rfl, by simp⟩)
  exact ⟨sim', vs, h1, a1, (a2 0).2 (.inr ⟨_, rfl, by simp⟩), (a2 1).2 (.inr ⟨_, rfl, by simp⟩),
    (a2 2).2 (.inl rfl)⟩

/-- Concrete case of `C66_regular` and `C67_regular`: a cycle of 3 nodes. -/
example : (Graph.mk [[1], [2], [0]]).getRankScores id = .ok [1/3, 1/3, 1/3] ∧
    Qsc.topTierNodes id (Graph.mk [[1], [2], [0]]) = .ok [] := by
  have hg : LinksInRange (Graph.mk [[1], [2], [0]]) := by
    rintro i j ⟨l, hl, hj⟩
    have : ∀ l ∈ ([[1], [2], [0]] : List (List ℕ)), ∀ j ∈ l, j < 3 := by decide
    exact this l (List.mem_of_getElem? hl) j hj
  have hin : ∀ j < (Graph.mk [[1], [2], [0]]).outlinks.length, linksInto (Graph.mk [[1], [2], [0]]) j = 1 := by
    decide +kernel
  refine ⟨?_, (C67_regular _ hg 1 (by decide) hin).1⟩
  rw [(C66_regular _ hg 1 (by decide) hin).2 (by decide)]
  norm_num [List.replicate]

/-- Concrete case of `C67_top_tier`, `C67_empty_iff`: with exact numbers, the hubs are the top tier. -/
example : Qsc.topTierNodes id twoHubs = .ok [0, 1] := Ref.ok_of (by decide +kernel)

/-- Concrete case of `C67_configure`: node 2 has no quorum set yet. -/
example (R : Rand) (s : R.State) : ∃ f', Qsc.globalRank R twoHubs [0, 1] none 2
      (Ref.mkFbas (List.replicate 4 QuorumSet.empty), s) = .ok (.change, f', s) ∧
    HasQSet f' 2 ⟨2, [0, 1], []⟩ := by
  obtain ⟨f', h1, h2, -⟩ := (C67_configure R twoHubs [0, 1] none
    (Ref.mkFbas (List.replicate 4 QuorumSet.empty)) s 2 QuorumSet.empty ⟨_, rfl, rfl⟩ (by decide)).1 rfl
    ⟨0, _, rfl, by simp⟩
  exact ⟨f', h1, h2⟩

/-- Concrete case of `C67_growth` and `C67_quorum_intersection`. -/
example (R : Rand) (s : R.State) : ∃ sim', simulateGrowth (Qsc.globalRank R twoHubs [0, 1] none) 4
      ⟨Fbas.new, [], s⟩ = .ok sim' ∧ IsQuorum sim'.fbas {0, 1, 3} ∧ QuorumIntersection sim'.fbas := by
  obtain ⟨sim', h1, -, h2⟩ := C67_growth R twoHubs [0, 1] (by decide) 4 (le_refl 4) s
  have hl : ∀ x < 4, ∃ j, Link twoHubs x j := by
    intro x hx
    have : ∀ x < 4, ∃ j ∈ (twoHubs.outlinks[x]?).getD [], True := by decide
    obtain ⟨j, hj, -⟩ := this x hx
    cases hl : twoHubs.outlinks[x]? with
    | none => rw [hl] at hj; cases hj
    | some l => rw [hl] at hj; exact ⟨j, l, hl, hj⟩
  refine ⟨sim', h1, (h2 _).2 ⟨⟨0, by decide⟩, by decide, fun x hx => ?_, by decide⟩,
    ((C67_quorum_intersection R twoHubs [0, 1] (by decide) 4 (le_refl 4) s sim' h1).2).2
      ⟨{0, 1}, by decide, fun x hx => ?_, by decide⟩⟩
  · have : ∀ x ∈ ({0, 1, 3} : NodeSet), x < 4 := by decide
    exact ⟨this x hx, hl x (this x hx)⟩
  · have : ∀ x ∈ ({0, 1} : NodeSet), x < 4 := by decide
    exact ⟨this x hx, hl x (this x hx)⟩

#print axioms C67_top_tier
#print axioms C67_empty_iff
#print axioms C67_regular
#print axioms C67_counterexample
#print axioms C67_configure
#print axioms C67_growth
#print axioms C67_quorum_intersection

end FA.Props
