import Verif.Lemmas.Mesh
import Verif.Lemmas.MeshRuns
import Verif.Lemmas.Shuffle
import Verif.Props.Simulation

/-!
# C47, C50, C52: graphs
-/

namespace FA.Props
open FA Spec

/-! ## C47 -/

/-- C47: `new_full_mesh(n)` has `n` nodes; each node links to exactly all other nodes, in ascending
order and only once. -/
theorem C47_full_mesh (n : ℕ) :
    (Graph.newFullMesh n).outlinks.length = n ∧
      (∀ i j, Link (Graph.newFullMesh n) i j ↔ i < n ∧ j < n ∧ i ≠ j) ∧
      ∀ l ∈ (Graph.newFullMesh n).outlinks, l.Pairwise (· < ·) := by
  refine ⟨by simp [Graph.newFullMesh], fun i j => link_newFullMesh, fun l hl => ?_⟩
  obtain ⟨i, -, rfl⟩ := List.mem_map.1 hl
  exact othersInRange

/-- C47: `new_tiered_full_mesh` has the documented links, and none of them twice, if every non-empty
tier is the first non-empty one or directly follows a non-empty tier. Missing: tiers that follow an
empty tier. -/
theorem C47_tiered_partial (sizes : List ℕ)
    (h : ∀ pre a suf, sizes = pre ++ a :: suf → 0 < a →
      pre.sum = 0 ∨ ∃ b, pre.getLast? = some b ∧ 0 < b) :
    ∃ g, Graph.newTieredFullMesh sizes = .ok g ∧ g.outlinks.length = sizes.sum ∧
      (∀ l ∈ g.outlinks, l.Nodup) ∧
      ∀ x y, Link g x y ↔ x ≠ y ∧ ∃ t, (InTier sizes t x ∧ InTier sizes t y) ∨
        (InTier sizes (t + 1) x ∧ InTier sizes t y) := by
  obtain ⟨g, h1, h2, h3, h4⟩ := newTieredFullMesh_spec h
  refine ⟨g, h1, h2, fun l hl => ?_, h4⟩
  obtain ⟨i, hi, rfl⟩ := List.getElem_of_mem hl
  exact h3 i _ (List.getElem?_eq_getElem hi)

/-- C47 without restrictions on the sizes: all lists of positive sizes. -/
theorem C47_tiered_positive (sizes : List ℕ) (hpos : ∀ a ∈ sizes, 0 < a) :
    ∃ g, Graph.newTieredFullMesh sizes = .ok g ∧ g.outlinks.length = sizes.sum ∧
      (∀ l ∈ g.outlinks, l.Nodup) ∧
      ∀ x y, Link g x y ↔ x ≠ y ∧ ∃ t, (InTier sizes t x ∧ InTier sizes t y) ∨
        (InTier sizes (t + 1) x ∧ InTier sizes t y) := by
  apply C47_tiered_partial
  intro pre a suf hs _
  cases hl : pre.getLast? with
  | none => left; rw [List.getLast?_eq_none_iff.1 hl]; rfl
  | some b =>
    right
    exact ⟨b, rfl, hpos b (by rw [hs]; exact List.mem_append_left _ (List.mem_of_getLast? hl))⟩

/-- C47 fails if a tier of size 0 is followed by another tier: numbering starts again at 0, so node 0
gets links twice and also to a node of a lower tier, and the nodes of the last tier get none. -/
theorem C47_counterexample :
    Graph.newTieredFullMesh [2, 0, 3] = .ok ⟨[[1, 1, 2], [0, 0, 2], [0, 1], [], []]⟩ ∧
      InTier [2, 0, 3] 2 3 ∧ InTier [2, 0, 3] 2 4 :=
  ⟨Ref.ok_of (by decide +kernel), by simp [InTier], by simp [InTier]⟩

/-- C47 for all lists of sizes, with empty tiers: `new_tiered_full_mesh` never panics and has as many
nodes as the sizes say; tiers are numbered starting from 0 after every empty tier. Node `x` links to `y`
once for every tier of `x` that contains `y` as well, or is directly below a tier of `y`. -/
theorem C47_tiered_all (sizes : List ℕ) :
    ∃ g, Graph.newTieredFullMesh sizes = .ok g ∧ g.outlinks.length = sizes.sum ∧
      ∀ x y, linkCount g x y =
        ((List.range sizes.length).filter (fun t => decide (TierConnects sizes t x y))).length :=
  newTieredFullMesh_runs sizes

/-- C47: exactly for which sizes the documentation holds: iff every nonempty tier is the first nonempty
one, or directly follows a nonempty one, or consists of one node and has no node in the tiers next to it.
Then no link exists twice. Otherwise links are missing. -/
theorem C47_tiered_iff (sizes : List ℕ) :
    ∃ g, Graph.newTieredFullMesh sizes = .ok g ∧
      ((∀ x y, Link g x y ↔ x ≠ y ∧ ∃ t, (InTier sizes t x ∧ InTier sizes t y) ∨
        (InTier sizes (t + 1) x ∧ InTier sizes t y)) ↔ TiersKept sizes) ∧
      (TiersKept sizes → ∀ x y, linkCount g x y ≤ 1) ∧
      (¬ TiersKept sizes → ∃ x y, ¬ Link g x y ∧ x ≠ y ∧ ∃ t, (InTier sizes t x ∧ InTier sizes t y) ∨
        (InTier sizes (t + 1) x ∧ InTier sizes t y)) := by
  obtain ⟨g, h1, h2, h3⟩ := newTieredFullMesh_runs sizes
  have hl : ∀ x y, Link g x y ↔ ∃ t, TierConnects sizes t x y := by
    intro x y
    rw [← connections_pos, ← h3, linkCount, List.count_pos_iff, Link]
    constructor
    · rintro ⟨l, hl, hy⟩
      rw [List.getD_eq_getElem?_getD, hl]; exact hy
    · intro h
      rw [List.getD_eq_getElem?_getD] at h
      cases hx : g.outlinks[x]? with
      | none => rw [hx] at h; exact absurd h List.not_mem_nil
      | some l => rw [hx] at h; exact ⟨l, rfl, h⟩
  have hiff : (∀ x y, Link g x y ↔ TierLink sizes x y) ↔ TiersKept sizes := by
    rw [← kept_iff]
    simp only [hl]
  refine ⟨g, h1, hiff, fun hk x y => ?_, fun hn => ?_⟩
  · rw [h3]
    by_contra hc
    have hc : 1 < ((List.range sizes.length).filter
      (fun t => decide (TierConnects sizes t x y))).length := by
      unfold connections at hc; omega
    have hnd : ((List.range sizes.length).filter
      (fun t => decide (TierConnects sizes t x y))).Nodup := List.nodup_range.filter _
    have k : ∀ i (h : i < _), TierConnects sizes (((List.range sizes.length).filter
        (fun t => decide (TierConnects sizes t x y)))[i]'h) x y := fun i h =>
      of_decide_eq_true (List.mem_filter.1 (List.getElem_mem h)).2
    have := connects_unique hk (k 0 (by omega)) (k 1 hc)
    rw [hnd.getElem_inj_iff] at this
    omega
  · unfold TiersKept at hn
    push Not at hn
    obtain ⟨pre, a, suf, e, ha, n1, n2, n3⟩ := hn
    have hlast : pre.getLast? = some 0 := by
      cases hl : pre.getLast? with
      | none =>
        rw [List.getLast?_eq_none_iff] at hl
        subst hl
        exact absurd rfl n1
      | some b =>
        have := n2 b hl
        rw [show b = 0 by omega]
    obtain ⟨x, y, k1, k2⟩ := link_missing _ (Nat.le_refl _) e ha (by omega) hlast (by
      rintro ⟨m1, m2⟩
      obtain ⟨b, hb, hb'⟩ := n3 m1
      exact hb' (m2 b hb))
    exact ⟨x, y, fun h => k2 ((hl x y).1 h), k1⟩

/-- Concrete cases: one kept although a tier is empty, one that is not. -/
example : TiersKept [0, 2, 3, 0, 1] ∧ ¬ TiersKept [2, 0, 3] := by
  constructor
  · intro pre a suf h ha
    match pre, h with
    | [], h => exact .inl rfl
    | [_], h => simp at h; exact .inl (by simp [h])
    | [_, _], h => simp at h; exact .inr (.inl ⟨2, by rw [← h.2.1]; rfl, by omega⟩)
    | [_, _, _], h => simp at h; omega
    | [_, _, _, _], h => simp at h; exact .inr (.inr ⟨by omega, by simp [h]⟩)
    | _ :: _ :: _ :: _ :: _ :: l, h => simp at h
  · intro h
    rcases h [2, 0] 3 [] rfl (by omega) with h | ⟨b, hb, hb'⟩ | ⟨h, -⟩
    · simp at h
    · simp at hb; omega
    · omega

/-- Concrete case. -/
example : Graph.newTieredFullMesh [2, 3, 1] =
    .ok ⟨[[1], [0], [0, 1, 3, 4], [0, 1, 2, 4], [0, 1, 2, 3], [2, 3, 4]]⟩ :=
  Ref.ok_of (by decide +kernel)

#print axioms C47_full_mesh
#print axioms C47_tiered_partial
#print axioms C47_tiered_positive
#print axioms C47_tiered_all
#print axioms C47_tiered_iff
#print axioms C47_counterexample

/-! ## C50 -/

/-- C50: if all links are in range, `shuffled()` does not panic; the result is the same graph with the
nodes renamed by the drawn permutation: links of node `i` are at the new ID of `i`, in the same order,
with new IDs. -/
theorem C50_isomorphic (R : Rand) (s : R.State) (g : Graph) (hg : LinksInRange g) :
    ∃ (g' : Graph) (s' : R.State) (π : ℕ → ℕ), g.shuffled R s = .ok (g', s') ∧
      g'.outlinks.length = g.outlinks.length ∧
      (∀ i < g.outlinks.length,
        (R.shuffle s (List.range g.outlinks.length)).1[i]? = some (π i)) ∧
      (∀ i < g.outlinks.length, π i < g.outlinks.length) ∧
      (∀ i < g.outlinks.length, ∀ j < g.outlinks.length, π i = π j → i = j) ∧
      (∀ k < g.outlinks.length, ∃ i < g.outlinks.length, π i = k) ∧
      (∀ i < g.outlinks.length, g'.outlinks[π i]? = (g.outlinks[i]?).map (·.map π)) ∧
      ∀ i < g.outlinks.length, ∀ j < g.outlinks.length, (Link g' (π i) (π j) ↔ Link g i j) := by
  obtain ⟨g', h1, h2, h3⟩ := shuffled_spec R s g hg
  have hp := R.shuffle_perm s (List.range g.outlinks.length)
  generalize R.shuffle s (List.range g.outlinks.length) = r at h1 h3 hp
  obtain ⟨p, s'⟩ := r
  dsimp only at h1 h3 hp
  have hlen : p.length = g.outlinks.length := by have := hp.length_eq; simpa using this
  have hnd : p.Nodup := hp.nodup_iff.2 List.nodup_range
  have hpi : ∀ i, i < g.outlinks.length → p[i]? = some (p.getD i 0) := by
    intro i hi
    rw [← hlen] at hi
    simp [hi]
  have hinj : ∀ i < g.outlinks.length, ∀ j < g.outlinks.length,
      p.getD i 0 = p.getD j 0 → i = j := by
    intro i hi j hj h
    have h4 := hpi i hi
    have h5 := hpi j hj
    rw [← h] at h5
    rw [← h5] at h4
    exact (List.getElem?_inj (by rw [hlen]; exact hi) hnd).1 h4
  have hmap : ∀ i < g.outlinks.length,
      g'.outlinks[p.getD i 0]? = (g.outlinks[i]?).map (·.map (fun j => p.getD j 0)) := by
    intro i hi
    rw [h3 i _ _ (hpi i hi) (List.getElem?_eq_getElem hi), List.getElem?_eq_getElem hi]
    rfl
  refine ⟨g', s', fun i => p.getD i 0, h1, h2, hpi, ?_, hinj, ?_, hmap, ?_⟩
  · intro i hi
    exact List.mem_range.1 (hp.mem_iff.1 (List.mem_of_getElem? (hpi i hi)))
  · intro k hk
    obtain ⟨i, hi, hik⟩ := List.getElem_of_mem (hp.mem_iff.2 (List.mem_range.2 hk))
    exact ⟨i, by rw [← hlen]; exact hi, by simp [hi, hik]⟩
  · intro i hi j hj
    unfold Link
    rw [hmap i hi, List.getElem?_eq_getElem hi]
    constructor
    · rintro ⟨l, hl, hjl⟩
      obtain rfl := Option.some.inj hl
      obtain ⟨j', hj', he⟩ := List.mem_map.1 hjl
      have := hinj j' (hg i j' ⟨_, List.getElem?_eq_getElem hi, hj'⟩) j hj he
      exact ⟨_, rfl, this ▸ hj'⟩
    · rintro ⟨l, hl, hjl⟩
      obtain rfl := Option.some.inj hl
      exact ⟨_, rfl, List.mem_map_of_mem hjl⟩

/-- Concrete case. -/
example : ((Graph.mk [[1, 2], [], [0]]).shuffled busyRand (0 : ℕ)).map Prod.fst =
    .ok ⟨[[2], [], [1, 0]]⟩ := Ref.ok_of (by decide +kernel)

#print axioms C50_isomorphic

/-! ## C52 -/

/-- C52: if all links are in range then `is_undirected()` does not panic and says whether every link has
a reverse link. -/
theorem C52_undirected (g : Graph) (hg : LinksInRange g) :
    ∃ b, g.isUndirected = .ok b ∧ (b = true ↔ Undirected g) := isUndirected_iff hg

/-- C52: the in-degree of `j` is the number of links into `j`. -/
theorem C52_in_degrees (g : Graph) (hg : LinksInRange g) :
    ∃ ds, g.getInDegrees = .ok ds ∧ ds.length = g.outlinks.length ∧
      ∀ j < g.outlinks.length, ds[j]? = some (linksInto g j) :=
  ⟨_, getInDegrees_spec hg, by simp, fun j hj => by simp [hj]⟩

/-- C52: the out-degree of `i` is the number of links listed for `i`. -/
theorem C52_out_degrees (g : Graph) :
    g.getOutDegrees.length = g.outlinks.length ∧
      ∀ (i : NodeId) (l : List NodeId), g.outlinks[i]? = some l →
        g.getOutDegrees[i]? = some l.length := by
  refine ⟨by simp [Graph.getOutDegrees], fun i l hl => ?_⟩
  simp [Graph.getOutDegrees, hl]

/-- C52: in-degrees and out-degrees have the same sum. -/
theorem C52_degree_sums (g : Graph) (hg : LinksInRange g) :
    ∃ ds, g.getInDegrees = .ok ds ∧ ds.sum = g.getOutDegrees.sum :=
  ⟨_, getInDegrees_spec hg, sum_linksInto hg⟩

/-- C52: in an undirected graph that lists no link twice, in-degrees and out-degrees are the same. -/
theorem C52_degrees_undirected (g : Graph) (hg : LinksInRange g) (hu : Undirected g)
    (hs : ∀ l ∈ g.outlinks, l.Nodup) : g.getInDegrees = .ok g.getOutDegrees := by
  rw [getInDegrees_spec hg]
  congr 1
  apply List.ext_getElem?
  intro j
  unfold Graph.getOutDegrees
  rw [List.getElem?_map, List.getElem?_map]
  by_cases hj : j < g.outlinks.length
  · rw [List.getElem?_range hj, List.getElem?_eq_getElem hj]
    show some (linksInto g j) = some _
    congr 1
    -- links into `j` correspond to links of `j`
    have h1 : linksInto g j = ((List.range g.outlinks.length).filter
        (fun i => decide (j ∈ g.outlinks.getD i []))).length := by
      have key : ∀ (o : List (List NodeId)) (k : ℕ), (∀ l ∈ o, l.Nodup) →
          (o.map (fun l => l.count j)).sum = ((List.range' k o.length).filter
            (fun i => decide (j ∈ o.getD (i - k) []))).length := by
        intro o
        induction o with
        | nil => intro k _; rfl
        | cons l o ih =>
          intro k hnd
          rw [List.map_cons, List.sum_cons, List.length_cons, List.range'_succ, List.filter_cons,
            ih (k + 1) (fun l' hl' => hnd l' (List.mem_cons_of_mem _ hl'))]
          have h2 : ((List.range' (k + 1) o.length).filter
                (fun i => decide (j ∈ (l :: o).getD (i - k) []))) =
              ((List.range' (k + 1) o.length).filter
                (fun i => decide (j ∈ o.getD (i - (k + 1)) []))) := by
            apply List.filter_congr
            intro i hi
            rw [List.mem_range'_1] at hi
            rw [show i - k = (i - (k + 1)) + 1 by omega, List.getD_cons_succ]
          rw [h2]
          by_cases hjl : j ∈ l
          · rw [List.count_eq_one_of_mem (hnd l List.mem_cons_self) hjl]
            simp [hjl, Nat.add_comm]
          · rw [List.count_eq_zero.2 hjl]
            simp [hjl]
      have := key g.outlinks 0 hs
      rw [← List.range_eq_range'] at this
      exact this
    rw [h1]
    have hp : ((List.range g.outlinks.length).filter
        (fun i => decide (j ∈ g.outlinks.getD i []))).Perm g.outlinks[j] := by
      rw [List.perm_ext_iff_of_nodup (List.nodup_range.filter _) (hs _ (List.getElem_mem hj))]
      intro i
      rw [List.mem_filter, List.mem_range, decide_eq_true_eq, ← link_iff]
      constructor
      · rintro ⟨-, h⟩
        obtain ⟨l, hl, hi⟩ := hu i j h
        rw [List.getElem?_eq_getElem hj] at hl
        rwa [Option.some.inj hl]
      · intro hi
        have hlink : Link g j i := ⟨_, List.getElem?_eq_getElem hj, hi⟩
        exact ⟨hg j i hlink, hu j i hlink⟩
    exact hp.length_eq
  · rw [List.getElem?_eq_none (by simpa using hj), List.getElem?_eq_none (by omega)]; rfl

/-- C52: `get_connected_nodes` returns exactly the nodes that have a link in or out. -/
theorem C52_connected (g : Graph) (x : NodeId) :
    x ∈ g.getConnectedNodes ↔ (∃ j, Link g x j) ∨ ∃ i, Link g i x := mem_getConnectedNodes

/-- Concrete cases. -/
example : (Graph.mk [[], [0], [0, 3], [2], []]).getConnectedNodes = {0, 1, 2, 3} := by
  decide +kernel

example : (Graph.mk [[], [0], [0, 3], [2], []]).isUndirected = .ok false :=
  Ref.ok_of (by decide +kernel)

example : (Graph.mk [[1], [0, 2], [1]]).isUndirected = .ok true := Ref.ok_of (by decide +kernel)

example : (Graph.mk [[], [0], [0, 3], [2], []]).getInDegrees = .ok [2, 0, 1, 1, 0] :=
  Ref.ok_of (by decide +kernel)

#print axioms C52_undirected
#print axioms C52_in_degrees
#print axioms C52_out_degrees
#print axioms C52_degree_sums
#print axioms C52_degrees_undirected
#print axioms C52_connected

end FA.Props
