import Verif.Lemmas.SmallWorld
import Verif.Props.Graph

/-!
# C48, C49: random graphs
-/

namespace FA.Props
open FA Spec

/-! ## C48 -/

/-- C48: for all random choices, `new_random_scale_free` with `2 ≤ m0 ≤ n` and `1 ≤ m ≤ m0` yields an
undirected graph without self-loops and duplicate links. The first `m0` nodes form a clique and
every later node has exactly `m` links to earlier ones. -/
theorem C48_scale_free (R : Rand) (s : R.State) (n m0 m : ℕ) (h2 : 2 ≤ m0) (hn : m0 ≤ n)
    (hm : 1 ≤ m) (hmm : m ≤ m0) :
    ∃ g s', Graph.newRandomScaleFree R s n m0 m = .ok (g, s') ∧ g.outlinks.length = n ∧
      LinksInRange g ∧ Undirected g ∧ SimpleLinks g ∧
      (∀ i < m0, ∀ j < m0, i ≠ j → Link g i j) ∧
      (∀ i, m0 ≤ i → ∀ l, g.outlinks[i]? = some l → (l.filter (fun j => j < i)).length = m) ∧
      numLinks g = m0 * (m0 - 1) + 2 * m * (n - m0) := by
  obtain ⟨o, s', h, hi⟩ := scaleFree_spec R s h2 hn hm hmm
  refine ⟨⟨o⟩, s', h, hi.length, ?_, ?_, ⟨?_, ?_⟩, ?_, ?_, hi.total⟩
  · intro i j hij
    show j < o.length
    rw [hi.length]
    exact hi.range i j (link_row.1 hij)
  · intro i j hij
    exact link_row.2 (hi.symm i j (link_row.1 hij))
  · intro i hii
    exact hi.loop i (link_row.1 hii)
  · intro i l hl
    rw [← row_eq hl]; exact hi.nodup i
  · intro i hi1 j hj hij
    exact link_row.2 (hi.start i hi1 j hj hij)
  · intro i hi1 l hl
    have hlt : i < o.length := (List.getElem?_eq_some_iff.1 hl).1
    rw [hi.length] at hlt
    rw [← row_eq hl]
    exact hi.later i hi1 hlt

/-- C48: the function panics exactly if an assertion on `m` fails, if there are fewer than `m0` nodes
or if `m0 = 1` and there are more nodes (all weights are 0 in the first random choice). The last two
cases are not excluded by the assertions. -/
theorem C48_panics_iff (R : Rand) (s : R.State) (n m0 m : ℕ) :
    (∃ e, Graph.newRandomScaleFree R s n m0 m = .error e) ↔
      ¬ (1 ≤ m ∧ m ≤ m0 ∧ m ≤ n) ∨ n < m0 ∨ (m0 = 1 ∧ 1 < n) := by
  by_cases ha : 0 < m ∧ m ≤ m0 ∧ m ≤ n
  swap
  · refine ⟨fun _ => .inl ha, fun _ => ?_⟩
    unfold Graph.newRandomScaleFree
    rw [if_neg ha]
    exact ⟨_, rfl⟩
  obtain ⟨h1, h2, h3⟩ := ha
  rcases Nat.lt_or_ge n m0 with hlt | hge
  · refine ⟨fun _ => .inr (.inl hlt), fun _ => ?_⟩
    have herr : ∃ e, Graph.scaleFreeInit m0 (List.replicate n []) = .error e := by
      cases hc : Graph.scaleFreeInit m0 (List.replicate n []) with
      | error e => exact ⟨e, rfl⟩
      | ok o =>
        exfalso
        unfold Graph.scaleFreeInit at hc
        rw [show rangeFT 0 m0 = 0 :: rangeFT 1 m0 by
          unfold rangeFT
          obtain ⟨k, rfl⟩ : ∃ k, m0 = k + 1 := ⟨m0 - 1, by omega⟩
          simp [List.range'_succ]] at hc
        rw [foldE] at hc
        obtain ⟨e, he⟩ : ∃ e, foldE (fun o j => Graph.connect o 0 j)
            (List.replicate n ([] : List NodeId)) (rangeFT (0 + 1) m0) = .error e := by
          apply foldE_stops (P := fun o => o.length = n) (a := n)
          · simp
          · intro o j hP o' ho
            rw [connect_length ho]; exact hP
          · intro o hP
            exact connect_error (by rw [hP])
          · rw [mem_rangeFT]; omega
        rw [he] at hc
        cases hc
    obtain ⟨e, he⟩ := herr
    unfold Graph.newRandomScaleFree
    rw [if_pos ⟨h1, h2, h3⟩, he]
    exact ⟨e, rfl⟩
  · rcases Nat.lt_or_ge 1 m0 with hgt | hle
    · obtain ⟨g, s', h, -⟩ := C48_scale_free R s n m0 m hgt hge h1 h2
      rw [h]
      constructor
      · rintro ⟨e, he⟩; cases he
      · intro h; omega
    · obtain rfl : m0 = 1 := by omega
      obtain rfl : m = 1 := by omega
      rcases Nat.lt_or_ge 1 n with hn | hn
      · refine ⟨fun _ => .inr (.inr ⟨rfl, hn⟩), fun _ => ?_⟩
        obtain ⟨o, h1, h2, h3⟩ := scaleFreeInit_spec hge
        unfold Graph.newRandomScaleFree
        rw [if_pos ⟨Nat.le_refl _, Nat.le_refl _, hge⟩, h1]
        dsimp only
        rw [show rangeFT 1 n = 1 :: rangeFT 2 n by
          unfold rangeFT
          obtain ⟨k, rfl⟩ : ∃ k, n = k + 2 := ⟨n - 2, by omega⟩
          rw [show k + 2 - 1 = k + 1 by omega, show k + 2 - 2 = k by omega, List.range'_succ]]
        rw [foldE, Graph.scaleFreeLinks]
        cases hc : R.chooseWeighted s (fun x => (o.getD x []).length) (rangeFT 0 1) with
        | mk r s1 =>
          cases r with
          | none => exact ⟨_, rfl⟩
          | some j =>
            exfalso
            obtain ⟨hj, hw⟩ := R.chooseWeighted_some s _ _ j (by rw [hc])
            obtain rfl : j = 0 := by simpa using hj
            have h4 : o.getD 0 [] = [] := h3 0
            rw [h4] at hw
            exact Nat.lt_irrefl 0 hw
      · obtain rfl : n = 1 := by omega
        constructor
        · rintro ⟨e, he⟩; cases he
        · intro h; omega

/-- Concrete case: two different random choices. -/
example : (Graph.newRandomScaleFree lazyRand () 4 2 1).map (fun r => r.1) =
    .ok ⟨[[1, 2, 3], [0], [0], [0]]⟩ := Ref.ok_of (by decide +kernel)

example : (Graph.newRandomScaleFree busyRand (0 : ℕ) 5 2 2).map (fun r => r.1) =
    .ok ⟨[[1, 2], [0, 2, 3], [1, 0, 3, 4], [2, 1, 4], [3, 2]]⟩ := Ref.ok_of (by decide +kernel)

/-! ## C49 -/

/-- C49: for all random choices, `new_random_small_world` with `k < n` and even `k` yields an
undirected graph with `n` nodes and `n * k` links (i.e. `n * k / 2` edges) without self-loops and
duplicate links. -/
theorem C49_small_world (R : Rand) (s : R.State) (n k : ℕ) (beta : ℚ) (hk : k < n)
    (he : k % 2 = 0) :
    ∃ g s', Graph.newRandomSmallWorld R s n k beta = .ok (g, s') ∧ g.outlinks.length = n ∧
      LinksInRange g ∧ Undirected g ∧ SimpleLinks g ∧ numLinks g = n * k := by
  obtain ⟨m, s', h1, h2, h3, h4, -⟩ := smallWorld_spec R s (Nat.le_of_lt hk) he beta
  refine ⟨_, s', h1, by simp, ?_, ?_, ⟨?_, ?_⟩, ?_⟩
  · intro i j hij
    rw [smallWorld_link] at hij
    simpa using hij.2.1
  · intro i j hij
    rw [smallWorld_link] at hij ⊢
    exact ⟨hij.2.1, hij.1, by rw [h2]; exact hij.2.2⟩
  · intro i hi
    rw [smallWorld_link, h3] at hi
    cases hi.2.2
  · intro i l hl
    obtain ⟨a, -, rfl⟩ := List.mem_map.1 (List.mem_of_getElem? hl)
    exact (nodup_rangeFT 0 n).filter _
  · rw [smallWorld_numLinks, h4 hk, Nat.mul_comm]

/-- C49: every node keeps at least half of its `k` links, whatever is rewired. -/
theorem C49_min_degree (R : Rand) (s : R.State) (n k : ℕ) (beta : ℚ) (hk : k < n) (he : k % 2 = 0)
    (g : Graph) (s' : R.State) (h : Graph.newRandomSmallWorld R s n k beta = .ok (g, s')) :
    ∀ l ∈ g.outlinks, k / 2 ≤ l.length := by
  obtain ⟨m, s1, h1, h2, -, -, -, h5⟩ := smallWorld_spec R s (Nat.le_of_lt hk) he beta
  rw [h1] at h
  obtain ⟨rfl, -⟩ := Prod.mk.inj (Except.ok.inj h)
  intro l hl
  obtain ⟨a, ha, rfl⟩ := List.mem_map.1 hl
  rw [mem_rangeFT] at ha
  obtain ⟨W, w1, w2⟩ := h5 hk a ha.2
  have hsub : W ⊆ ((rangeFT 0 n).filter (fun j => cell m a j)).toFinset := by
    intro x hx
    rw [List.mem_toFinset, List.mem_filter, mem_rangeFT]
    exact ⟨⟨Nat.zero_le _, (w2 x hx).1⟩, (w2 x hx).2⟩
  rw [← w1]
  exact (Finset.card_le_card hsub).trans (List.toFinset_card_le _)

/-- C49 for `beta = 0`: the result is the ring lattice, i.e. two nodes are linked iff their distance on
the ring is at least 1 and at most `k / 2`. -/
theorem C49_ring_lattice (R : Rand) (s : R.State) (n k : ℕ) (hk : k ≤ n) (he : k % 2 = 0) :
    ∃ g s', Graph.newRandomSmallWorld R s n k 0 = .ok (g, s') ∧
      ∀ x y, Link g x y ↔ x < n ∧ y < n ∧
        ∃ d, 1 ≤ d ∧ d ≤ k / 2 ∧ ((x + d) % n = y ∨ (y + d) % n = x) := by
  obtain ⟨m, s', h1, h2, h3, -, h5, -⟩ := smallWorld_spec R s hk he 0
  refine ⟨_, s', h1, fun x y => ?_⟩
  rw [smallWorld_link, h5 rfl]
  constructor
  · rintro ⟨hx, hy, a, b, h, h'⟩
    refine ⟨hx, hy, b - a, by omega, by omega, ?_⟩
    have hb : a + (b - a) = b := by omega
    rcases h' with ⟨rfl, rfl⟩ | ⟨rfl, rfl⟩
    · left; rw [hb]
    · right; rw [hb]
  · rintro ⟨hx, hy, d, hd1, hd2, h⟩
    rcases h with h | h
    · exact ⟨hx, hy, x, x + d, .inl ⟨hx, by omega, by omega⟩, .inl ⟨rfl, h.symm⟩⟩
    · exact ⟨hx, hy, y, y + d, .inl ⟨hy, by omega, by omega⟩, .inr ⟨rfl, h.symm⟩⟩

/-- C49: the function panics exactly if `k` is odd or greater than `n`. -/
theorem C49_panics_iff (R : Rand) (s : R.State) (n k : ℕ) (beta : ℚ) :
    (∃ e, Graph.newRandomSmallWorld R s n k beta = .error e) ↔ k % 2 ≠ 0 ∨ n < k := by
  by_cases he : k % 2 = 0
  swap
  · refine ⟨fun _ => .inl he, fun _ => ?_⟩
    unfold Graph.newRandomSmallWorld
    rw [if_neg he]; exact ⟨_, rfl⟩
  rcases Nat.lt_or_ge n k with hlt | hge
  · refine ⟨fun _ => .inr hlt, fun _ => ?_⟩
    unfold Graph.newRandomSmallWorld
    rw [if_pos he]
    cases Graph.ringLattice n k with
    | error e => exact ⟨e, rfl⟩
    | ok m =>
      dsimp only
      rw [if_pos hlt]; exact ⟨_, rfl⟩
  · obtain ⟨m, s', h1, -⟩ := smallWorld_spec R s hge he beta
    rw [h1]
    constructor
    · rintro ⟨e, h⟩; cases h
    · intro h; omega

/-- Concrete case: all links are rewired. -/
example : (Graph.newRandomSmallWorld busyRand (0 : ℕ) 6 2 (1 / 2)).map (fun r => r.1) =
    .ok ⟨[[1, 4], [0, 2], [1, 3], [2, 4], [0, 3, 5], [4]]⟩ := Ref.ok_of (by decide +kernel)

#print axioms C48_scale_free
#print axioms C48_panics_iff
#print axioms C49_small_world
#print axioms C49_min_degree
#print axioms C49_ring_lattice
#print axioms C49_panics_iff

end FA.Props
