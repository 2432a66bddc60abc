import Verif.Lemmas.Rewire
import Verif.Props.RandomGraph
import Verif.Props.GraphGenerator

/-!
# C101: the networks that `new_random_small_world` can generate
-/

namespace FA.Props
open FA Spec

/-- C101: `new_random_small_world` follows the procedure of Watts and Strogatz. A coin with probability `beta` is
flipped once for every link of the ring that still exists, in the order of the nodes, and exactly the links for which
it was heads are replaced. `Coin` can be anything that is known about coins with this probability. -/
theorem C101_small_world (R : Rand) (s s' : R.State) (n k : ℕ) (beta : ℚ) (Coin : Bool → Prop)
    (hR : ∀ s, Coin (R.genBool s beta).1) (g : Graph)
    (h : Graph.newRandomSmallWorld R s n k beta = .ok (g, s')) :
    WattsStrogatz Coin n (k / 2) n (Link g) := by
  have hne : ¬ (k % 2 ≠ 0 ∨ n < k) := by
    rw [← C49_panics_iff R s n k beta]
    rintro ⟨e, he⟩
    rw [h] at he; cases he
  obtain ⟨g1, s1, E, h1, h2, h3⟩ := smallWorld_wattsStrogatz R s (n := n) (k := k) (by omega) (by omega) hR
  rw [h] at h1
  obtain ⟨rfl, rfl⟩ := Prod.mk.inj (Except.ok.inj h1)
  have : Link g = E := by
    funext x y
    exact propext (h2 x y)
  rw [this]
  exact h3

/-- C101: every network of Watts and Strogatz can be generated, and no others. -/
theorem C101_possible (n k : ℕ) (beta : ℚ) (hb : beta ≠ 0) (E : ℕ → ℕ → Prop) :
    (∃ (R : Rand) (s s' : R.State) (g : Graph), Graph.newRandomSmallWorld R s n k beta = .ok (g, s') ∧
      ∀ x y, Link g x y ↔ E x y) ↔
    k % 2 = 0 ∧ k ≤ n ∧ WattsStrogatz (fun _ => True) n (k / 2) n E := by
  constructor
  · rintro ⟨R, s, s', g, h, hg⟩
    have hne : ¬ (k % 2 ≠ 0 ∨ n < k) := by
      rw [← C49_panics_iff R s n k beta]
      rintro ⟨e, he⟩
      rw [h] at he; cases he
    have := C101_small_world R s s' n k beta (fun _ => True) (fun _ => trivial) g h
    have hE : Link g = E := by
      funext x y
      exact propext (hg x y)
    rw [hE] at this
    exact ⟨by omega, by omega, this⟩
  · rintro ⟨he, hk, h⟩
    obtain ⟨s, s', g, h1, h2⟩ := flipping_smallWorld hk he hb h
    exact ⟨flipping, s, s', g, h1, h2⟩

/-- C101 if the coin is always heads, e.g. for the probability 1: no link of a node with its successors that exists
when the node is considered is spared (unless there is nothing to replace it with). -/
theorem C101_all_replaced {n h i : ℕ} {E' : ℕ → ℕ → Prop} (hw : WattsStrogatz (fun b => b = true) n h (i + 1) E') :
    ∃ E js, WattsStrogatz (fun b => b = true) n h i E ∧ MovesLinks n i E js E' ∧
      ∀ j, j ∈ js ↔ E i j ∧ ∃ d, 1 ≤ d ∧ d ≤ h ∧ j = (i + d) % n := by
  cases hw with
  | @node _ E js _ h1 h2 h3 =>
    refine ⟨E, js, h1, h3, fun j => ?_⟩
    have key : ∀ {l js : List ℕ}, Flipped (fun b => b = true) (E i) l js → ∀ j, j ∈ js ↔ E i j ∧ j ∈ l := by
      intro l js hf
      induction hf with
      | nil => simp
      | @skip a l js hp _ ih =>
        intro j
        rw [ih, List.mem_cons]
        refine and_congr_right (fun hj => ⟨.inr, ?_⟩)
        rintro (rfl | h)
        · exact absurd hj hp
        · exact h
      | tails _ hc _ _ => cases hc
      | @heads a l js hp _ _ ih =>
        intro j
        rw [List.mem_cons, ih, List.mem_cons]
        constructor
        · rintro (rfl | h)
          · exact ⟨hp, .inl rfl⟩
          · exact ⟨h.1, .inr h.2⟩
        · rintro ⟨ha, h | h⟩
          · exact .inl h
          · exact .inr ⟨ha, h⟩
    rw [key h2]
    refine and_congr_right (fun _ => ?_)
    rw [List.mem_map]
    constructor
    · rintro ⟨d, hd, rfl⟩
      exact ⟨d + 1, by omega, by rw [List.mem_range] at hd; omega, by congr 1; omega⟩
    · rintro ⟨d, h1, h2, rfl⟩
      exact ⟨d - 1, by rw [List.mem_range]; omega, by congr 1; omega⟩

/-- C101 for `graph_generator watts-strogatz`: what is read from the output of the tool is such a network, up to the
names of nodes (which are kept if shuffling is switched off). -/
theorem C101_tool (R : Rand) (s : R.State) (n k : ℕ) (beta : ℚ) (hk : k ≤ n) (he : k % 2 = 0)
    (Coin : Bool → Prop) (hR : ∀ s, Coin (R.genBool s beta).1) (showF64 : ℚ → Text) (hs : ∀ x, '\n' ∉ showF64 x)
    (toFile dontShuffle : Bool) :
    ∃ (t : Text) (G : Graph) (π : ℕ → ℕ),
      GraphGenerator.main R showF64 s toFile dontShuffle (.wattsStrogatz n k beta) = .ok t ∧
      Graph.fromAsRelString t = .ok G ∧ (dontShuffle = true → ∀ i, π i = i) ∧
      (∀ i < n, π i < n) ∧ (∀ i < n, ∀ j < n, π i = π j → i = j) ∧
      WattsStrogatz Coin n (k / 2) n (fun x y => x < n ∧ y < n ∧ Link G (π x) (π y)) := by
  obtain ⟨m, s', h1, -⟩ := smallWorld_spec R s hk he beta
  have hw := C101_small_world R s s' n k beta Coin hR _ h1
  obtain ⟨t, G, π, k1, k2, k3, -, k4, k5, k6, -⟩ :=
    C72_readable R s s' (.wattsStrogatz n k beta) _ h1 showF64 hs toFile dontShuffle
  have hlen : (Graph.mk ((rangeFT 0 n).map (fun i => (rangeFT 0 n).filter
      (fun j => cell m i j)))).outlinks.length = n := by simp
  rw [hlen] at k4 k5 k6
  refine ⟨t, G, π, k1, k2, k3, k4, k5, ?_⟩
  have : (fun x y => x < n ∧ y < n ∧ Link G (π x) (π y)) = Link ⟨(rangeFT 0 n).map (fun i => (rangeFT 0 n).filter
      (fun j => cell m i j))⟩ := by
    funext x y
    apply propext
    constructor
    · rintro ⟨hx, hy, h⟩
      exact (k6 x hx y hy).1 h
    · intro h
      obtain ⟨hx, hy, -⟩ := smallWorld_link.1 h
      exact ⟨hx, hy, (k6 x hx y hy).2 h⟩
  rw [this]
  exact hw

/-- Concrete case: a ring of six nodes, in which four links have been replaced. -/
example : WattsStrogatz (fun _ => True) 6 1 6 (Link ⟨[[1, 4], [0, 2], [1, 3], [2, 4], [0, 3, 5], [4]]⟩) := by
  have h : (Graph.newRandomSmallWorld busyRand (0 : ℕ) 6 2 (1 / 2)).map (fun r => r.1) =
    .ok ⟨[[1, 4], [0, 2], [1, 3], [2, 4], [0, 3, 5], [4]]⟩ := Ref.ok_of (by decide +kernel)
  cases hr : Graph.newRandomSmallWorld busyRand (0 : ℕ) 6 2 (1 / 2) with
  | error e => rw [hr] at h; cases h
  | ok r =>
    rw [hr] at h
    obtain ⟨g, s'⟩ := r
    obtain rfl : g = _ := Except.ok.inj h
    exact C101_small_world _ _ _ _ _ _ _ (fun _ => trivial) _ hr

/-- Concrete case: coins are always heads, nodes are not renamed. -/
example : ∃ (t : Text) (G : Graph) (π : ℕ → ℕ),
    GraphGenerator.main busyRand (fun _ => []) (0 : ℕ) true true (.wattsStrogatz 6 4 1) = .ok t ∧
    Graph.fromAsRelString t = .ok G ∧ (true = true → ∀ i, π i = i) ∧
    (∀ i < 6, π i < 6) ∧ (∀ i < 6, ∀ j < 6, π i = π j → i = j) ∧
    WattsStrogatz (fun b => b = true) 6 2 6 (fun x y => x < 6 ∧ y < 6 ∧ Link G (π x) (π y)) :=
  C101_tool busyRand (0 : ℕ) 6 4 1 (by decide) rfl (fun b => b = true)
    (fun _ => by show decide ((1 : ℚ) ≠ 0) = true; decide) _ (by simp) true true

/-- Concrete case: only the first node of a ring of four nodes replaces a link. -/
example : ∃ (R : Rand) (s s' : R.State) (g : Graph), Graph.newRandomSmallWorld R s 4 2 (1 / 3) = .ok (g, s') ∧
    ∀ x y, Link g x y ↔ MoveLink 0 1 2 (RingLinks 4 1) x y := by
  rw [C101_possible 4 2 (1 / 3) (by norm_num)]
  refine ⟨rfl, by decide, ?_⟩
  have keep : ∀ {i E}, WattsStrogatz (fun _ => True) 4 1 i E → WattsStrogatz (fun _ => True) 4 1 (i + 1) E := by
    intro i E h
    refine .node h (js := []) ?_ .nil
    by_cases hp : E i ((i + 1 + 0) % 4)
    · exact .tails hp trivial .nil
    · exact .skip hp .nil
  refine keep (keep (keep (.node (js := [1]) .ring (.heads ⟨by decide, by decide, 1, ?_⟩ trivial .nil)
    (.move 2 (by decide) (by decide) ?_ .nil))))
  · exact ⟨by decide, by decide, .inl rfl⟩
  · rintro ⟨-, -, d, h1, h2, h⟩
    obtain rfl : d = 1 := by omega
    revert h
    decide

#print axioms C101_small_world
#print axioms C101_possible
#print axioms C101_all_replaced
#print axioms C101_tool

end FA.Props
