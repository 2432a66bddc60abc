import Verif.Lemmas.GraphGenerator
import Verif.Props.SimulatorTools
import Mathlib.Data.Rat.Encodable

/-!
# C72: the graph generator
-/

namespace FA.Props
open FA Spec

/-- C72: whatever is generated, the output (file or standard output) can be read again. The result has
the generated links, up to the renaming of nodes by the drawn permutation (if not switched off), in sorted lists without duplicates. If
every generated node has links, no node gets lost. -/
theorem C72_readable (R : Rand) (s s' : R.State) (config : GraphGenerator.Config) (g : Graph)
    (h : GraphGenerator.applyGraphGenAlg R s config = .ok (g, s')) (showF64 : ℚ → Text)
    (hs : ∀ x, '\n' ∉ showF64 x) (toFile dontShuffle : Bool) :
    ∃ (t : Text) (G : Graph) (π : ℕ → ℕ),
      GraphGenerator.main R showF64 s toFile dontShuffle config = .ok t ∧
      Graph.fromAsRelString t = .ok G ∧
      (dontShuffle = true → ∀ i, π i = i) ∧
      (dontShuffle = false → ∀ i < g.outlinks.length,
        (R.shuffle s' (List.range g.outlinks.length)).1[i]? = some (π i)) ∧
      (∀ i < g.outlinks.length, π i < g.outlinks.length) ∧
      (∀ i < g.outlinks.length, ∀ j < g.outlinks.length, π i = π j → i = j) ∧
      (∀ i < g.outlinks.length, ∀ j < g.outlinks.length, (Link G (π i) (π j) ↔ Link g i j)) ∧
      LinksInRange G ∧ Undirected G ∧ SimpleLinks G ∧ (∀ l ∈ G.outlinks, l.Pairwise (· < ·)) ∧
      G.outlinks.length ≤ g.outlinks.length ∧
      ((∀ l ∈ g.outlinks, l ≠ []) → Renamed π g G) :=
  output_spec h hs toFile dontShuffle

/-- C72: the tool panics exactly if the parameters are refused, or not suitable, for the generator: for
Barabasi-Albert if not `1 ≤ m ≤ m0 ≤ n` or if `m0 = 1 < n`, for Watts-Strogatz if `k` is odd or greater
than `n`. Shuffling and writing never panic. -/
theorem C72_panics_iff (R : Rand) (s : R.State) (config : GraphGenerator.Config)
    (showF64 : ℚ → Text) (hs : ∀ x, '\n' ∉ showF64 x) (toFile dontShuffle : Bool) :
    (∃ e, GraphGenerator.main R showF64 s toFile dontShuffle config = .error e) ↔
      (∃ n m0 m, config = .barabasiAlbert n m0 m ∧
        (¬ (1 ≤ m ∧ m ≤ m0 ∧ m0 ≤ n) ∨ (m0 = 1 ∧ 1 < n))) ∨
      (∃ n k beta, config = .wattsStrogatz n k beta ∧ (k % 2 ≠ 0 ∨ n < k)) := by
  have key : (∃ e, GraphGenerator.main R showF64 s toFile dontShuffle config = .error e) ↔
      ∃ e, GraphGenerator.applyGraphGenAlg R s config = .error e := by
    cases h : GraphGenerator.applyGraphGenAlg R s config with
    | error e =>
      unfold GraphGenerator.main GraphGenerator.generate
      rw [h]
      exact ⟨fun _ => ⟨e, rfl⟩, fun _ => ⟨e, rfl⟩⟩
    | ok p =>
      obtain ⟨g, s'⟩ := p
      obtain ⟨t, -, -, ht, -⟩ := output_spec h hs toFile dontShuffle
      rw [ht]
      constructor
      · rintro ⟨e, he⟩; cases he
      · rintro ⟨e, he⟩; cases he
  rw [key]
  cases config with
  | barabasiAlbert n m0 m =>
    refine (C48_panics_iff R s n m0 m).trans ?_
    constructor
    · intro h
      exact .inl ⟨n, m0, m, rfl, by omega⟩
    · rintro (⟨_, _, _, he, h⟩ | ⟨_, _, _, he, h⟩)
      · cases he
        omega
      · cases he
  | wattsStrogatz n k beta =>
    refine (C49_panics_iff R s n k beta).trans ?_
    constructor
    · intro h
      exact .inr ⟨n, k, beta, rfl, h⟩
    · rintro (⟨_, _, _, he, h⟩ | ⟨_, _, _, he, h⟩)
      · cases he
      · cases he
        exact h

/-- C72, except for `n = m0 = m = 1`: for all random choices, what is read from the output of
`BarabasiAlbert` is, up to the names of nodes, an undirected graph with `n` nodes in which the first
`m0` nodes form a clique and every later node has exactly `m` links to earlier ones. -/
theorem C72_scale_free_partial (R : Rand) (s : R.State) (n m0 m : ℕ) (h2 : 2 ≤ m0) (hn : m0 ≤ n)
    (hm : 1 ≤ m) (hmm : m ≤ m0) (showF64 : ℚ → Text) (hs : ∀ x, '\n' ∉ showF64 x)
    (toFile dontShuffle : Bool) :
    ∃ (t : Text) (G : Graph) (π : ℕ → ℕ),
      GraphGenerator.main R showF64 s toFile dontShuffle (.barabasiAlbert n m0 m) = .ok t ∧
      Graph.fromAsRelString t = .ok G ∧ G.outlinks.length = n ∧
      LinksInRange G ∧ Undirected G ∧ SimpleLinks G ∧ (∀ l ∈ G.outlinks, l.Pairwise (· < ·)) ∧
      numLinks G = m0 * (m0 - 1) + 2 * m * (n - m0) ∧
      (dontShuffle = true → ∀ i, π i = i) ∧
      (∀ i < n, π i < n) ∧ (∀ i < n, ∀ j < n, π i = π j → i = j) ∧
      (∀ i < m0, ∀ j < m0, i ≠ j → Link G (π i) (π j)) ∧
      (∀ i, m0 ≤ i → i < n → Set.ncard {j | j < i ∧ Link G (π i) (π j)} = m) := by
  obtain ⟨g, s', h1, h3, h4, -, h6, h7, h8, h9⟩ := C48_scale_free R s n m0 m h2 hn hm hmm
  obtain ⟨t, G, π, k1, k2, k3, -, k4, k5, k6, k7, k8, k9, k10, -, k11⟩ :=
    output_spec (config := .barabasiAlbert n m0 m) h1 hs toFile dontShuffle
  have hne := scaleFree_ne h2 hm h7 h8
  have hr := k11 hne
  refine ⟨t, G, π, k1, k2, by rw [hr.size, h3], k7, k8, k9, k10, ?_, k3, by rwa [h3] at k4,
    by rwa [h3] at k5, ?_, ?_⟩
  · rw [hr.numLinks h4 k7 h6 k9, h9]
  · intro i hi j hj hij
    exact (k6 i (by omega) j (by omega)).2 (h7 i hi j hj hij)
  · intro i hi hin
    have hin' : i < g.outlinks.length := by rw [h3]; exact hin
    have hl : g.outlinks[i]? = some g.outlinks[i] := List.getElem?_eq_getElem hin'
    rw [← h8 i hi _ hl, ← ncard_filter (h6.2 i _ hl) i]
    congr 1
    ext j
    constructor
    · rintro ⟨hj, hji⟩
      obtain ⟨l, hl', hjl⟩ := (k6 i hin' j (Nat.lt_trans hj hin')).1 hji
      rw [hl] at hl'
      cases hl'
      exact ⟨hj, hjl⟩
    · rintro ⟨hj, hji⟩
      exact ⟨hj, (k6 i hin' j (Nat.lt_trans hj hin')).2 ⟨_, hl, hji⟩⟩

/-- C72, for `0 < k < n`: for all random choices, what is read from the output of `WattsStrogatz` is an
undirected graph with `n` nodes and `n * k` (directed) links, in which every node has at least `k / 2`
links. -/
theorem C72_small_world_partial (R : Rand) (s : R.State) (n k : ℕ) (beta : ℚ) (h0 : 0 < k)
    (hk : k < n) (he : k % 2 = 0) (showF64 : ℚ → Text) (hs : ∀ x, '\n' ∉ showF64 x)
    (toFile dontShuffle : Bool) :
    ∃ (t : Text) (G : Graph),
      GraphGenerator.main R showF64 s toFile dontShuffle (.wattsStrogatz n k beta) = .ok t ∧
      Graph.fromAsRelString t = .ok G ∧ G.outlinks.length = n ∧
      LinksInRange G ∧ Undirected G ∧ SimpleLinks G ∧ (∀ l ∈ G.outlinks, l.Pairwise (· < ·)) ∧
      numLinks G = n * k ∧ ∀ l ∈ G.outlinks, k / 2 ≤ l.length := by
  obtain ⟨g, s', h1, h3, h4, -, h6, h9⟩ := C49_small_world R s n k beta hk he
  have hmin := C49_min_degree R s n k beta hk he g s' h1
  obtain ⟨t, G, π, k1, k2, k3, -, k4, k5, k6, k7, k8, k9, k10, -, k11⟩ :=
    output_spec (config := .wattsStrogatz n k beta) h1 hs toFile dontShuffle
  have hr := k11 (fun l hl e => by
    have := hmin l hl
    rw [e, List.length_nil] at this
    omega)
  refine ⟨t, G, k1, k2, by rw [hr.size, h3], k7, k8, k9, k10, ?_, ?_⟩
  · rw [hr.numLinks h4 k7 h6 k9, h9]
  · intro l hl
    obtain ⟨a, ha, rfl⟩ := List.getElem_of_mem hl
    have ha' := ha
    rw [hr.size] at ha'
    obtain ⟨i, hi, rfl⟩ := hr.surj ha'
    have hd := hr.outDegree h4 k7 h6 k9 hi
    unfold outDegree at hd
    rw [List.getD_eq_getElem?_getD, List.getElem?_eq_getElem ha, List.getD_eq_getElem?_getD,
      List.getElem?_eq_getElem hi] at hd
    have := hmin _ (List.getElem_mem hi)
    simp only [Option.getD_some] at hd
    rw [hd]
    exact this

/-- C72: without rewiring and shuffling, each node is linked to the `k / 2` nodes before and after it on
the ring. -/
theorem C72_ring (R : Rand) (s : R.State) (n k : ℕ) (hk : k ≤ n) (he : k % 2 = 0)
    (showF64 : ℚ → Text) (hs : ∀ x, '\n' ∉ showF64 x) (toFile : Bool) :
    ∃ (t : Text) (G : Graph),
      GraphGenerator.main R showF64 s toFile true (.wattsStrogatz n k 0) = .ok t ∧
      Graph.fromAsRelString t = .ok G ∧
      ∀ x y, Link G x y ↔ x < n ∧ y < n ∧
        ∃ d, 1 ≤ d ∧ d ≤ k / 2 ∧ ((x + d) % n = y ∨ (y + d) % n = x) := by
  obtain ⟨g, s', h1, h2⟩ := C49_ring_lattice R s n k hk he
  obtain ⟨t, G, π, k1, k2, k3, -, -, -, k6, k7, -, -, -, k10, -⟩ :=
    output_spec (config := .wattsStrogatz n k 0) h1 hs toFile true
  have hlen : g.outlinks.length = n := by
    obtain ⟨m, s1, e1, -⟩ := smallWorld_spec R s hk he 0
    rw [e1] at h1
    cases h1
    simp
  refine ⟨t, G, k1, k2, fun x y => ?_⟩
  rw [← h2]
  have key : x < n → y < n → (Link G x y ↔ Link g x y) := fun hx hy => by
    have := k6 x (by rw [hlen]; exact hx) y (by rw [hlen]; exact hy)
    rwa [k3 rfl, k3 rfl] at this
  constructor
  · intro h
    refine (key ?_ ?_).1 h
    · exact Nat.lt_of_lt_of_le (link_lt h) (hlen ▸ k10)
    · have := k7 _ _ h
      exact Nat.lt_of_lt_of_le this (hlen ▸ k10)
  · intro h
    exact (key ((h2 x y).1 h).1 ((h2 x y).1 h).2.1).2 h

/-- C72, with the simulator (`graph_generator ... | qsc_simulator all-neighbors`): the generated FBAS has
as many nodes as requested from the graph generator, and the quorum set of each node consists of the
node itself and its neighbours in the graph, of which there is at least one. -/
theorem C72_simulator (R R' : Rand) (s : R.State) (config : GraphGenerator.Config) (n : ℕ)
    (hc : Suitable config n) (showF64 : ℚ → Text) (hs : ∀ x, '\n' ∉ showF64 x)
    (toFile dontShuffle : Bool) (rnd : ℚ → ℚ) (rel : Option ℚ) (u : R'.State) :
    ∃ (t : Text) (G : Graph),
      GraphGenerator.main R showF64 s toFile dontShuffle config = .ok t ∧
      Graph.fromAsRelString t = .ok G ∧ G.outlinks.length = n ∧
      (∀ x < n, ∃ y, y ≠ x ∧ Link G x y) ∧
      Prints (QscSimulator.main R' rnd ⟨0, 0, .allNeighbors t rel⟩ u) n
        (fun x q => FlatOver rel (fun y => y = x ∨ Link G x y) q) := by
  obtain ⟨g, s', h1, h2, h3⟩ := suitable_spec R s hc
  obtain ⟨t, G, π, k1, k2, -, -, -, -, k6, -, -, k9, -, -, k11⟩ := output_spec h1 hs toFile dontShuffle
  have hr := k11 h3
  have hn : G.outlinks.length = n := by rw [hr.size, h2]
  have hl : ∀ x < n, ∃ y, y ≠ x ∧ Link G x y := by
    intro x hx
    rw [← h2] at hx
    obtain ⟨i, hi, rfl⟩ := hr.surj hx
    obtain ⟨j, hj⟩ := List.exists_mem_of_ne_nil _ (h3 _ (List.getElem_mem hi))
    have hij : Link g i j := ⟨_, List.getElem?_eq_getElem hi, hj⟩
    have hG := (k6 i hi j ((generated_inRange h1).1 _ _ hij)).2 hij
    refine ⟨π j, fun e => ?_, hG⟩
    rw [e] at hG
    exact k9.1 _ hG
  refine ⟨t, G, k1, k2, hn, hl, ?_⟩
  obtain ⟨f, e1, e2, e3⟩ := C71_all_neighbors R' rnd 0 0 t rel G k2 u
  have hw : wantedSize ⟨0, 0, .allNeighbors t rel⟩ G.outlinks.length = n := by
    simp [wantedSize, hn]
  rw [hw] at e2
  refine ⟨f, e1, e2, fun x q hq => (e3 x q hq).1 (.inl ?_)⟩
  obtain ⟨y, -, hy⟩ := hl x (by
    have hlen := congrArg List.length e2
    rw [List.length_map, List.length_map, List.length_range] at hlen
    rw [← hlen]
    exact hasQSet_lt hq)
  exact ⟨y, hy⟩

/-- C72: the first line of the output is a comment that tells all parameters: outputs that begin with the
same line have been generated with the same parameters. -/
theorem C72_comment (R R' : Rand) (s : R.State) (u : R'.State) (showF64 : ℚ → Text)
    (hs : ∀ x, '\n' ∉ showF64 x) (hinj : ∀ x y, showF64 x = showF64 y → x = y)
    (toFile toFile' dontShuffle dontShuffle' : Bool) (config config' : GraphGenerator.Config)
    (t t' : Text) (h : GraphGenerator.main R showF64 s toFile dontShuffle config = .ok t)
    (h' : GraphGenerator.main R' showF64 u toFile' dontShuffle' config' = .ok t') :
    t.head? = some '#' ∧ ((Text.lines t).head? = (Text.lines t').head? ↔ config = config') := by
  have e := firstLine hs h
  have e' := firstLine hs h'
  refine ⟨e.2, ?_⟩
  rw [e.1, e'.1]
  constructor
  · intro he
    exact headComment_inj hinj (List.cons.inj (List.cons.inj (Option.some.inj he)).2).2
  · rintro rfl
    rfl

/-- There are such ways to show numbers, for example as many digits as the number has in an enumeration. -/
example : ∃ showF64 : ℚ → Text, (∀ x, '\n' ∉ showF64 x) ∧ ∀ x y, showF64 x = showF64 y → x = y := by
  refine ⟨fun x => List.replicate (Encodable.encode x) '0', fun x h => ?_, fun x y h => ?_⟩
  · exact absurd (List.eq_of_mem_replicate h) (by decide)
  · have := congrArg List.length h
    rw [List.length_replicate, List.length_replicate] at this
    exact Encodable.encode_injective this

/-- `k = 0`: the written file contains no nodes at all, and the simulator simulates nothing; the same for
the only Barabasi-Albert graph without links. -/
theorem C72_counterexample :
    GraphGenerator.main lazyRand (fun _ => ['0']) () true true (.wattsStrogatz 3 0 0) =
        .ok "# Graph generated using WattsStrogatz { n: 3, k: 0, beta: 0 }\n".toList ∧
      Graph.fromAsRelString
        "# Graph generated using WattsStrogatz { n: 3, k: 0, beta: 0 }\n".toList = .ok ⟨[]⟩ ∧
      GraphGenerator.main lazyRand (fun _ => ['0']) () true true (.barabasiAlbert 1 1 1) =
        .ok "# Graph generated using BarabasiAlbert { n: 1, m0: 1, m: 1 }\n".toList ∧
      Graph.fromAsRelString
        "# Graph generated using BarabasiAlbert { n: 1, m0: 1, m: 1 }\n".toList = .ok ⟨[]⟩ :=
  ⟨Ref.ok_of (by decide +kernel), Ref.ok_of (by decide +kernel), Ref.ok_of (by decide +kernel),
    Ref.ok_of (by decide +kernel)⟩

/-- Concrete cases: on standard output, with shuffling; in a file, without. -/
example : GraphGenerator.main busyRand (fun _ => ['0']) (0 : ℕ) false false (.barabasiAlbert 4 3 1) =
    .ok "# Graph generated using BarabasiAlbert { n: 4, m0: 3, m: 1 }\n0|1|0\n1|3|0\n1|2|0\n2|3|0\n\n".toList :=
  Ref.ok_of (by decide +kernel)

example : GraphGenerator.main lazyRand (fun _ => ['0']) () true true (.wattsStrogatz 4 2 0) =
    .ok "# Graph generated using WattsStrogatz { n: 4, k: 2, beta: 0 }\n0|1|0\n0|3|0\n1|2|0\n2|3|0\n".toList :=
  Ref.ok_of (by decide +kernel)

example : Suitable (.barabasiAlbert 4 2 1) 4 ∧ Suitable (.wattsStrogatz 4 2 0) 4 :=
  ⟨by simp [Suitable], by simp [Suitable]⟩

#print axioms C72_readable
#print axioms C72_panics_iff
#print axioms C72_scale_free_partial
#print axioms C72_small_world_partial
#print axioms C72_ring
#print axioms C72_simulator
#print axioms C72_comment
#print axioms C72_counterexample

end FA.Props
